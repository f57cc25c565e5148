import Verif.Base64.Props
import Mathlib.Data.List.Forall2
/-
  C99: texts that `Decode` accepts besides those `Encode` makes (base64_helpers.cpp:13-60): without or with part of the padding, and with
  the other characters for the digits 62 and 63.
-/
namespace CRU.Base64

/-! ### Specification -/

/-- `d` is a way to write the base64 digit that RFC 4648 writes `c`: the same character, or `-` (the URL alphabet) or `.` for `+`,
or `_` (the URL alphabet) or `,` for `/`. -/
def SameDigit (c d : UInt8) : Prop := d = c ∨ (c = 43 ∧ (d = 45 ∨ d = 46)) ∨ (c = 47 ∧ (d = 95 ∨ d = 44))

/-- `v` is the text `t` with digits written in one of these ways, each for itself, and with some of the trailing `=` left out. -/
def Variant (t v : List UInt8) : Prop :=
  ∃ (body body' : List UInt8) (k j : Nat), t = body ++ List.replicate k 61 ∧ v = body' ++ List.replicate j 61 ∧ j ≤ k ∧
    (∀ c ∈ body, c ≠ 61) ∧ List.Forall₂ SameDigit body body'

/-! ### Proofs -/

theorem decodeLoop_congr {s s' : List UInt8} : ∀ (n i j : Nat) (buf : List UInt8), (∀ k, k < i + 4 * n → idxAt s k = idxAt s' k) →
    decodeLoop s n i j buf = decodeLoop s' n i j buf
  | 0, _, _, _, _ => rfl
  | n + 1, i, j, buf, h => by
    unfold decodeLoop
    rw [h i (by omega), h (i + 1) (by omega), h (i + 2) (by omega), h (i + 3) (by omega)]
    simp only [fun b => decodeLoop_congr n (i + 4) (j + 3) b fun k hk => h k (by omega)]

/-- Texts of equal length that look alike to the table, and have `=` in the same places. -/
theorem decode_congr {s s' : List UInt8} (hl : s.length = s'.length) (hi : ∀ k, idxAt s k = idxAt s' k)
    (hc : ∀ k, k < s.length → ∃ c c', strAt s k = .ok c ∧ strAt s' k = .ok c' ∧ (c = 61 ↔ c' = 61)) : decode s = decode s' := by
  have hb : ∀ {k c c'}, strAt s k = .ok c → strAt s' k = .ok c' → (c = 61 ↔ c' = 61) → (c == 61) = (c' == 61) ∧ (c != 61) = (c' != 61) := by
    intro k c c' _ _ h
    have e : (c == 61) = (c' == 61) := by rw [Bool.eq_iff_iff, beq_iff_eq, beq_iff_eq]; exact h
    exact ⟨e, by simp only [bne, e]⟩
  have h1 : (if s'.length > 0 then do
      if s'.length % 4 ≠ 0 then pure true
      else
        let c ← strAt s (s'.length - 1)
        pure (c == 61)
    else pure false : Res Bool) = (if s'.length > 0 then do
      if s'.length % 4 ≠ 0 then pure true
      else
        let c ← strAt s' (s'.length - 1)
        pure (c == 61)
    else pure false) := by
    rw [← hl]
    by_cases hp : s.length > 0
    · obtain ⟨c, c', e1, e2, e3⟩ := hc (s.length - 1) (by omega)
      rw [e1, e2]
      simp only [Res.ok_bind, (hb e1 e2 e3).1]
    · simp [hp]
  have h2 : ∀ L, (if s'.length > L + 2 then do
        let c ← strAt s (L + 2)
        pure (c != 61)
      else pure false : Res Bool) = (if s'.length > L + 2 then do
        let c ← strAt s' (L + 2)
        pure (c != 61)
      else pure false) := by
    intro L
    rw [← hl]
    by_cases hp : s.length > L + 2
    · obtain ⟨c, c', e1, e2, e3⟩ := hc (L + 2) (by omega)
      rw [e1, e2]
      simp only [Res.ok_bind, (hb e1 e2 e3).2]
    · simp [hp]
  unfold decode
  simp only [hl, hi, h1, h2, fun n i j b => decodeLoop_congr (s := s) (s' := s') n i j b fun k _ => hi k]

theorem strAt_append {s t : List UInt8} {k : Nat} (h : k < s.length) : strAt (s ++ t) k = strAt s k := by
  rw [strAt_lt h, strAt_lt (by simp; omega), List.getElem_append_left h]

theorem idxAt_append {s t : List UInt8} {k : Nat} (h : k < s.length) : idxAt (s ++ t) k = idxAt s k := by
  unfold idxAt; rw [strAt_append h]

/-- One more `=` after an incomplete block changes nothing. -/
theorem decode_pad {s : List UInt8} (h : s.length % 4 = 2 ∨ s.length % 4 = 3) : decode (s ++ [61]) = decode s := by
  have hpos : s.length > 0 := by omega
  have hlast : strAt (s ++ [61]) s.length = .ok 61 := by
    rw [strAt_lt (by simp)]; simp
  obtain ⟨L, hL1, hL2, hL3⟩ : ∃ L, ((s.length + 3) / 4 - 1) * 4 = L ∧ ((s.length + 1 + 3) / 4 - 1) * 4 = L ∧ s.length = L + s.length % 4 := by
    exact ⟨_, rfl, by omega, by omega⟩
  have e1 : (if (s ++ [61]).length > 0 then do
      if (s ++ [61]).length % 4 ≠ 0 then pure true
      else
        let c ← strAt (s ++ [61]) ((s ++ [61]).length - 1)
        pure (c == 61)
    else pure false : Res Bool) = .ok true := by
    simp only [List.length_append, List.length_cons, List.length_nil]
    rw [if_pos (by omega)]
    split_ifs with h4
    · rfl
    · rw [show s.length + (0 + 1) - 1 = s.length by omega, hlast]; rfl
  have e2 : (if s.length > 0 then do
      if s.length % 4 ≠ 0 then pure true
      else
        let c ← strAt s (s.length - 1)
        pure (c == 61)
    else pure false : Res Bool) = .ok true := by
    rw [if_pos hpos, if_pos (by omega)]; rfl
  have e3 : (if (s ++ [61]).length > L + 2 then do
        let c ← strAt (s ++ [61]) (L + 2)
        pure (c != 61)
      else pure false : Res Bool) = (if s.length > L + 2 then do
        let c ← strAt s (L + 2)
        pure (c != 61)
      else pure false) := by
    simp only [List.length_append, List.length_cons, List.length_nil]
    rcases h with h | h
    · rw [if_pos (by omega), if_neg (by omega), show L + 2 = s.length by omega, hlast]; rfl
    · rw [if_pos (by omega), if_pos (by omega), strAt_append (by omega)]
  have e4 : ∀ i j b, i + 4 * (L / 4) ≤ s.length → decodeLoop (s ++ [61]) (L / 4) i j b = decodeLoop s (L / 4) i j b :=
    fun i j b hh => decodeLoop_congr _ _ _ _ fun k hk => idxAt_append (by omega)
  unfold decode
  simp only [e1, e2, Res.ok_bind, if_true]
  have hL4 : (((s ++ [61]).length + 3) / 4 - 1) * 4 = L := by simpa using hL2
  have hL5 : 0 + 4 * (L / 4) ≤ s.length := by clear e1 e2 e3 e4 hL4; omega
  simp only [hL1, hL4, e3, fun b => e4 0 0 b hL5, idxAt_append (t := [61]) (show L < s.length by omega),
    idxAt_append (t := [61]) (show L + 1 < s.length by omega)]
  congr 1
  funext b
  simp only [show (1 : Nat) > 0 from by decide, if_true]
  congr 1
  funext t0
  congr 1
  funext t1
  congr 1
  funext b2
  by_cases h5 : s.length > L + 2
  · simp only [idxAt_append (t := [61]) h5]
  · simp only [if_neg h5, Res.pure_eq, Res.ok_bind, Bool.false_eq_true, if_false]

theorem sameDigit_spec {c d : UInt8} (h : SameDigit c d) (hc : c.toNat < 128) :
    atRaw indexTable (charToSize c) = atRaw indexTable (charToSize d) ∧ (c = 61 ↔ d = 61) := by
  rcases h with rfl | ⟨rfl, rfl | rfl⟩ | ⟨rfl, rfl | rfl⟩
  · simp
  all_goals decide +kernel

/-- Every way to write the digits decodes alike. -/
theorem decode_variant_body {body body' : List UInt8} (h : List.Forall₂ SameDigit body body') (h7 : ∀ c ∈ body, c.toNat < 128)
    (j : Nat) : decode (body' ++ List.replicate j 61) = decode (body ++ List.replicate j 61) := by
  have hl := h.length_eq
  have key : ∀ k, k < (body ++ List.replicate j 61).length → ∃ c d, strAt (body ++ List.replicate j 61) k = .ok c ∧
      strAt (body' ++ List.replicate j 61) k = .ok d ∧ atRaw indexTable (charToSize c) = atRaw indexTable (charToSize d) ∧ (c = 61 ↔ d = 61) := by
    intro k hk
    have hk' : k < (body' ++ List.replicate j 61).length := by simpa [hl] using hk
    refine ⟨_, _, strAt_lt hk, strAt_lt hk', ?_⟩
    by_cases hb : k < body.length
    · rw [List.getElem_append_left hb, List.getElem_append_left (by omega)]
      exact sameDigit_spec (List.forall₂_iff_get.mp h |>.2 k hb (by omega)) (h7 _ (List.getElem_mem _))
    · rw [List.getElem_append_right (by omega), List.getElem_append_right (by omega)]
      simp
  refine (decode_congr (by simp [hl]) (fun k => ?_) fun k hk => ?_).symm
  · unfold idxAt
    rcases Nat.lt_trichotomy k (body ++ List.replicate j 61).length with hk | hk | hk
    · obtain ⟨c, d, e1, e2, e3, -⟩ := key k hk
      rw [e1, e2]; exact e3
    · unfold strAt
      rw [if_pos hk, if_pos (by rw [hk]; simp [hl])]
    · unfold strAt
      rw [if_neg (by omega), if_neg (by rw [List.length_append, ← hl, ← List.length_append]; omega)]
      simp only [atRaw]
      rw [List.getElem?_eq_none (by omega), List.getElem?_eq_none (by rw [List.length_append, ← hl, ← List.length_append]; omega)]
  · obtain ⟨c, d, e1, e2, -, e4⟩ := key k hk
    exact ⟨c, d, e1, e2, e4⟩

theorem encPure_seven (b : List UInt8) : ∀ c ∈ encPure b, c.toNat < 128 := by
  fun_induction encPure b with
  | case1 a b c t ih =>
    have ha := u8lt a; have hb := u8lt b; have hc := u8lt c
    have n0 := letter_seven (i := a.toNat / 4) (by omega)
    have n1 := letter_seven (i := a.toNat % 4 * 16 + b.toNat / 16) (by omega)
    have n2 := letter_seven (i := b.toNat % 16 * 4 + c.toNat / 64) (by omega)
    have n3 := letter_seven (i := c.toNat % 64) (by omega)
    simp only [List.mem_cons]
    rintro x (rfl | rfl | rfl | rfl | hx)
    · exact n0
    · exact n1
    · exact n2
    · exact n3
    · exact ih x hx
  | case2 a b =>
    have ha := u8lt a; have hb := u8lt b
    have n0 := letter_seven (i := a.toNat / 4) (by omega)
    have n1 := letter_seven (i := a.toNat % 4 * 16 + b.toNat / 16) (by omega)
    have n2 := letter_seven (i := b.toNat % 16 * 4) (by omega)
    simpa using ⟨n0, n1, n2⟩
  | case3 a =>
    have ha := u8lt a
    have n0 := letter_seven (i := a.toNat / 4) (by omega)
    have n1 := letter_seven (i := a.toNat % 4 * 16) (by omega)
    simpa using ⟨n0, n1⟩
  | case4 => simp

/-- `k` trailing `=` of an encoding, `j` of them kept. -/
theorem decode_strip (body : List UInt8) (k j : Nat) (hj : j ≤ k) (h4 : (body.length + k) % 4 = 0) (hk : k ≤ 2) :
    decode (body ++ List.replicate j 61) = decode (body ++ List.replicate k 61) := by
  have one : ∀ i, body.length % 4 = 2 ∨ body.length % 4 = 3 → (body.length + i) % 4 = 2 ∨ (body.length + i) % 4 = 3 →
      decode (body ++ List.replicate (i + 1) 61) = decode (body ++ List.replicate i 61) := by
    intro i _ hi
    rw [List.replicate_succ', ← List.append_assoc]
    exact decode_pad (by simpa using hi)
  obtain ⟨rfl, rfl⟩ | ⟨rfl, rfl⟩ | ⟨rfl, rfl⟩ | ⟨rfl, rfl⟩ | ⟨rfl, rfl⟩ | ⟨rfl, rfl⟩ :
      (k = 0 ∧ j = 0) ∨ (k = 1 ∧ j = 0) ∨ (k = 1 ∧ j = 1) ∨ (k = 2 ∧ j = 0) ∨ (k = 2 ∧ j = 1) ∨ (k = 2 ∧ j = 2) := by omega
  · rfl
  · exact (one 0 (by omega) (by omega)).symm
  · rfl
  · exact ((one 1 (by omega) (by omega)).trans (one 0 (by omega) (by omega))).symm
  · exact (one 1 (by omega) (by omega)).symm
  · rfl

theorem replicate_split {body body2 : List UInt8} {k k2 : Nat} (h1 : ∀ c ∈ body, c ≠ 61) (h2 : ∀ c ∈ body2, c ≠ 61)
    (h : body ++ List.replicate k 61 = body2 ++ List.replicate k2 61) : body = body2 ∧ k = k2 := by
  have f : ∀ (b : List UInt8) (n : Nat), (∀ c ∈ b, c ≠ 61) → (b ++ List.replicate n 61).filter (· ≠ 61) = b := by
    intro b n hb
    rw [List.filter_append, List.filter_eq_self.mpr (by simpa using hb)]
    simp
  have e : body = body2 := by rw [← f body k h1, h, f body2 k2 h2]
  subst e
  refine ⟨rfl, ?_⟩
  have := congrArg List.length h
  simpa using this

/-- **C99.** Every variant of the text of `b` decodes to `b`: unpadded base64, base64url, and mixtures. -/
theorem C99_variants (b : List UInt8) (hb : b.length < 2 ^ 63) (t v : List UInt8) (ht : encode b = .ok t) (h : Variant t v) : decode v = .ok b := by
  obtain ⟨s, body0, hs, hlen, hsplit, hbody⟩ := C02_encode_length b hb
  rw [ht] at hs
  cases hs
  obtain ⟨body, body', k, j, e1, e2, hj, hne, hf⟩ := h
  obtain ⟨rfl, rfl⟩ := replicate_split hne hbody (e1.symm.trans hsplit)
  have h7 : ∀ c ∈ body, c.toNat < 128 := by
    have : t = encPure b := by rw [encode_eq b hb] at ht; cases ht; rfl
    intro c hc
    exact encPure_seven b c (by rw [← this, e1]; simp [hc])
  have h4 : (body.length + (3 - b.length % 3) % 3) % 4 = 0 := by
    have : t.length = body.length + (3 - b.length % 3) % 3 := by rw [e1]; simp
    omega
  rw [e2, decode_variant_body hf h7, decode_strip body _ _ hj h4 (by omega), ← e1]
  have := C01_decode_encode b hb
  rw [ht] at this
  exact this

-- the bytes fb ff: Encode gives "+/8=", and "-_8" is decoded to the same
example : decode [45, 95, 56] = .ok [0xfb, 0xff] :=
  C99_variants [0xfb, 0xff] (by decide) [43, 47, 56, 61] _ (by rw [C02_encode_rfc4648 _ (by decide)]; decide +kernel)
    ⟨[43, 47, 56], [45, 95, 56], 1, 0, rfl, rfl, by decide, by decide,
      .cons (.inr (.inl ⟨rfl, .inl rfl⟩)) (.cons (.inr (.inr ⟨rfl, .inl rfl⟩)) (.cons (.inl rfl) .nil))⟩

end CRU.Base64
