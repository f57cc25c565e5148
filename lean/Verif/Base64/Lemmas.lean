import Verif.Base64.Model
import Verif.Base64.Spec
namespace CRU.Base64

/-- Letter for an index, total. -/
def letterAt (i : Nat) : UInt8 := valueTable.getD i 0

theorem valAt_eq {i : Nat} (h : i < 64) : valAt i = .ok (letterAt i) := by
  have : i < valueTable.length := by simpa [valueTable] using h
  simp [valAt, letterAt, atRaw, List.getD, List.getElem?_eq_getElem this]

theorem setRaw_mid {α} (pre : List α) (x : α) (rest : List α) (v : α) :
    setRaw (pre ++ x :: rest) pre.length v = .ok (pre ++ v :: rest) := by
  simp [setRaw]

/-- Block-wise description of the encoder (proof device). -/
def encPure : List UInt8 → List UInt8
  | a :: b :: c :: t =>
      letterAt (a.toNat / 4) :: letterAt (a.toNat % 4 * 16 + b.toNat / 16) ::
      letterAt (b.toNat % 16 * 4 + c.toNat / 64) :: letterAt (c.toNat % 64) :: encPure t
  | [a, b] => [letterAt (a.toNat / 4), letterAt (a.toNat % 4 * 16 + b.toNat / 16),
      letterAt (b.toNat % 16 * 4), 61]
  | [a] => [letterAt (a.toNat / 4), letterAt (a.toNat % 4 * 16), 61, 61]
  | [] => []

theorem encPure_length (b : List UInt8) : (encPure b).length = 4 * ((b.length + 2) / 3) := by
  fun_induction encPure b <;> simp_all <;> omega

theorem and3 (a : Nat) : a &&& 3 = a % 4 := Nat.and_two_pow_sub_one_eq_mod a 2
theorem and15 (a : Nat) : a &&& 15 = a % 16 := Nat.and_two_pow_sub_one_eq_mod a 4
theorem and63 (a : Nat) : a &&& 63 = a % 64 := Nat.and_two_pow_sub_one_eq_mod a 6
theorem and255 (a : Nat) : a &&& 255 = a % 256 := Nat.and_two_pow_sub_one_eq_mod a 8

theorem or_shift (a b k : Nat) (h : b < 2 ^ k) : a <<< k ||| b = a * 2 ^ k + b := by
  rw [← Nat.shiftLeft_add_eq_or_of_lt h, Nat.shiftLeft_eq]

theorem u8lt (x : UInt8) : x.toNat < 256 := x.toNat_lt

theorem e0 (a : UInt8) : a.toNat >>> 2 = a.toNat / 4 := by simp [Nat.shiftRight_eq_div_pow]
theorem e1 (a b : UInt8) : ((a.toNat &&& 3) <<< 4) ||| (b.toNat >>> 4) = a.toNat % 4 * 16 + b.toNat / 16 := by
  have := u8lt b
  rw [or_shift _ _ _ (by simp [Nat.shiftRight_eq_div_pow]; omega)]
  simp [Nat.shiftRight_eq_div_pow, and3]
theorem e1' (a : UInt8) : ((a.toNat &&& 3) <<< 4) = a.toNat % 4 * 16 := by
  simp [Nat.shiftLeft_eq, and3]
theorem e2 (a b : UInt8) : ((a.toNat &&& 15) <<< 2) ||| (b.toNat >>> 6) = a.toNat % 16 * 4 + b.toNat / 64 := by
  have := u8lt b
  rw [or_shift _ _ _ (by simp [Nat.shiftRight_eq_div_pow]; omega)]
  simp [Nat.shiftRight_eq_div_pow, and15]
theorem e2' (a : UInt8) : ((a.toNat &&& 15) <<< 2) = a.toNat % 16 * 4 := by
  simp [Nat.shiftLeft_eq, and15]

theorem replicate_four (n : Nat) : List.replicate (n + 4) (0 : UInt8) = 0 :: 0 :: 0 :: 0 :: List.replicate n 0 := rfl

theorem atRaw_append {α} (pre t : List α) (k : Nat) : atRaw (pre ++ t) (pre.length + k) = atRaw t k := by
  simp [atRaw, List.getElem?_append_right]

/-- Number of bytes the main loop consumes from a suffix. -/
def mainLen (t : List UInt8) : Nat := t.length / 3 * 3

theorem encodeLoop_eq (n : Nat) (pre t opre : List UInt8) (m : Nat) (hn : t.length / 3 = n) :
    encodeLoop (pre ++ t) pre.length opre.length (opre ++ List.replicate (4 * n + m) 0) =
      .ok (pre.length + mainLen t, opre.length + 4 * n,
        opre ++ encPure (t.take (mainLen t)) ++ List.replicate m 0) := by
  induction n generalizing pre t opre with
  | zero =>
    unfold encodeLoop
    have : ¬ ((pre ++ t).length - pre.length ≥ 3) := by simp; omega
    rw [if_neg this]
    have : mainLen t = 0 := by simp [mainLen]; omega
    simp [this, encPure]
  | succ n ih =>
    match t, hn with
    | a :: b :: c :: t, hn =>
      simp at hn
      have ih := ih (pre ++ [a, b, c]) t
        (opre ++ [letterAt (a.toNat / 4), letterAt (a.toNat % 4 * 16 + b.toNat / 16),
          letterAt (b.toNat % 16 * 4 + c.toNat / 64), letterAt (c.toNat % 64)]) (by omega)
      unfold encodeLoop
      have h3 : ((pre ++ a :: b :: c :: t).length - pre.length ≥ 3) := by simp
      rw [if_pos h3]
      have r0 : atRaw (pre ++ a :: b :: c :: t) pre.length = .ok a := by
        simp [atRaw]
      have r1 : atRaw (pre ++ a :: b :: c :: t) (pre.length + 1) = .ok b := by
        rw [atRaw_append]; simp [atRaw]
      have r2 : atRaw (pre ++ a :: b :: c :: t) (pre.length + 2) = .ok c := by
        rw [atRaw_append]; simp [atRaw]
      have ha := u8lt a; have hb := u8lt b; have hc := u8lt c
      rw [r0, r1, r2]
      simp only [Res.ok_bind, e0, e1, e2, and63]
      rw [valAt_eq (by omega), valAt_eq (by omega), valAt_eq (by omega), valAt_eq (by omega)]
      simp only [Res.ok_bind]
      rw [show 4 * (n + 1) + m = (4 * n + m) + 4 by omega, replicate_four]
      rw [setRaw_mid]
      simp only [Res.ok_bind]
      have s1 := setRaw_mid (opre ++ [letterAt (a.toNat / 4)]) 0 (0 :: 0 :: List.replicate (4 * n + m) 0)
        (letterAt (a.toNat % 4 * 16 + b.toNat / 16))
      simp only [List.length_append, List.length_cons, List.length_nil, List.append_assoc, List.cons_append,
        List.nil_append, Nat.zero_add] at s1
      rw [s1]
      have s2 := setRaw_mid (opre ++ [letterAt (a.toNat / 4), letterAt (a.toNat % 4 * 16 + b.toNat / 16)]) 0
        (0 :: List.replicate (4 * n + m) 0) (letterAt (b.toNat % 16 * 4 + c.toNat / 64))
      simp only [List.length_append, List.length_cons, List.length_nil, List.append_assoc, List.cons_append,
        List.nil_append, Nat.zero_add] at s2
      simp only [Res.ok_bind]
      rw [s2]
      have s3 := setRaw_mid (opre ++ [letterAt (a.toNat / 4), letterAt (a.toNat % 4 * 16 + b.toNat / 16),
        letterAt (b.toNat % 16 * 4 + c.toNat / 64)]) 0
        (List.replicate (4 * n + m) 0) (letterAt (c.toNat % 64))
      simp only [List.length_append, List.length_cons, List.length_nil, List.append_assoc, List.cons_append,
        List.nil_append, Nat.zero_add] at s3
      simp only [Res.ok_bind]
      rw [s3]
      simp only [Res.ok_bind]
      simp only [List.length_append, List.length_cons, List.length_nil, List.append_assoc, List.cons_append,
        List.nil_append, Nat.zero_add] at ih
      rw [ih]
      have hm : mainLen (a :: b :: c :: t) = mainLen t + 3 := by simp [mainLen]; omega
      rw [hm]
      simp [encPure]
      omega
    | [], hn => simp at hn
    | [_], hn => simp at hn
    | [_, _], hn => simp at hn

theorem encPure_split (t : List UInt8) :
    encPure t = encPure (t.take (mainLen t)) ++ encPure (t.drop (mainLen t)) := by
  fun_induction encPure t with
  | case1 a b c t ih =>
    have hm : mainLen (a :: b :: c :: t) = mainLen t + 3 := by simp [mainLen]; omega
    rw [hm]; simp [encPure]; exact ih
  | case2 a b => simp [mainLen, encPure]
  | case3 a => simp [mainLen, encPure]
  | case4 => simp [encPure]

theorem encode_eq (b : List UInt8) (h : b.length < 2 ^ 63) : encode b = .ok (encPure b) := by
  unfold encode
  have hmod : 4 * ((b.length + 2) / 3) % 2 ^ 64 = 4 * ((b.length + 2) / 3) := by
    apply Nat.mod_eq_of_lt; omega
  simp only [hmod]
  rw [if_neg (by omega)]
  have hlt : b.length % 3 < 3 := Nat.mod_lt _ (by omega)
  have hml : mainLen b = b.length / 3 * 3 := rfl
  have hdec : b.length = mainLen b + b.length % 3 := by omega
  have hdroplen : (b.drop (mainLen b)).length = b.length % 3 := by simp; omega
  have hat : ∀ k, atRaw b (mainLen b + k) = atRaw (b.drop (mainLen b)) k := by
    intro k; simp [atRaw, List.getElem?_drop]
  have main := fun m => encodeLoop_eq (b.length / 3) [] b [] m rfl
  simp only [List.nil_append, List.length_nil, Nat.zero_add] at main
  rw [encPure_split b]
  have hplen : (encPure (b.take (mainLen b))).length = 4 * (b.length / 3) := by
    rw [encPure_length]; simp; omega
  generalize hd : b.drop (mainLen b) = d at *
  generalize hp : encPure (b.take (mainLen b)) = p at *
  have ha := u8lt
  match d, hdroplen with
  | [], hl =>
    simp at hl
    rw [show 4 * ((b.length + 2) / 3) = 4 * (b.length / 3) + 0 by omega, main 0]
    simp [encPure]
    omega
  | [x], hl =>
    simp at hl
    rw [show 4 * ((b.length + 2) / 3) = 4 * (b.length / 3) + 4 by omega, main 4]
    simp only [Res.ok_bind]
    have h0 := hat 0
    simp only [Nat.add_zero] at h0
    have hx := u8lt x
    have hc : b.length - mainLen b = 1 := by omega
    rw [if_pos (by omega), h0]
    simp only [hc, if_true, atRaw, List.getElem?_cons_zero, Res.ok_bind, e0, e1']
    rw [valAt_eq (by omega), valAt_eq (by omega)]
    simp only [Res.ok_bind]
    rw [← hplen]
    simp only [List.replicate]
    rw [setRaw_mid]
    simp only [Res.ok_bind]
    have s1 := setRaw_mid (p ++ [letterAt (x.toNat / 4)]) 0 [0, 0] (letterAt (x.toNat % 4 * 16))
    have s2 := setRaw_mid (p ++ [letterAt (x.toNat / 4), letterAt (x.toNat % 4 * 16)]) 0 [0] 61
    have s3 := setRaw_mid (p ++ [letterAt (x.toNat / 4), letterAt (x.toNat % 4 * 16), 61]) 0 [] 61
    simp only [List.length_append, List.length_cons, List.length_nil, List.append_assoc, List.cons_append,
        List.nil_append, Nat.zero_add] at s1 s2 s3
    rw [s1]; simp only [Res.ok_bind]; rw [s2]; simp only [Res.ok_bind]; rw [s3]
    simp [encPure]
  | [x, y], hl =>
    simp at hl
    rw [show 4 * ((b.length + 2) / 3) = 4 * (b.length / 3) + 4 by omega, main 4]
    simp only [Res.ok_bind]
    have h0 := hat 0
    have h1 := hat 1
    simp only [Nat.add_zero] at h0
    have hx := u8lt x
    have hy := u8lt y
    have hc : ¬ b.length - mainLen b = 1 := by omega
    rw [if_pos (by omega), h0]
    have g0 : atRaw [x, y] 0 = .ok x := rfl
    have g1 : atRaw [x, y] 1 = .ok y := rfl
    simp only [hc, if_false, h1, g0, g1, Res.ok_bind, e0, e1, e2']
    rw [valAt_eq (i := x.toNat / 4) (by omega), valAt_eq (i := x.toNat % 4 * 16 + y.toNat / 16) (by omega),
      valAt_eq (i := y.toNat % 16 * 4) (by omega)]
    simp only [Res.ok_bind]
    rw [← hplen]
    simp only [List.replicate]
    rw [setRaw_mid]
    simp only [Res.ok_bind]
    have s1 := setRaw_mid (p ++ [letterAt (x.toNat / 4)]) 0 [0, 0] (letterAt (x.toNat % 4 * 16 + y.toNat / 16))
    have s2 := setRaw_mid (p ++ [letterAt (x.toNat / 4), letterAt (x.toNat % 4 * 16 + y.toNat / 16)]) 0 [0]
      (letterAt (y.toNat % 16 * 4))
    have s3 := setRaw_mid (p ++ [letterAt (x.toNat / 4), letterAt (x.toNat % 4 * 16 + y.toNat / 16),
      letterAt (y.toNat % 16 * 4)]) 0 [] 61
    simp only [List.length_append, List.length_cons, List.length_nil, List.append_assoc, List.cons_append,
        List.nil_append, Nat.zero_add] at s1 s2 s3
    rw [s1]; simp only [Res.ok_bind]; rw [s2]; simp only [Res.ok_bind]; rw [s3]
    simp [encPure]
  | _ :: _ :: _ :: _, hl => simp at hl; omega


/-! ### Decoder -/

/-- Every char is 7-bit. -/
def sevenBit (s : List UInt8) : Prop := ∀ c ∈ s, c.toNat < 128

/-- Value the table gives to a 7-bit char, total. -/
def tbl (c : UInt8) : Nat := indexTable.getD c.toNat 0

theorem tbl_lt (c : UInt8) : tbl c < 64 := by
  have h : ∀ n, n < 256 → indexTable.getD n 0 < 64 := by decide +kernel
  exact h _ (u8lt c)

theorem lookup_eq {c : UInt8} (h : c.toNat < 128) : atRaw indexTable (charToSize c) = .ok (tbl c) := by
  have h1 : charToSize c = c.toNat := by simp [charToSize, h]
  have h3 : indexTable.length = 256 := by decide +kernel
  have h2 : c.toNat < indexTable.length := by omega
  simp [h1, atRaw, tbl, List.getD, List.getElem?_eq_getElem h2]

theorem strAt_lt {s : List UInt8} {i : Nat} (h : i < s.length) : strAt s i = .ok s[i] := by
  simp [strAt, atRaw, List.getElem?_eq_getElem h]; omega

theorem idxAt_lt {s : List UInt8} {i : Nat} (h : i < s.length) (hs : (s[i]).toNat < 128) :
    idxAt s i = .ok (tbl s[i]) := by
  simp [idxAt, strAt_lt h, lookup_eq hs]

theorem idxAt_ok {s : List UInt8} (hs : sevenBit s) {i : Nat} (h : i ≤ s.length) : ∃ v, idxAt s i = .ok v ∧ v < 64 := by
  by_cases hi : i < s.length
  · exact ⟨_, idxAt_lt hi (hs _ (List.getElem_mem hi)), tbl_lt _⟩
  · have : i = s.length := by omega
    subst this
    refine ⟨0, ?_, by omega⟩
    have h0 : atRaw indexTable (charToSize 0) = .ok 0 := by decide
    simp [idxAt, strAt, h0]

theorem decodeLoop_ok {s : List UInt8} (hs : sevenBit s) (n i j : Nat) (buf : List UInt8)
    (hi : i + 4 * n ≤ s.length) (hj : j + 3 * n ≤ buf.length) :
    ∃ r, decodeLoop s n i j buf = .ok r ∧ r.length = buf.length := by
  induction n generalizing i j buf with
  | zero => exact ⟨buf, rfl, rfl⟩
  | succ n ih =>
    obtain ⟨v0, h0, -⟩ := idxAt_ok hs (i := i) (by omega)
    obtain ⟨v1, h1, -⟩ := idxAt_ok hs (i := i + 1) (by omega)
    obtain ⟨v2, h2, -⟩ := idxAt_ok hs (i := i + 2) (by omega)
    obtain ⟨v3, h3, -⟩ := idxAt_ok hs (i := i + 3) (by omega)
    simp only [decodeLoop, h0, h1, h2, h3, Res.ok_bind, setRaw]
    rw [if_pos (by omega)]
    simp only [Res.ok_bind, List.length_set]
    rw [if_pos (by omega)]
    simp only [Res.ok_bind, List.length_set]
    rw [if_pos (by omega)]
    simp only [Res.ok_bind, List.length_set]
    obtain ⟨r, hr, hl⟩ := ih (i + 4) (j + 3) ((((buf.set j (UInt8.ofNat ((v0 <<< 18 ||| v1 <<< 12 ||| v2 <<< 6 ||| v3) >>> 16))).set (j + 1)
        (UInt8.ofNat ((v0 <<< 18 ||| v1 <<< 12 ||| v2 <<< 6 ||| v3) >>> 8 &&& 255))).set (j + 2)
        (UInt8.ofNat ((v0 <<< 18 ||| v1 <<< 12 ||| v2 <<< 6 ||| v3) &&& 255)))) (by omega) (by simp; omega)
    exact ⟨r, hr, by simpa using hl⟩

/-- Size of `Decode`'s result before the optional second tail byte. -/
theorem decode_safe {s : List UInt8} (hs : sevenBit s) : ∃ r, decode s = .ok r := by
  unfold decode
  have hpad : ∃ p : Bool, (if s.length > 0 then
      (if s.length % 4 ≠ 0 then (pure true : Res Bool)
      else (strAt s (s.length - 1) >>= fun c => pure (c == 61)))
      else pure false) = .ok p ∧ (p = true → s.length > 0) ∧ (p = false → s.length % 4 = 0) := by
    by_cases h0 : s.length > 0
    · by_cases h4 : s.length % 4 ≠ 0
      · exact ⟨true, by simp [h0, h4]⟩
      · have : s.length - 1 < s.length := by omega
        rw [strAt_lt this]
        simp [h0, h4]
        omega
    · exact ⟨false, by simp [h0]; omega⟩
  obtain ⟨p, hp, hpt, hpf⟩ := hpad
  simp only [hp, Res.ok_bind]
  cases p with
  | false =>
    have := hpf rfl
    simp
    obtain ⟨r, hr, -⟩ := decodeLoop_ok hs ((s.length + 3) / 4 ) 0 0
      (List.replicate ((s.length + 3) / 4 * 3) 0) (by omega) (by simp; omega)
    exact ⟨r, by simp [hr]⟩
  | true =>
    have := hpt rfl
    simp
    obtain ⟨r, hr, hl⟩ := decodeLoop_ok hs ((s.length + 3) / 4 - 1) 0 0
      (List.replicate (((s.length + 3) / 4 - 1) * 3 + 1) 0) (by omega) (by simp; omega)
    rw [hr]
    simp only [Res.ok_bind]
    obtain ⟨v0, h0, -⟩ := idxAt_ok hs (i := ((s.length + 3) / 4 - 1) * 4) (by omega)
    obtain ⟨v1, h1, -⟩ := idxAt_ok hs (i := ((s.length + 3) / 4 - 1) * 4 + 1) (by omega)
    simp only [h0, h1, Res.ok_bind, setRaw]
    rw [if_pos (by rw [hl]; simp)]
    simp only [Res.ok_bind]
    split
    · rename_i hgt
      rw [strAt_lt hgt]
      simp only [Res.ok_bind]
      obtain ⟨v2, h2, -⟩ := idxAt_ok hs (i := ((s.length + 3) / 4 - 1) * 4 + 2) (by omega)
      split <;> simp [h2]
    · simp

/-! Round trip -/

theorem tbl_letter {i : Nat} (h : i < 64) : tbl (letterAt i) = i := by
  have : ∀ n, n < 64 → tbl (letterAt n) = n := by decide +kernel
  exact this i h
theorem letter_seven {i : Nat} (h : i < 64) : (letterAt i).toNat < 128 := by
  have : ∀ n, n < 64 → (letterAt n).toNat < 128 := by decide +kernel
  exact this i h
theorem letter_ne {i : Nat} (h : i < 64) : letterAt i ≠ 61 := by
  have : ∀ n, n < 64 → letterAt n ≠ 61 := by decide +kernel
  exact this i h

theorem idxAt_mid (pre t : List UInt8) (k i : Nat) (hk : k < t.length) (hi : i < 64) (h : t[k] = letterAt i) :
    idxAt (pre ++ t) (pre.length + k) = .ok i := by
  have hlt : pre.length + k < (pre ++ t).length := by simp; omega
  have hget : (pre ++ t)[pre.length + k] = letterAt i := by simp [h]
  rw [idxAt_lt hlt (by rw [hget]; exact letter_seven hi), hget, tbl_letter hi]

theorem or4 (a b c d : Nat) (_ : a < 64) (hb : b < 64) (hc : c < 64) (hd : d < 64) :
    a <<< 18 ||| b <<< 12 ||| c <<< 6 ||| d = a * 262144 + b * 4096 + c * 64 + d := by
  rw [Nat.or_assoc, Nat.or_assoc, or_shift c d 6 (by omega), or_shift b _ 12 (by omega), or_shift a _ 18 (by omega)]
  omega

theorem u8_ofNat_eq (a : UInt8) (n : Nat) (h : n % 256 = a.toNat) : UInt8.ofNat n = a := by
  apply UInt8.toNat_inj.mp
  simp [h]

theorem decodeLoop_enc (n : Nat) (pre t post jp : List UInt8) (m : Nat) (ht : t.length = 3 * n) :
    decodeLoop (pre ++ (encPure t ++ post)) n pre.length jp.length (jp ++ List.replicate (3 * n + m) 0) =
      .ok (jp ++ t ++ List.replicate m 0) := by
  induction n generalizing pre t jp with
  | zero =>
    have : t = [] := List.length_eq_zero_iff.mp (by omega)
    subst this
    simp [decodeLoop]
  | succ n ih =>
    match t, ht with
    | a :: b :: c :: t, ht =>
      simp at ht
      have ha := u8lt a; have hb := u8lt b; have hc := u8lt c
      have i0 := idxAt_mid pre (encPure (a :: b :: c :: t) ++ post) 0 (a.toNat / 4) (by simp [encPure]) (by omega)
        (by simp [encPure])
      have i1 := idxAt_mid pre (encPure (a :: b :: c :: t) ++ post) 1 (a.toNat % 4 * 16 + b.toNat / 16) (by simp [encPure]) (by omega)
        (by simp [encPure])
      have i2 := idxAt_mid pre (encPure (a :: b :: c :: t) ++ post) 2 (b.toNat % 16 * 4 + c.toNat / 64) (by simp [encPure]) (by omega)
        (by simp [encPure])
      have i3 := idxAt_mid pre (encPure (a :: b :: c :: t) ++ post) 3 (c.toNat % 64) (by simp [encPure]) (by omega)
        (by simp [encPure])
      simp only [Nat.add_zero] at i0
      simp only [decodeLoop, i0, i1, i2, i3, Res.ok_bind]
      rw [or4 _ _ _ _ (by omega) (by omega) (by omega) (by omega)]
      simp only [and255, Nat.shiftRight_eq_div_pow]
      rw [u8_ofNat_eq a _ (by omega), u8_ofNat_eq b _ (by omega), u8_ofNat_eq c _ (by omega)]
      rw [show 3 * (n + 1) + m = (3 * n + m) + 1 + 1 + 1 by omega]
      simp only [List.replicate_succ]
      rw [setRaw_mid]
      have s1 := setRaw_mid (jp ++ [a]) 0 (0 :: List.replicate (3 * n + m) 0) b
      have s2 := setRaw_mid (jp ++ [a, b]) 0 (List.replicate (3 * n + m) 0) c
      have ih := ih (pre ++ [letterAt (a.toNat / 4), letterAt (a.toNat % 4 * 16 + b.toNat / 16),
        letterAt (b.toNat % 16 * 4 + c.toNat / 64), letterAt (c.toNat % 64)]) t (jp ++ [a, b, c]) (by omega)
      simp only [List.length_append, List.length_cons, List.length_nil, List.append_assoc, List.cons_append,
          List.nil_append, Nat.zero_add] at s1 s2 ih
      simp only [Res.ok_bind]
      rw [s1]; simp only [Res.ok_bind]; rw [s2]; simp only [Res.ok_bind]
      simp only [encPure, List.cons_append]
      rw [ih]; simp
    | [], ht => simp at ht
    | [_], ht => simp at ht; omega
    | [_, _], ht => simp at ht; omega

theorem encPure_last (b : List UInt8) (h3 : b.length % 3 = 0) (h : b ≠ []) :
    ∃ hl, (encPure b)[(encPure b).length - 1]'hl ≠ 61 := by
  have hlen := encPure_length b
  have hpos : 0 < b.length := List.length_pos_iff.mpr h
  refine ⟨by omega, ?_⟩
  rw [← List.getLast_eq_getElem (by intro hn; simp [hn] at hlen; omega)]
  fun_induction encPure b with
  | case1 a b c t ih =>
    by_cases ht : t = []
    · subst ht
      have := letter_ne (i := c.toNat % 64) (by omega)
      simp [encPure]; exact this
    · have hl := encPure_length t
      have hp : 0 < t.length := List.length_pos_iff.mpr ht
      have hne : encPure t ≠ [] := by intro hn; simp [hn] at hl; omega
      have := ih (by simp at h3; omega) ht hl hp
      simp [List.getLast_cons, hne]; exact this
  | case2 => simp at h3
  | case3 => simp at h3
  | case4 => simp at h

theorem decode_encPure (b : List UInt8) : decode (encPure b) = .ok b := by
  have hlen := encPure_length b
  have hlt : b.length % 3 < 3 := Nat.mod_lt _ (by omega)
  by_cases h3 : b.length % 3 = 0
  · unfold decode
    by_cases hb : b = []
    · subst hb; simp [encPure, decodeLoop]
    · obtain ⟨hl, hlast⟩ := encPure_last b h3 hb
      have hp : 0 < b.length := List.length_pos_iff.mpr hb
      dsimp only
      rw [if_pos (by omega), if_neg (by omega), strAt_lt hl]
      simp only [Res.ok_bind, Res.pure_eq]
      have hbe : ((encPure b)[(encPure b).length - 1] == 61) = false := by simpa using hlast
      simp only [hbe]
      have := decodeLoop_enc (b.length / 3) [] b [] [] 0 (by omega)
      simp only [List.nil_append, List.append_nil, List.length_nil] at this
      simp
      rw [show ((encPure b).length + 3) / 4 = b.length / 3 by omega,
        show b.length / 3 * 3 = 3 * (b.length / 3) + 0 by omega, this]
      simp
  · have hsplit := encPure_split b
    have hm : mainLen b = b.length / 3 * 3 := rfl
    have hdl : (b.drop (mainLen b)).length = b.length % 3 := by simp; omega
    have hpl : (encPure (b.take (mainLen b))).length = 4 * (b.length / 3) := by
      rw [encPure_length]; simp; omega
    have hbt : b = b.take (mainLen b) ++ b.drop (mainLen b) := by simp
    have htl : (b.take (mainLen b)).length = 3 * (b.length / 3) := by simp; omega
    have loop := fun m => decodeLoop_enc (b.length / 3) [] (b.take (mainLen b)) (encPure (b.drop (mainLen b))) [] m htl
    simp only [List.nil_append, List.append_nil, List.length_nil] at loop
    rw [← hsplit] at loop
    have hidx := fun k i hk hi h => idxAt_mid (encPure (b.take (mainLen b))) (encPure (b.drop (mainLen b))) k i hk hi h
    have hstr : ∀ k, k < 4 → ∀ hk : k < (encPure (b.drop (mainLen b))).length,
        strAt (encPure b) (4 * (b.length / 3) + k) = .ok ((encPure (b.drop (mainLen b)))[k]) := by
      intro k _ hk
      have : 4 * (b.length / 3) + k < (encPure b).length := by rw [hsplit]; simp; omega
      rw [strAt_lt this]
      congr 1
      rw [List.getElem_of_eq hsplit, List.getElem_append_right (by omega)]
      congr 1; omega
    rw [hpl] at hidx
    rw [← hsplit] at hidx
    have hdl2 : (b.drop (mainLen b)).length = 1 ∨ (b.drop (mainLen b)).length = 2 := by omega
    have hlen4 : (encPure b).length = 4 * (b.length / 3) + 4 := by omega
    have hfin : ∀ x, b.drop (mainLen b) = x → b.take (mainLen b) ++ x = b := by
      intro x hx; rw [← hx]; exact hbt.symm
    generalize hd : b.drop (mainLen b) = d at hidx hstr hdl2
    unfold decode
    dsimp only
    rw [if_pos (by omega), if_neg (by omega), show (encPure b).length - 1 = 4 * (b.length / 3) + 3 by omega]
    have hd4 : (encPure d).length = 4 := by
      rw [encPure_length]; omega
    rw [hstr 3 (by omega) (by omega)]
    match d, hdl2 with
    | [x], _ =>
      have hx := u8lt x
      have i0 := hidx 0 (x.toNat / 4) (by omega) (by omega) (by simp [encPure])
      have i1 := hidx 1 (x.toNat % 4 * 16) (by omega) (by omega) (by simp [encPure])
      simp only [Nat.add_zero] at i0
      simp [encPure]
      rw [show ((encPure b).length + 3) / 4 - 1 = b.length / 3 by omega,
        show b.length / 3 * 3 + 1 = 3 * (b.length / 3) + 1 by omega, loop 1]
      simp only [Res.ok_bind]
      rw [show b.length / 3 * 4 = 4 * (b.length / 3) by omega, i0, i1]
      simp only [Res.ok_bind]
      have s := setRaw_mid (b.take (mainLen b)) 0 [] x
      have hv : UInt8.ofNat (((x.toNat / 4) <<< 18 ||| (x.toNat % 4 * 16) <<< 12) >>> 16) = x := by
        apply u8_ofNat_eq
        have := or4 (x.toNat / 4) (x.toNat % 4 * 16) 0 0 (by omega) (by omega) (by omega) (by omega)
        simp at this
        rw [this, Nat.shiftRight_eq_div_pow]; omega
      rw [hv]
      simp only [List.replicate_one, List.length_append, List.length_cons, List.length_nil, Nat.zero_add, Nat.add_sub_cancel]
      rw [s]
      simp only [Res.ok_bind]
      rw [if_pos (by omega), hstr 2 (by omega) (by simp [encPure])]
      simp [encPure]
      exact hfin _ hd
    | [x, y], _ =>
      have hx := u8lt x
      have hy := u8lt y
      have i0 := hidx 0 (x.toNat / 4) (by omega) (by omega) (by simp [encPure])
      have i1 := hidx 1 (x.toNat % 4 * 16 + y.toNat / 16) (by omega) (by omega) (by simp [encPure])
      have i2 := hidx 2 (y.toNat % 16 * 4) (by omega) (by omega) (by simp [encPure])
      simp only [Nat.add_zero] at i0
      simp [encPure]
      rw [show ((encPure b).length + 3) / 4 - 1 = b.length / 3 by omega,
        show b.length / 3 * 3 + 1 = 3 * (b.length / 3) + 1 by omega, loop 1]
      simp only [Res.ok_bind]
      rw [show b.length / 3 * 4 = 4 * (b.length / 3) by omega, i0, i1]
      simp only [Res.ok_bind]
      have s := setRaw_mid (b.take (mainLen b)) 0 [] x
      have hv : UInt8.ofNat (((x.toNat / 4) <<< 18 ||| (x.toNat % 4 * 16 + y.toNat / 16) <<< 12) >>> 16) = x := by
        apply u8_ofNat_eq
        have := or4 (x.toNat / 4) (x.toNat % 4 * 16 + y.toNat / 16) 0 0 (by omega) (by omega) (by omega) (by omega)
        simp at this
        rw [this, Nat.shiftRight_eq_div_pow]; omega
      have hw : UInt8.ofNat ((((x.toNat / 4) <<< 18 ||| (x.toNat % 4 * 16 + y.toNat / 16) <<< 12 |||
          (y.toNat % 16 * 4) <<< 6) >>> 8) &&& 255) = y := by
        apply u8_ofNat_eq
        have := or4 (x.toNat / 4) (x.toNat % 4 * 16 + y.toNat / 16) (y.toNat % 16 * 4) 0 (by omega) (by omega) (by omega) (by omega)
        simp at this
        rw [this, Nat.shiftRight_eq_div_pow, and255]; omega
      rw [hv]
      simp only [List.replicate_one, List.length_append, List.length_cons, List.length_nil, Nat.zero_add, Nat.add_sub_cancel]
      rw [s]
      simp only [Res.ok_bind]
      have hne := letter_ne (i := y.toNat % 16 * 4) (by omega)
      rw [if_pos (by omega), hstr 2 (by omega) (by simp [encPure])]
      simp at hw
      simp [encPure, hne, i2, hw]
      exact hfin _ hd
    | [], h => simp at h
    | _ :: _ :: _ :: _, h => simp at h

/-! RFC 4648 -/

theorem letter_spec {i : Nat} (h : i < 64) : letterAt i = Spec.letter i := by
  have : ∀ n, n < 64 → letterAt n = Spec.letter n := by decide +kernel
  exact this i h

theorem sextets_six (x1 x2 x3 x4 x5 x6 : Nat) (l : List Nat) :
    Spec.sextets (x1 :: x2 :: x3 :: x4 :: x5 :: x6 :: l) =
      (32 * x1 + 16 * x2 + 8 * x3 + 4 * x4 + 2 * x5 + x6) :: Spec.sextets l := by
  rw [Spec.sextets]
  simp [Spec.value]
  omega

theorem lc {x y : Nat} {l l' : List UInt8} (h : x = y) (h' : l = l') :
    Spec.letter x :: l = Spec.letter y :: l' := by rw [h, h']

theorem encPure_text_aux (b : List UInt8) :
    encPure b = (Spec.sextets (Spec.bits b)).map Spec.letter ++
      List.replicate ((4 - ((Spec.sextets (Spec.bits b)).map Spec.letter).length % 4) % 4) 61 := by
  fun_induction encPure b with
  | case1 a b c t ih =>
    have ha := u8lt a; have hb := u8lt b; have hc := u8lt c
    simp only [Spec.bits, List.flatMap_cons, Spec.byteBits, List.cons_append, List.nil_append, sextets_six,
      List.map_cons, List.length_cons]
    rw [letter_spec (by omega), letter_spec (by omega), letter_spec (by omega), letter_spec (by omega)]
    refine lc (by omega) (lc (by omega) (lc (by omega) (lc (by omega) ?_)))
    rw [ih]
    simp only [Spec.bits]
    congr 2
    omega
  | case2 a b =>
    have ha := u8lt a; have hb := u8lt b
    simp only [Spec.bits, List.flatMap_cons, List.flatMap_nil, Spec.byteBits, List.cons_append, List.nil_append, sextets_six,
      List.map_cons, List.length_cons]
    rw [Spec.sextets, Spec.sextets.eq_def]
    simp [Spec.value, List.replicate]
    rw [letter_spec (by omega), letter_spec (by omega), letter_spec (by omega)]
    refine ⟨?_, ?_, ?_⟩ <;> congr 1 <;> omega
  | case3 a =>
    have ha := u8lt a
    simp only [Spec.bits, List.flatMap_cons, List.flatMap_nil, Spec.byteBits, List.cons_append, List.nil_append, sextets_six,
      List.map_cons, List.length_cons]
    rw [Spec.sextets, Spec.sextets.eq_def]
    simp [Spec.value, List.replicate]
    rw [letter_spec (by omega), letter_spec (by omega)]
    refine ⟨?_, ?_⟩ <;> congr 1 <;> omega
  | case4 => simp [Spec.bits, Spec.sextets]

end CRU.Base64
