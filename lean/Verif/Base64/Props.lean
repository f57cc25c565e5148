import Verif.Base64.Lemmas
/-
  Property theorems C01–C03 (base64_helpers.cpp).
-/
namespace CRU.Base64

/-- **C01** Decoding an encoding gives back the bytes, with no undefined behaviour on the way.
`b.length < 2^63` is `std::vector<uint8_t>::max_size()`. -/
theorem C01_decode_encode (b : List UInt8) (h : b.length < 2 ^ 63) : (encode b >>= decode) = .ok b := by
  rw [encode_eq b h]; exact decode_encPure b

example : (encode [0, 255, 17, 128] >>= decode) = .ok [0, 255, 17, 128] :=
  C01_decode_encode _ (by decide)

/-- **C02** `Encode` produces the RFC 4648 text (`Spec.text`), for every byte vector. -/
theorem C02_encode_rfc4648 (b : List UInt8) (h : b.length < 2 ^ 63) : encode b = .ok (Spec.text b) := by
  rw [encode_eq b h, encPure_text_aux b]; rfl

/-- **C02** The text has length `4·⌈n/3⌉`, and the number of trailing `'='` fill characters is `(3 - n mod 3) mod 3`. -/
theorem C02_encode_length (b : List UInt8) (h : b.length < 2 ^ 63) :
    ∃ s body, encode b = .ok s ∧ s.length = 4 * ((b.length + 2) / 3) ∧
      s = body ++ List.replicate ((3 - b.length % 3) % 3) 61 ∧ ∀ c ∈ body, c ≠ 61 := by
  refine ⟨encPure b, (encPure b).take (4 * ((b.length + 2) / 3) - (3 - b.length % 3) % 3), encode_eq b h,
    encPure_length b, ?_, ?_⟩ <;> clear h
  · fun_induction encPure b with
    | case1 a b c t ih =>
      simp only [List.length_cons]
      rw [show 4 * ((t.length + 1 + 1 + 1 + 2) / 3) - (3 - (t.length + 1 + 1 + 1) % 3) % 3 =
        4 * ((t.length + 2) / 3) - (3 - t.length % 3) % 3 + 1 + 1 + 1 + 1 by omega,
        show (3 - (t.length + 1 + 1 + 1) % 3) % 3 = (3 - t.length % 3) % 3 by omega]
      simp only [List.take_succ_cons, List.cons_append]
      rw [← ih]
    | case2 a b => simp
    | case3 a => simp [List.replicate]
    | case4 => simp
  · fun_induction encPure b with
    | case1 a b c t ih =>
      have ha := u8lt a; have hb := u8lt b; have hc := u8lt c
      have n0 := letter_ne (i := a.toNat / 4) (by omega)
      have n1 := letter_ne (i := a.toNat % 4 * 16 + b.toNat / 16) (by omega)
      have n2 := letter_ne (i := b.toNat % 16 * 4 + c.toNat / 64) (by omega)
      have n3 := letter_ne (i := c.toNat % 64) (by omega)
      simp only [List.length_cons]
      rw [show 4 * ((t.length + 1 + 1 + 1 + 2) / 3) - (3 - (t.length + 1 + 1 + 1) % 3) % 3 =
        4 * ((t.length + 2) / 3) - (3 - t.length % 3) % 3 + 1 + 1 + 1 + 1 by omega]
      simp only [List.take_succ_cons, List.mem_cons]
      rintro x (rfl | rfl | rfl | rfl | hx)
      · exact n0
      · exact n1
      · exact n2
      · exact n3
      · exact ih x hx
    | case2 a b =>
      have ha := u8lt a; have hb := u8lt b
      have n0 := letter_ne (i := a.toNat / 4) (by omega)
      have n1 := letter_ne (i := a.toNat % 4 * 16 + b.toNat / 16) (by omega)
      have n2 := letter_ne (i := b.toNat % 16 * 4) (by omega)
      simpa using ⟨n0, n1, n2⟩
    | case3 a =>
      have ha := u8lt a
      have n0 := letter_ne (i := a.toNat / 4) (by omega)
      have n1 := letter_ne (i := a.toNat % 4 * 16) (by omega)
      simpa using ⟨n0, n1⟩
    | case4 => simp

-- "Man" ↦ "TWFu" and "M" ↦ "TQ=="
example : encode [77, 97, 110] = .ok [84, 87, 70, 117] ∧ encode [77] = .ok [84, 81, 61, 61] := by
  rw [C02_encode_rfc4648 _ (by decide), C02_encode_rfc4648 _ (by decide)]; decide +kernel

/-- **C03**, full statement: FALSE of the code.  A char ≥ 0x80 is sign-extended to an index near 2^64. -/
theorem C03_decode_in_bounds_false : ¬ ∀ s : List UInt8, ∃ r, decode s = .ok r := by
  intro h
  obtain ⟨r, hr⟩ := h [200, 65, 65, 65]
  have : decode [200, 65, 65, 65] = .ub := by decide +kernel
  rw [this] at hr; cases hr

/-- **C03** (partial: strings of 7-bit chars, of every length and however malformed).  Missing: strings with a char
≥ 0x80, on which the code has undefined behaviour (`C03_decode_in_bounds_false`). -/
theorem C03_decode_in_bounds_partial (s : List UInt8) (hs : ∀ c ∈ s, c.toNat < 128) : ∃ r, decode s = .ok r :=
  decode_safe hs

-- malformed, unpadded, length ≡ 1 mod 4, non-alphabet chars
example : ∃ r, decode [61, 10, 65, 33, 7] = .ok r := C03_decode_in_bounds_partial _ (by decide)

end CRU.Base64
