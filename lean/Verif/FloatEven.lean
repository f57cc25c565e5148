import Verif.Float
/-
  Round to nearest, ties to even: the IEEE 754 default.
-/
namespace CRU.Fl

variable {p : Nat} {emin : Int}

/-- Round to nearest, ties to the even significand. -/
def nearestEven (p : Nat) (emin : Int) (x : ℚ) : ℚ :=
  let e := max emin (Int.log 2 |x| + 1 - p)
  let n := round (x / 2 ^ e)
  (if (n : ℚ) - x / 2 ^ e = 1 / 2 ∧ n % 2 = 1 then n - 1 else n : Int) * 2 ^ e

theorem rep_of_le (hp : 1 ≤ p) {k e : Int} (he : emin ≤ e) (hk : |k| ≤ 2 ^ p) : Rep p emin ((k : ℚ) * 2 ^ e) := by
  rcases lt_or_eq_of_le hk with h | h
  · exact ⟨k, e, he, h, rfl⟩
  · have e3 : ((2 : ℚ) ^ p) = 2 ^ (p - 1) * 2 := by rw [← pow_succ]; congr 1; omega
    have hlt : (2 : Int) ^ (p - 1) < 2 ^ p := pow_lt_pow_right₀ (by norm_num) (by omega)
    rcases abs_eq (a := k) (b := 2 ^ p) (by positivity) |>.mp h with h | h
    · refine ⟨2 ^ (p - 1), e + 1, by omega, by rw [abs_of_nonneg (by positivity)]; exact hlt, ?_⟩
      rw [h, zpow_add_one₀ (by norm_num)]; push_cast; rw [e3]; ring
    · refine ⟨-2 ^ (p - 1), e + 1, by omega, by rw [abs_neg, abs_of_nonneg (by positivity)]; exact hlt, ?_⟩
      rw [h, zpow_add_one₀ (by norm_num)]; push_cast; rw [e3]; ring

theorem nearestEven_spec (hp : 1 ≤ p) : Nearest p emin (nearestEven p emin) := by
  refine ⟨fun x => ?_, fun x y hy => ?_⟩
  · unfold nearestEven
    dsimp only
    generalize he : max emin (Int.log 2 |x| + 1 - p) = e
    have hE := two_zpow_pos e
    have hx : |x / 2 ^ e| < 2 ^ p := by
      rw [abs_div, abs_of_pos hE, div_lt_iff₀ hE, ← zpow_natCast (2 : ℚ) p, ← zpow_add₀ (by norm_num)]
      calc |x| < (2 : ℕ) ^ (Int.log 2 |x| + 1) := Int.lt_zpow_succ_log_self (by norm_num) _
        _ ≤ 2 ^ ((p : Int) + e) := by
            push_cast
            exact zpow_le_zpow_right₀ (by norm_num) (by omega)
    have h1 := abs_sub_round (x / 2 ^ e)
    refine rep_of_le hp (by omega) ?_
    have hx' := abs_lt.mp hx
    have h1' := abs_le.mp h1
    split
    · rename_i h
      have a1 : ((round (x / 2 ^ e) - 1 : Int) : ℚ) < 2 ^ p + 1 := by push_cast; linarith [h.1]
      have a2 : (-(2 ^ p) - 1 : ℚ) < ((round (x / 2 ^ e) - 1 : Int) : ℚ) := by push_cast; linarith [h.1]
      have a1' : round (x / 2 ^ e) - 1 < 2 ^ p + 1 := by exact_mod_cast a1
      have a2' : -(2 ^ p) - 1 < round (x / 2 ^ e) - 1 := by exact_mod_cast a2
      exact abs_le.mpr ⟨by omega, by omega⟩
    · have a1 : ((round (x / 2 ^ e) : Int) : ℚ) < 2 ^ p + 1 := by linarith
      have a2 : (-(2 ^ p) - 1 : ℚ) < ((round (x / 2 ^ e) : Int) : ℚ) := by linarith
      have a1' : round (x / 2 ^ e) < 2 ^ p + 1 := by exact_mod_cast a1
      have a2' : -(2 ^ p) - 1 < round (x / 2 ^ e) := by exact_mod_cast a2
      exact abs_le.mpr ⟨by omega, by omega⟩
  · refine le_trans (le_of_eq ?_) ((nearest_spec hp).near x y hy)
    unfold nearestEven nearest
    dsimp only
    generalize he : max emin (Int.log 2 |x| + 1 - p) = e
    have hE := two_zpow_pos e
    split
    · rename_i h
      have e1 : ∀ r : ℚ, r * 2 ^ e - x = (r - x / 2 ^ e) * 2 ^ e := by intro r; field_simp
      rw [e1, e1, abs_mul, abs_mul]
      congr 1
      have h1 := h.1
      rw [h1]
      push_cast
      rw [show (round (x / 2 ^ e) : ℚ) - 1 - x / 2 ^ e = -(1 / 2) by linarith, abs_neg]
    · rfl

/-- 1 + 2^-53 lies half-way between two doubles; the even one is 1. -/
example : nearestEven 53 (-1074) (1 + 1 / 9007199254740992) = 1 ∧
    nearestEven 53 (-1074) (1 + 3 / 9007199254740992) = 1 + 4 / 9007199254740992 := by decide +kernel

end CRU.Fl
