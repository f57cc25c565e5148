import Mathlib.Data.Rat.Floor
import Mathlib.Algebra.Order.Round
import Mathlib.Data.Int.Log
import Mathlib.Algebra.Order.Field.Basic
import Mathlib.Tactic.Ring
import Mathlib.Tactic.Linarith
import Mathlib.Tactic.NormNum
import Mathlib.Tactic.Positivity
/-
  Binary floating-point numbers as rationals: `p` bits of precision, smallest exponent `emin` (subnormal numbers included), no
  largest exponent (overflow is outside the model), no NaN. `binary64` is p = 53, emin = -1074; `binary32` is p = 24,
  emin = -149. Rounding is to nearest, with *any* rule for ties.
-/
namespace CRU.Fl

/-- `x` is a floating-point number. -/
def Rep (p : Nat) (emin : Int) (x : ℚ) : Prop := ∃ m e : Int, emin ≤ e ∧ |m| < 2 ^ p ∧ x = (m : ℚ) * 2 ^ e

/-- `fl` rounds every value to a nearest floating-point number. -/
structure Nearest (p : Nat) (emin : Int) (fl : ℚ → ℚ) : Prop where
  rep : ∀ x, Rep p emin (fl x)
  near : ∀ x y, Rep p emin y → |fl x - x| ≤ |y - x|

variable {p : Nat} {emin : Int} {fl : ℚ → ℚ}

theorem Nearest.fix (h : Nearest p emin fl) {x : ℚ} (hx : Rep p emin x) : fl x = x := by
  have := h.near x x hx
  rw [sub_self, abs_zero] at this
  have h0 := abs_nonneg (fl x - x)
  have : |fl x - x| = 0 := le_antisymm this h0
  linarith [abs_eq_zero.mp this]

theorem Nearest.mono (h : Nearest p emin fl) {x y : ℚ} (hxy : x ≤ y) : fl x ≤ fl y := by
  rcases eq_or_lt_of_le hxy with rfl | hlt
  · exact le_refl _
  · by_contra hc
    push Not at hc
    have h1 := h.near x (fl y) (h.rep y)
    have h2 := h.near y (fl x) (h.rep x)
    rcases abs_cases (fl x - x) with ⟨a1, b1⟩ | ⟨a1, b1⟩ <;> rcases abs_cases (fl y - x) with ⟨a2, b2⟩ | ⟨a2, b2⟩ <;>
      rcases abs_cases (fl x - y) with ⟨a3, b3⟩ | ⟨a3, b3⟩ <;> rcases abs_cases (fl y - y) with ⟨a4, b4⟩ | ⟨a4, b4⟩ <;>
      rw [a1, a2] at h1 <;> rw [a3, a4] at h2 <;> linarith

theorem two_zpow_pos (e : Int) : (0 : ℚ) < 2 ^ e := zpow_pos (by norm_num) e

/-- Integers up to `2 ^ p` in absolute value are representable. -/
theorem rep_int (hp : 1 ≤ p) (he : emin ≤ 0) {i : Int} (hi : |i| ≤ 2 ^ p) : Rep p emin i := by
  rcases lt_or_eq_of_le hi with h | h
  · exact ⟨i, 0, he, h, by simp⟩
  · have hlt : |(1 : Int)| < 2 ^ p := by rw [abs_one]; exact one_lt_pow₀ (by norm_num) (by omega)
    rcases abs_eq (a := i) (b := 2 ^ p) (pow_nonneg (by norm_num) p) |>.mp h with h | h
    · exact ⟨1, p, by omega, hlt, by rw [h]; push_cast; simp⟩
    · exact ⟨-1, p, by omega, by rw [abs_neg]; exact hlt, by rw [h]; push_cast; simp⟩

theorem Rep.neg {x : ℚ} (h : Rep p emin x) : Rep p emin (-x) := by
  obtain ⟨m, e, h1, h2, rfl⟩ := h
  exact ⟨-m, e, h1, by rw [abs_neg]; exact h2, by push_cast; ring⟩

/-- A positive floating-point number of at least `2 ^ (emin + p)` has a full-precision significand. -/
theorem Rep.normal {x : ℚ} (hp : 1 ≤ p) (h : Rep p emin x) (hx : (2 : ℚ) ^ (emin + p) ≤ x) :
    ∃ m e : Int, emin < e ∧ 2 ^ (p - 1) ≤ m ∧ m < 2 ^ p ∧ x = (m : ℚ) * 2 ^ e := by
  obtain ⟨m, e, h1, h2, h3⟩ := h
  have hm : 0 < m := by
    by_contra hc
    have : (m : ℚ) ≤ 0 := by exact_mod_cast not_lt.mp hc
    have hle : x ≤ 0 := by rw [h3]; exact mul_nonpos_of_nonpos_of_nonneg this (le_of_lt (two_zpow_pos e))
    linarith [two_zpow_pos (emin + p)]
  rw [abs_of_pos hm] at h2
  -- shift the significand to the left until it is full
  have gen : ∀ (k : Nat) (m e : Int), 0 < m → m < 2 ^ p → 2 ^ p ≤ m * 2 ^ (k + 1) → x = (m : ℚ) * 2 ^ e →
      ∃ m e : Int, 2 ^ (p - 1) ≤ m ∧ m < 2 ^ p ∧ x = (m : ℚ) * 2 ^ e := by
    intro k
    induction k with
    | zero =>
      intro m e h0 h1 h2 h3
      refine ⟨m, e, ?_, h1, h3⟩
      have : (2 : Int) ^ p = 2 ^ (p - 1) * 2 := by rw [← pow_succ]; congr 1; omega
      omega
    | succ k ih =>
      intro m e h0 h1 h2 h3
      by_cases hc : m * 2 < 2 ^ p
      · refine ih (m * 2) (e - 1) (by omega) hc ?_ ?_
        · calc (2 : Int) ^ p ≤ m * 2 ^ (k + 1 + 1) := h2
            _ = m * 2 * 2 ^ (k + 1) := by ring
        · rw [h3, zpow_sub_one₀ (by norm_num)]; push_cast; ring
      · refine ⟨m, e, ?_, h1, h3⟩
        have : (2 : Int) ^ p = 2 ^ (p - 1) * 2 := by rw [← pow_succ]; congr 1; omega
        omega
  obtain ⟨m', e', a1, a2, a3⟩ := gen p m e hm h2 (by
    calc (2 : Int) ^ p ≤ 2 ^ (p + 1) := pow_le_pow_right₀ (by norm_num) (by omega)
      _ ≤ m * 2 ^ (p + 1) := le_mul_of_one_le_left (by positivity) (by omega)) h3
  refine ⟨m', e', ?_, a1, a2, a3⟩
  by_contra hc
  have h4 : (2 : ℚ) ^ e' ≤ 2 ^ emin := zpow_le_zpow_right₀ (by norm_num) (by omega)
  have h5 : (m' : ℚ) < 2 ^ p := by exact_mod_cast a2
  have h6 : x < 2 ^ (emin + p) := by
    rw [a3, zpow_add₀ (by norm_num), zpow_natCast, mul_comm]
    calc (2 : ℚ) ^ e' * m' < 2 ^ e' * 2 ^ p := by
          exact mul_lt_mul_of_pos_left h5 (two_zpow_pos e')
      _ ≤ 2 ^ emin * 2 ^ p := by
          exact mul_le_mul_of_nonneg_right h4 (by positivity)
  linarith

/-- The largest floating-point number below 1. -/
theorem rep_lt_one (hp : 1 ≤ p) (he : emin + p ≤ -1) {u : ℚ} (hu : Rep p emin u) (h1 : u < 1) : u ≤ 1 - 2 ^ (-(p : Int)) := by
  have hone : (2 : ℚ) ^ (-(p : Int)) ≤ 1 / 2 := by
    have : (2 : ℚ) ^ (-(p : Int)) ≤ 2 ^ (-(1 : Int)) := zpow_le_zpow_right₀ (by norm_num) (by omega)
    simpa using this
  by_cases hh : u < 1 / 2
  · linarith
  · push Not at hh
    obtain ⟨m, e, a0, a1, a2, a3⟩ := hu.normal hp (by
      calc (2 : ℚ) ^ (emin + p) ≤ 2 ^ (-(1 : Int)) := zpow_le_zpow_right₀ (by norm_num) (by omega)
        _ = 1 / 2 := by norm_num
        _ ≤ u := hh)
    -- the exponent is at most -p
    have hem : e ≤ -(p : Int) := by
      by_contra hc
      have h2 : (2 : ℚ) ^ (-(p : Int) + 1) ≤ 2 ^ e := zpow_le_zpow_right₀ (by norm_num) (by omega)
      have h3 : (2 : ℚ) ^ ((p : Int) - 1) ≤ m := by
        have : ((2 : ℚ) ^ (p - 1) : ℚ) ≤ m := by exact_mod_cast a1
        rwa [← zpow_natCast, Nat.cast_sub hp] at this
      have : (1 : ℚ) ≤ m * 2 ^ e := by
        calc (1 : ℚ) = 2 ^ ((p : Int) - 1) * 2 ^ (-(p : Int) + 1) := by rw [← zpow_add₀ (by norm_num)]; simp
          _ ≤ m * 2 ^ e := mul_le_mul h3 h2 (le_of_lt (two_zpow_pos _)) (le_trans (le_of_lt (two_zpow_pos _)) h3)
      linarith
    have h4 : ((m : ℚ)) ≤ 2 ^ p - 1 := by
      have : m ≤ 2 ^ p - 1 := by omega
      exact_mod_cast this
    have h5 : (2 : ℚ) ^ e ≤ 2 ^ (-(p : Int)) := zpow_le_zpow_right₀ (by norm_num) hem
    have h6 : (0 : ℚ) ≤ 2 ^ p - 1 := by
      have : (1 : ℚ) ≤ 2 ^ p := one_le_pow₀ (by norm_num)
      linarith
    calc u = m * 2 ^ e := a3
      _ ≤ (2 ^ p - 1) * 2 ^ (-(p : Int)) := mul_le_mul h4 h5 (le_of_lt (two_zpow_pos _)) h6
      _ = 1 - 2 ^ (-(p : Int)) := by
          rw [sub_mul, one_mul, ← zpow_natCast (2 : ℚ) p, ← zpow_add₀ (by norm_num)]; simp

/-- The predecessor of a normal number, and what lies above its half-way point. -/
theorem mul_lt_self (h : Nearest p emin fl) (hp : 1 ≤ p) (he : emin + p ≤ -1) {u x : ℚ} (hu : Rep p emin u) (h1 : u < 1)
    (hx : Rep p emin x) (hx1 : (2 : ℚ) ^ (emin + p) ≤ x) :
    ∃ y, Rep p emin y ∧ y < x ∧ (∀ z, Rep p emin z → z < x → z ≤ y) ∧ fl (u * x) ≤ y := by
  obtain ⟨m, e, a0, a1, a2, a3⟩ := hx.normal hp hx1
  have hxpos : 0 < x := lt_of_lt_of_le (two_zpow_pos _) hx1
  have hu' := rep_lt_one hp he hu h1
  have hE := two_zpow_pos e
  have hE1 : (2 : ℚ) ^ (e - 1) = 2 ^ e / 2 := by rw [zpow_sub_one₀ (by norm_num)]; ring
  have hcast : ((2 : Int) ^ (p - 1) : Int) = 2 ^ (p - 1) := rfl
  -- u * x is below x by m * 2 ^ (e - p)
  have hux : u * x ≤ x - m * 2 ^ (e - p) := by
    have : u * x ≤ (1 - 2 ^ (-(p : Int))) * x := mul_le_mul_of_nonneg_right hu' (le_of_lt hxpos)
    have h2 : (2 : ℚ) ^ (-(p : Int)) * x = m * 2 ^ (e - p) := by
      rw [a3, sub_eq_add_neg, zpow_add₀ (by norm_num)]; ring
    linarith
  have hmp : (2 : ℚ) ^ (e - 1) ≤ m * 2 ^ (e - p) := by
    have h3 : (2 : ℚ) ^ ((p : Int) - 1) ≤ m := by
      have : ((2 : ℚ) ^ (p - 1) : ℚ) ≤ m := by exact_mod_cast a1
      rwa [← zpow_natCast, Nat.cast_sub hp] at this
    calc (2 : ℚ) ^ (e - 1) = 2 ^ ((p : Int) - 1) * 2 ^ (e - p) := by rw [← zpow_add₀ (by norm_num)]; congr 1; ring
      _ ≤ m * 2 ^ (e - p) := mul_le_mul_of_nonneg_right h3 (le_of_lt (two_zpow_pos _))
  by_cases hm : m = 2 ^ (p - 1)
  · -- a power of two: the predecessor has the next smaller exponent
    refine ⟨((2 ^ p - 1 : Int) : ℚ) * 2 ^ (e - 1), ⟨2 ^ p - 1, e - 1, by omega, ?_, rfl⟩, ?_, ?_, ?_⟩
    · have : (1 : Int) ≤ 2 ^ p := one_le_pow₀ (by norm_num)
      rw [abs_of_nonneg (by omega)]; omega
    · rw [a3, hm, hE1]
      have : ((2 : ℚ) ^ p) = 2 ^ (p - 1) * 2 := by rw [← pow_succ]; congr 1; omega
      push_cast
      rw [this]
      nlinarith
    · rintro z ⟨mz, ez, b1, b2, rfl⟩ hz
      by_contra hc
      push Not at hc
      by_cases hez : e - 1 ≤ ez
      · obtain ⟨k, hk⟩ := Int.le.dest hez
        have hzz : (2 : ℚ) ^ ez = 2 ^ k * 2 ^ (e - 1) := by rw [← hk, zpow_add₀ (by norm_num), zpow_natCast]; ring
        rw [hzz] at hc hz
        have e1 : ((2 ^ p - 1 : Int) : ℚ) < mz * 2 ^ k := by
          have : ((2 ^ p - 1 : Int) : ℚ) * 2 ^ (e - 1) < (mz * 2 ^ k) * 2 ^ (e - 1) := by linarith
          exact lt_of_mul_lt_mul_right this (le_of_lt (two_zpow_pos _))
        have e2 : (mz : ℚ) * 2 ^ k < ((2 ^ p : Int) : ℚ) := by
          have hx2 : x = ((2 ^ p : Int) : ℚ) * 2 ^ (e - 1) := by
            rw [a3, hm, hE1]
            have : ((2 : ℚ) ^ p) = 2 ^ (p - 1) * 2 := by rw [← pow_succ]; congr 1; omega
            push_cast; rw [this]; ring
          rw [hx2] at hz
          have : (mz * 2 ^ k) * 2 ^ (e - 1) < ((2 ^ p : Int) : ℚ) * 2 ^ (e - 1) := by linarith
          exact lt_of_mul_lt_mul_right this (le_of_lt (two_zpow_pos _))
        have e1' : (2 ^ p - 1 : Int) < mz * 2 ^ k := by exact_mod_cast e1
        have e2' : mz * 2 ^ k < (2 ^ p : Int) := by exact_mod_cast e2
        omega
      · have h4 : (2 : ℚ) ^ ez ≤ 2 ^ (e - 1) / 2 := by
          rw [div_eq_mul_inv, ← zpow_sub_one₀ (by norm_num)]
          exact zpow_le_zpow_right₀ (by norm_num) (by omega)
        have h5 : (mz : ℚ) ≤ ((2 ^ p - 1 : Int) : ℚ) := by
          have := (abs_lt.mp b2).2
          have : mz ≤ 2 ^ p - 1 := by omega
          exact_mod_cast this
        have hA : (0 : ℚ) ≤ ((2 ^ p - 1 : Int) : ℚ) := by
          have : (1 : Int) ≤ 2 ^ p := one_le_pow₀ (by norm_num)
          have : (0 : Int) ≤ 2 ^ p - 1 := by omega
          exact_mod_cast this
        have h6 : (mz : ℚ) * 2 ^ ez ≤ ((2 ^ p - 1 : Int) : ℚ) * 2 ^ ez := mul_le_mul_of_nonneg_right h5 (le_of_lt (two_zpow_pos _))
        have h7 : ((2 ^ p - 1 : Int) : ℚ) * 2 ^ ez ≤ ((2 ^ p - 1 : Int) : ℚ) * (2 ^ (e - 1) / 2) := mul_le_mul_of_nonneg_left h4 hA
        have h8 : ((2 ^ p - 1 : Int) : ℚ) * (2 ^ (e - 1) / 2) ≤ ((2 ^ p - 1 : Int) : ℚ) * 2 ^ (e - 1) :=
          mul_le_mul_of_nonneg_left (by linarith [two_zpow_pos (e - 1)]) hA
        linarith
    · have hy : Rep p emin (((2 ^ p - 1 : Int) : ℚ) * 2 ^ (e - 1)) := ⟨2 ^ p - 1, e - 1, by omega, by
        have : (1 : Int) ≤ 2 ^ p := one_le_pow₀ (by norm_num)
        rw [abs_of_nonneg (by omega)]; omega, rfl⟩
      rw [← h.fix hy]
      apply h.mono
      have hx2 : x = ((2 ^ p : Int) : ℚ) * 2 ^ (e - 1) := by
        rw [a3, hm, hE1]
        have : ((2 : ℚ) ^ p) = 2 ^ (p - 1) * 2 := by rw [← pow_succ]; congr 1; omega
        push_cast; rw [this]; ring
      rw [hx2] at hux ⊢
      push_cast at hux ⊢
      linarith
  · have hm1 : 2 ^ (p - 1) ≤ m - 1 := by omega
    have hy : Rep p emin (((m - 1 : Int) : ℚ) * 2 ^ e) := ⟨m - 1, e, by omega, by
      have : (1 : Int) ≤ 2 ^ (p - 1) := one_le_pow₀ (by norm_num)
      rw [abs_of_nonneg (by omega)]; omega, rfl⟩
    have hpred : ∀ z, Rep p emin z → z < x → z ≤ ((m - 1 : Int) : ℚ) * 2 ^ e := by
      rintro z ⟨mz, ez, b1, b2, rfl⟩ hz
      by_contra hc
      push Not at hc
      by_cases hez : e ≤ ez
      · obtain ⟨k, hk⟩ := Int.le.dest hez
        have hzz : (2 : ℚ) ^ ez = 2 ^ k * 2 ^ e := by rw [← hk, zpow_add₀ (by norm_num), zpow_natCast]; ring
        rw [hzz] at hc hz
        have e1 : ((m - 1 : Int) : ℚ) < mz * 2 ^ k := by
          have : ((m - 1 : Int) : ℚ) * 2 ^ e < (mz * 2 ^ k) * 2 ^ e := by linarith
          exact lt_of_mul_lt_mul_right this (le_of_lt hE)
        have e2 : (mz : ℚ) * 2 ^ k < m := by
          rw [a3] at hz
          have : (mz * 2 ^ k) * 2 ^ e < (m : ℚ) * 2 ^ e := by linarith
          exact lt_of_mul_lt_mul_right this (le_of_lt hE)
        have e1' : (m - 1 : Int) < mz * 2 ^ k := by exact_mod_cast e1
        have e2' : mz * 2 ^ k < m := by exact_mod_cast e2
        omega
      · -- smaller exponents stay below 2 ^ (p - 1) * 2 ^ e
        have h4 : (2 : ℚ) ^ ez ≤ 2 ^ e / 2 := by
          rw [← hE1]
          exact zpow_le_zpow_right₀ (by norm_num) (by omega)
        have h5 : (mz : ℚ) ≤ 2 ^ p := by
          have := (abs_lt.mp b2).2
          exact_mod_cast (le_of_lt this)
        have h6 : (mz : ℚ) * 2 ^ ez ≤ 2 ^ p * 2 ^ ez := mul_le_mul_of_nonneg_right h5 (le_of_lt (two_zpow_pos _))
        have h7 : (2 : ℚ) ^ p * 2 ^ ez ≤ 2 ^ p * (2 ^ e / 2) := mul_le_mul_of_nonneg_left h4 (by positivity)
        have h8 : (2 : ℚ) ^ p * (2 ^ e / 2) ≤ ((m - 1 : Int) : ℚ) * 2 ^ e := by
          have e3 : ((2 : ℚ) ^ p) = 2 ^ (p - 1) * 2 := by rw [← pow_succ]; congr 1; omega
          have e4 : ((2 : ℚ) ^ (p - 1)) ≤ ((m - 1 : Int) : ℚ) := by exact_mod_cast hm1
          rw [e3]
          nlinarith
        linarith
    refine ⟨((m - 1 : Int) : ℚ) * 2 ^ e, hy, ?_, hpred, ?_⟩
    · rw [a3]; push_cast; linarith
    · -- u * x is strictly below the half-way point
      have h3 : (2 : ℚ) ^ (e - 1) < m * 2 ^ (e - p) := by
        have h3 : (2 : ℚ) ^ ((p : Int) - 1) < m := by
          have : ((2 : ℚ) ^ (p - 1) : ℚ) < m := by
            have : (2 : Int) ^ (p - 1) < m := by omega
            exact_mod_cast this
          rwa [← zpow_natCast, Nat.cast_sub hp] at this
        calc (2 : ℚ) ^ (e - 1) = 2 ^ ((p : Int) - 1) * 2 ^ (e - p) := by rw [← zpow_add₀ (by norm_num)]; congr 1; ring
          _ < m * 2 ^ (e - p) := mul_lt_mul_of_pos_right h3 (two_zpow_pos _)
      by_contra hc
      push Not at hc
      have hn := h.near (u * x) _ hy
      have hz := h.rep (u * x)
      have hyx : ((m - 1 : Int) : ℚ) * 2 ^ e = x - 2 ^ e := by rw [a3]; push_cast; ring
      rw [hyx] at hn hc
      -- the rounded value is above the predecessor, hence at least x
      have hge : x ≤ fl (u * x) := by
        by_contra hlt
        push Not at hlt
        have := hpred _ hz hlt
        rw [hyx] at this
        linarith
      rw [hE1] at h3
      rcases abs_cases (fl (u * x) - u * x) with ⟨c1, d1⟩ | ⟨c1, d1⟩ <;> rcases abs_cases (x - 2 ^ e - u * x) with ⟨c2, d2⟩ | ⟨c2, d2⟩ <;>
        rw [c1, c2] at hn <;> linarith

/-- A rounding to nearest exists. -/
def nearest (p : Nat) (emin : Int) (x : ℚ) : ℚ :=
  let e := max emin (Int.log 2 |x| + 1 - p)
  round (x / 2 ^ e) * 2 ^ e

theorem nearest_spec (hp : 1 ≤ p) : Nearest p emin (nearest p emin) := by
  refine ⟨fun x => ?_, fun x y hy => ?_⟩
  · unfold nearest
    dsimp only
    generalize he : max emin (Int.log 2 |x| + 1 - p) = e
    have hE := two_zpow_pos e
    have hle : |round (x / 2 ^ e)| ≤ (2 : Int) ^ p := by
      have hx : |x / 2 ^ e| < 2 ^ p := by
        rw [abs_div, abs_of_pos hE, div_lt_iff₀ hE, ← zpow_natCast (2 : ℚ) p, ← zpow_add₀ (by norm_num)]
        calc |x| < (2 : ℕ) ^ (Int.log 2 |x| + 1) := Int.lt_zpow_succ_log_self (by norm_num) _
          _ ≤ 2 ^ ((p : Int) + e) := by
              push_cast
              exact zpow_le_zpow_right₀ (by norm_num) (by omega)
      have h1 := abs_sub_round (x / 2 ^ e)
      have h2 : |(round (x / 2 ^ e) : ℚ)| < 2 ^ p + 1 := by
        rcases abs_cases (x / 2 ^ e - round (x / 2 ^ e)) with ⟨c1, _⟩ | ⟨c1, _⟩ <;>
          rcases abs_cases (x / 2 ^ e) with ⟨c2, _⟩ | ⟨c2, _⟩ <;>
          rcases abs_cases (round (x / 2 ^ e) : ℚ) with ⟨c3, _⟩ | ⟨c3, _⟩ <;> rw [c3] <;> linarith
      have h3 : |round (x / 2 ^ e)| < 2 ^ p + 1 := by exact_mod_cast h2
      omega
    rcases lt_or_eq_of_le hle with h | h
    · exact ⟨_, e, by omega, h, rfl⟩
    · have e3 : ((2 : ℚ) ^ p) = 2 ^ (p - 1) * 2 := by rw [← pow_succ]; congr 1; omega
      have hlt : (2 : Int) ^ (p - 1) < 2 ^ p := pow_lt_pow_right₀ (by norm_num) (by omega)
      rcases abs_eq (a := round (x / 2 ^ e)) (b := 2 ^ p) (by positivity) |>.mp h with h | h
      · refine ⟨2 ^ (p - 1), e + 1, by omega, by rw [abs_of_nonneg (by positivity)]; exact hlt, ?_⟩
        rw [h, zpow_add_one₀ (by norm_num)]; push_cast; rw [e3]; ring
      · refine ⟨-2 ^ (p - 1), e + 1, by omega, by rw [abs_neg, abs_of_nonneg (by positivity)]; exact hlt, ?_⟩
        rw [h, zpow_add_one₀ (by norm_num)]; push_cast; rw [e3]; ring
  · unfold nearest
    dsimp only
    generalize he : max emin (Int.log 2 |x| + 1 - p) = e
    have hE := two_zpow_pos e
    -- nearest among the multiples of 2 ^ e
    have hmul : ∀ k : Int, |(round (x / 2 ^ e) : ℚ) * 2 ^ e - x| ≤ |(k : ℚ) * 2 ^ e - x| := by
      intro k
      have h := round_le (x / 2 ^ e) k
      have e1 : ∀ r : ℚ, r * 2 ^ e - x = -(x / 2 ^ e - r) * 2 ^ e := by
        intro r; field_simp; ring
      rw [e1, e1, abs_mul, abs_mul, abs_neg, abs_neg]
      exact mul_le_mul_of_nonneg_right h (abs_nonneg _)
    by_cases hx : x = 0
    · have h := hmul 0
      rw [hx] at h ⊢
      simp only [Int.cast_zero, zero_mul, sub_self, abs_zero] at h
      exact le_trans h (abs_nonneg _)
    obtain ⟨m, e', h1, h2, rfl⟩ := hy
    by_cases hee : e ≤ e'
    · obtain ⟨k, hk⟩ := Int.le.dest hee
      have : (2 : ℚ) ^ e' = 2 ^ k * 2 ^ e := by rw [← hk, zpow_add₀ (by norm_num), zpow_natCast]; ring
      rw [this]
      have h := hmul (m * 2 ^ k)
      push_cast at h
      rw [mul_assoc] at h
      exact h
    · have he2 : e = Int.log 2 |x| + 1 - p := by omega
      have hx0 : 0 < |x| := abs_pos.mpr hx
      have hlog : (2 : ℚ) ^ (Int.log 2 |x|) ≤ |x| := by
        have := Int.zpow_log_le_self (b := 2) (by norm_num) hx0
        exact_mod_cast this
      have hlog' : Int.log 2 |x| = e + (p - 1 : Nat) := by omega
      have hy : |(m : ℚ) * 2 ^ e'| ≤ 2 ^ (Int.log 2 |x|) := by
        rw [abs_mul, abs_of_pos (two_zpow_pos e')]
        have a1 : |(m : ℚ)| ≤ 2 ^ p := by exact_mod_cast (le_of_lt h2)
        calc |(m : ℚ)| * 2 ^ e' ≤ 2 ^ p * 2 ^ e' := mul_le_mul_of_nonneg_right a1 (le_of_lt (two_zpow_pos _))
          _ = 2 ^ ((p : Int) + e') := by rw [zpow_add₀ (by norm_num), zpow_natCast]
          _ ≤ 2 ^ (Int.log 2 |x|) := zpow_le_zpow_right₀ (by norm_num) (by omega)
      have hz : (2 : ℚ) ^ (Int.log 2 |x|) = 2 ^ (p - 1) * 2 ^ e := by
        rw [hlog', zpow_add₀ (by norm_num), zpow_natCast]; ring
      rcases le_or_gt 0 x with hxp | hxn
      · have hb := hmul (2 ^ (p - 1))
        push_cast at hb
        rw [← hz] at hb
        refine le_trans hb ?_
        rw [abs_of_nonneg hxp] at hlog hy hb ⊢
        have hy' := (abs_le.mp hy).2
        rw [abs_of_nonpos (by linarith), abs_of_nonpos (by linarith)]
        linarith
      · have hb := hmul (-2 ^ (p - 1))
        push_cast at hb
        rw [neg_mul, ← hz] at hb
        refine le_trans hb ?_
        rw [abs_of_neg hxn] at hlog hy hb ⊢
        have hy' := (abs_le.mp hy).1
        rw [abs_of_nonneg (by linarith), abs_of_nonneg (by linarith)]
        linarith

/-- Half a unit in the last place. -/
theorem Nearest.err (h : Nearest p emin fl) (hp : 1 ≤ p) (x : ℚ) :
    |fl x - x| ≤ 2 ^ (max emin (Int.log 2 |x| + 1 - p)) / 2 := by
  refine le_trans (h.near x _ ((nearest_spec hp).rep x)) ?_
  unfold nearest
  dsimp only
  generalize max emin (Int.log 2 |x| + 1 - p) = e
  have hE := two_zpow_pos e
  have h1 := abs_sub_round (x / 2 ^ e)
  have e1 : (round (x / 2 ^ e) : ℚ) * 2 ^ e - x = -(x / 2 ^ e - round (x / 2 ^ e)) * 2 ^ e := by field_simp; ring
  rw [e1, abs_mul, abs_neg, abs_of_pos hE]
  calc _ ≤ 1 / 2 * 2 ^ e := mul_le_mul_of_nonneg_right h1 (le_of_lt hE)
    _ = _ := by ring

/-- Relative error of at most `2 ^ -p` in the normal range. -/
theorem Nearest.rel_err (h : Nearest p emin fl) (hp : 1 ≤ p) {x : ℚ} (hx : (2 : ℚ) ^ (emin + p - 1) ≤ |x|) :
    |fl x - x| ≤ 2 ^ (-(p : Int)) * |x| := by
  have hx0 : 0 < |x| := lt_of_lt_of_le (two_zpow_pos _) hx
  have hlog : (2 : ℚ) ^ (Int.log 2 |x|) ≤ |x| := by
    have := Int.zpow_log_le_self (b := 2) (by norm_num) hx0
    exact_mod_cast this
  have hlog' : |x| < (2 : ℚ) ^ (Int.log 2 |x| + 1) := by
    have := Int.lt_zpow_succ_log_self (b := 2) (by norm_num) |x|
    exact_mod_cast this
  have hge : emin + p - 1 < Int.log 2 |x| + 1 := (zpow_lt_zpow_iff_right₀ (by norm_num : (1 : ℚ) < 2)).mp (lt_of_le_of_lt hx hlog')
  have hm : max emin (Int.log 2 |x| + 1 - p) = Int.log 2 |x| + 1 - p := by omega
  refine le_trans (h.err hp x) ?_
  rw [hm]
  calc (2 : ℚ) ^ (Int.log 2 |x| + 1 - p) / 2 = 2 ^ (-(p : Int)) * 2 ^ (Int.log 2 |x|) := by
        rw [show Int.log 2 |x| + 1 - (p : Int) = -(p : Int) + Int.log 2 |x| + 1 by ring, zpow_add_one₀ (by norm_num),
          zpow_add₀ (by norm_num)]
        ring
    _ ≤ _ := mul_le_mul_of_nonneg_left hlog (le_of_lt (two_zpow_pos _))

/-- Absolute error of at most `2 ^ -(p + 1)` below one. -/
theorem Nearest.unit_err (h : Nearest p emin fl) (hp : 1 ≤ p) (he : emin ≤ -(p : Int)) {x : ℚ} (hx : |x| ≤ 1) :
    |fl x - x| ≤ 2 ^ (-(p : Int)) / 2 := by
  rcases eq_or_lt_of_le hx with h1 | h1
  · have : fl x = x := by
      refine h.fix ?_
      rcases abs_eq (by norm_num : (0 : ℚ) ≤ 1) |>.mp h1 with hh | hh
      · have := rep_int (p := p) (emin := emin) (i := 1) hp (by omega) (by rw [abs_one]; exact one_le_pow₀ (by norm_num))
        rw [hh]; simpa using this
      · have := rep_int (p := p) (emin := emin) (i := -1) hp (by omega) (by rw [abs_neg, abs_one]; exact one_le_pow₀ (by norm_num))
        rw [hh]; simpa using this
    rw [this, sub_self, abs_zero]
    exact le_of_lt (half_pos (two_zpow_pos _))
  · by_cases hx0 : x = 0
    · have : fl x = x := h.fix (by
        rw [hx0]
        have := rep_int (p := p) (emin := emin) (i := 0) hp (by omega) (by rw [abs_zero]; exact pow_nonneg (by norm_num) p)
        simpa using this)
      rw [this, sub_self, abs_zero]
      exact le_of_lt (half_pos (two_zpow_pos _))
    have hpos : 0 < |x| := abs_pos.mpr hx0
    have hlog : (2 : ℚ) ^ (Int.log 2 |x|) ≤ |x| := by
      have := Int.zpow_log_le_self (b := 2) (by norm_num) hpos
      exact_mod_cast this
    have hneg : Int.log 2 |x| < 0 := by
      refine (zpow_lt_zpow_iff_right₀ (by norm_num : (1 : ℚ) < 2)).mp ?_
      rw [zpow_zero]; exact lt_of_le_of_lt hlog h1
    refine le_trans (h.err hp x) ?_
    have : (2 : ℚ) ^ (max emin (Int.log 2 |x| + 1 - p)) ≤ 2 ^ (-(p : Int)) := zpow_le_zpow_right₀ (by norm_num) (by omega)
    linarith

/-- Values below half the smallest positive number round to zero. -/
theorem Nearest.underflow (h : Nearest p emin fl) (hp : 1 ≤ p) {x : ℚ} (hx : |x| < 2 ^ emin / 2) : fl x = 0 := by
  have h0 : Rep p emin 0 := ⟨0, emin, le_refl _, by rw [abs_zero]; exact pow_pos (by norm_num) p, by simp⟩
  have h1 := h.near x 0 h0
  rw [zero_sub, abs_neg] at h1
  have h2 : |fl x| < 2 ^ emin := by
    rcases abs_cases (fl x - x) with ⟨c1, _⟩ | ⟨c1, _⟩ <;> rcases abs_cases (fl x) with ⟨c2, _⟩ | ⟨c2, _⟩ <;>
      rcases abs_cases x with ⟨c3, _⟩ | ⟨c3, _⟩ <;> rw [c1, c3] at h1 <;> rw [c3] at hx <;> rw [c2] <;> linarith
  obtain ⟨m, e, he, _, hm⟩ := h.rep x
  by_contra hne
  have hm0 : m ≠ 0 := by rintro rfl; rw [hm] at hne; simp at hne
  have hm1 : (1 : ℚ) ≤ |(m : ℚ)| := by exact_mod_cast Int.one_le_abs hm0
  rw [hm, abs_mul, abs_of_pos (two_zpow_pos e)] at h2
  have : (2 : ℚ) ^ emin ≤ 2 ^ e := zpow_le_zpow_right₀ (by norm_num) he
  nlinarith [two_zpow_pos e, two_zpow_pos emin]

end CRU.Fl
