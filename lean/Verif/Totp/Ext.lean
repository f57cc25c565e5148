import Verif.Base
import Mathlib.Analysis.Real.Sqrt
import Mathlib.Tactic.Linarith
import Mathlib.Tactic.Positivity
/-
  Exact arithmetic with infinities and NaN, for time_optimal_trajectory_parametrization.cpp. `double` values are reals, two infinities
  and NaN; there is no rounding and no overflow; the two zeros are not told apart, and a division by zero is one by +0.
-/
namespace CRU.Totp

/-- A `double`. -/
inductive Ext where
  | nan
  | ninf
  | pinf
  | fin (x : ℝ)

namespace Ext

instance : Coe ℝ Ext := ⟨.fin⟩

/-- `a < b` -/
def lt : Ext → Ext → Prop
  | .nan, _ => False
  | _, .nan => False
  | .ninf, .ninf => False
  | .ninf, _ => True
  | .pinf, _ => False
  | .fin _, .ninf => False
  | .fin _, .pinf => True
  | .fin a, .fin b => a < b

/-- `a <= b` -/
def le : Ext → Ext → Prop
  | .nan, _ => False
  | _, .nan => False
  | .ninf, _ => True
  | _, .pinf => True
  | .pinf, _ => False
  | .fin _, .ninf => False
  | .fin a, .fin b => a ≤ b

/-- `-a` -/
def neg : Ext → Ext
  | .nan => .nan
  | .ninf => .pinf
  | .pinf => .ninf
  | .fin a => .fin (-a)

/-- `a + b` -/
def add : Ext → Ext → Ext
  | .nan, _ => .nan
  | _, .nan => .nan
  | .ninf, .pinf => .nan
  | .pinf, .ninf => .nan
  | .ninf, _ => .ninf
  | _, .ninf => .ninf
  | .pinf, _ => .pinf
  | _, .pinf => .pinf
  | .fin a, .fin b => .fin (a + b)

/-- `a - b` -/
def sub (a b : Ext) : Ext := add a (neg b)

/-- `a` times an infinity of the given sign. -/
noncomputable def mulInf (a : ℝ) (pos : Bool) : Ext :=
  open Classical in if a = 0 then .nan else if (0 < a) = (pos = true) then .pinf else .ninf

/-- `a * b` -/
noncomputable def mul : Ext → Ext → Ext
  | .nan, _ => .nan
  | _, .nan => .nan
  | .pinf, .pinf => .pinf
  | .pinf, .ninf => .ninf
  | .ninf, .pinf => .ninf
  | .ninf, .ninf => .pinf
  | .pinf, .fin b => mulInf b true
  | .ninf, .fin b => mulInf b false
  | .fin a, .pinf => mulInf a true
  | .fin a, .ninf => mulInf a false
  | .fin a, .fin b => .fin (a * b)

/-- `a / b` -/
noncomputable def div : Ext → Ext → Ext
  | .nan, _ => .nan
  | _, .nan => .nan
  | .fin _, .pinf => .fin 0
  | .fin _, .ninf => .fin 0
  | .fin a, .fin b => open Classical in
      if b ≠ 0 then .fin (a / b) else if a = 0 then .nan else if 0 < a then .pinf else .ninf
  | .pinf, .fin b => open Classical in if 0 ≤ b then .pinf else .ninf
  | .ninf, .fin b => open Classical in if 0 ≤ b then .ninf else .pinf
  | _, _ => .nan

/-- `std::min(a, b)`, which is `(b < a) ? b : a`. -/
noncomputable def stdMin (a b : Ext) : Ext := open Classical in if b.lt a then b else a

/-- `std::max(a, b)`, which is `(a < b) ? b : a`. -/
noncomputable def stdMax (a b : Ext) : Ext := open Classical in if a.lt b then b else a

/-- `std::sqrt` -/
noncomputable def sqrt : Ext → Ext
  | .nan => .nan
  | .ninf => .nan
  | .pinf => .pinf
  | .fin a => open Classical in if a < 0 then .nan else .fin (Real.sqrt a)

@[simp] theorem lt_fin (a b : ℝ) : lt (.fin a) (.fin b) ↔ a < b := Iff.rfl
@[simp] theorem le_fin (a b : ℝ) : le (.fin a) (.fin b) ↔ a ≤ b := Iff.rfl
@[simp] theorem neg_fin (a : ℝ) : neg (.fin a) = .fin (-a) := rfl
@[simp] theorem add_fin (a b : ℝ) : add (.fin a) (.fin b) = .fin (a + b) := rfl
@[simp] theorem sub_fin (a b : ℝ) : sub (.fin a) (.fin b) = .fin (a - b) := by simp [sub, sub_eq_add_neg]
@[simp] theorem mul_fin (a b : ℝ) : mul (.fin a) (.fin b) = .fin (a * b) := rfl
theorem div_fin {a b : ℝ} (h : b ≠ 0) : div (.fin a) (.fin b) = .fin (a / b) := by simp [div, h]
theorem sqrt_fin {a : ℝ} (h : 0 ≤ a) : sqrt (.fin a) = .fin (Real.sqrt a) := by simp [sqrt, not_lt.mpr h]

theorem stdMin_fin (a b : ℝ) : stdMin (.fin a) (.fin b) = .fin (min a b) := by
  unfold stdMin
  split_ifs with h
  · rw [min_eq_right (le_of_lt h)]
  · rw [min_eq_left (not_lt.mp h)]

theorem stdMin_pinf (a : ℝ) : stdMin (.fin a) .pinf = .fin a := by simp [stdMin, lt]
theorem pinf_stdMin (a : ℝ) : stdMin .pinf (.fin a) = .fin a := by simp [stdMin, lt]
theorem stdMin_nan (a : Ext) : stdMin a .nan = a := by simp [stdMin, lt]

theorem stdMax_fin (a b : ℝ) : stdMax (.fin a) (.fin b) = .fin (max a b) := by
  unfold stdMax
  split_ifs with h
  · rw [max_eq_right (le_of_lt h)]
  · rw [max_eq_left (not_lt.mp h)]

/-- A value between two numbers is a number. -/
theorem fin_of_between {a b : ℝ} {x : Ext} (h1 : le (.fin a) x) (h2 : le x (.fin b)) : ∃ r, x = .fin r ∧ a ≤ r ∧ r ≤ b := by
  cases x with
  | fin r => exact ⟨r, rfl, h1, h2⟩
  | nan => exact h1.elim
  | ninf => exact h1.elim
  | pinf => exact h2.elim

end Ext

/-- `std::numeric_limits<double>::max()` -/
noncomputable def dblMax : ℝ := (2 ^ 53 - 1) * 2 ^ 971

theorem dblMax_big : (2 : ℝ) ^ 52 ≤ dblMax := by
  have : (1 : ℝ) ≤ 2 ^ 971 := one_le_pow₀ (by norm_num)
  unfold dblMax
  calc (2 : ℝ) ^ 52 ≤ (2 ^ 53 - 1) * 1 := by norm_num
    _ ≤ _ := mul_le_mul_of_nonneg_left this (by norm_num)

theorem dblMax_pos : 0 < dblMax := by unfold dblMax; positivity

end CRU.Totp
