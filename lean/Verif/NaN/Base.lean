import Verif.Cost
import Verif.Base
/-
  `double` with NaN, around any type `C` of numbers (infinity included): every comparison with a NaN is false, a sum with a NaN
  is one. `std::min` and `std::max` are what the standard says they are.
-/
namespace CRU.NaN

/-- A `double`: a NaN or a number (possibly infinite). -/
inductive Dbl (C : Type) where
  | nan
  | num (c : C)
  deriving DecidableEq

namespace Dbl
variable {C : Type}

/-- IEEE 754 `<` -/
def lt [LT C] : Dbl C → Dbl C → Prop
  | num a, num b => a < b
  | _, _ => False

/-- IEEE 754 `<=` -/
def le [LE C] : Dbl C → Dbl C → Prop
  | num a, num b => a ≤ b
  | _, _ => False

instance [LT C] : LT (Dbl C) := ⟨lt⟩
instance [LE C] : LE (Dbl C) := ⟨le⟩

@[simp] theorem num_lt_num [LT C] (a b : C) : (num a < num b) = (a < b) := rfl
@[simp] theorem nan_lt [LT C] (b : Dbl C) : (nan < b) = False := by cases b <;> rfl
@[simp] theorem lt_nan [LT C] (b : Dbl C) : (b < nan) = False := by cases b <;> rfl
@[simp] theorem num_le_num [LE C] (a b : C) : (num a ≤ num b) = (a ≤ b) := rfl
@[simp] theorem nan_le [LE C] (b : Dbl C) : (nan ≤ b) = False := by cases b <;> rfl
@[simp] theorem le_nan [LE C] (b : Dbl C) : (b ≤ nan) = False := by cases b <;> rfl

instance [LT C] [DecidableLT C] : DecidableLT (Dbl C)
  | num a, num b => inferInstanceAs (Decidable (a < b))
  | nan, b => decidable_of_iff False (by rw [nan_lt])
  | num a, nan => decidable_of_iff False (by rw [lt_nan])

instance [LE C] [DecidableLE C] : DecidableLE (Dbl C)
  | num a, num b => inferInstanceAs (Decidable (a ≤ b))
  | nan, b => decidable_of_iff False (by rw [nan_le])
  | num a, nan => decidable_of_iff False (by rw [le_nan])

/-- IEEE 754 `+` (sums of numbers are numbers: infinities of opposite sign do not occur here). -/
def add [Add C] : Dbl C → Dbl C → Dbl C
  | num a, num b => num (a + b)
  | _, _ => nan

instance [Add C] : Add (Dbl C) := ⟨add⟩
instance [Zero C] : Zero (Dbl C) := ⟨num 0⟩
instance [Top C] : Top (Dbl C) := ⟨num ⊤⟩

@[simp] theorem num_add_num [Add C] (a b : C) : num a + num b = num (a + b) := rfl
@[simp] theorem nan_add [Add C] (b : Dbl C) : nan + b = nan := by cases b <;> rfl
@[simp] theorem add_nan [Add C] (b : Dbl C) : b + nan = nan := by cases b <;> rfl
theorem zero_def [Zero C] : (0 : Dbl C) = num 0 := rfl
theorem top_def [Top C] : (⊤ : Dbl C) = num ⊤ := rfl

/-- `std::min(a, b)`: `b < a ? b : a`. -/
instance [LT C] [DecidableLT C] : Min (Dbl C) := ⟨fun a b => if b < a then b else a⟩
/-- `std::max(a, b)`: `a < b ? b : a`. -/
instance [LT C] [DecidableLT C] : Max (Dbl C) := ⟨fun a b => if a < b then b else a⟩

theorem min_def [LT C] [DecidableLT C] (a b : Dbl C) : min a b = if b < a then b else a := rfl
theorem max_def [LT C] [DecidableLT C] (a b : Dbl C) : max a b = if a < b then b else a := rfl

/-- A NaN read as infinity. -/
def orTop [Top C] : Dbl C → C
  | nan => ⊤
  | num c => c

@[simp] theorem orTop_num [Top C] (c : C) : (num c).orTop = c := rfl
@[simp] theorem orTop_nan [Top C] : (nan : Dbl C).orTop = ⊤ := rfl

theorem ite_num_lt [LT C] [DecidableLT C] {X : Type} (a b : C) (x y : X) :
    (if num a < num b then x else y) = if a < b then x else y := by
  by_cases h : a < b
  · rw [if_pos h, if_pos (show num a < num b from h)]
  · rw [if_neg h, if_neg (show ¬ num a < num b from h)]

/-- Comparison from the right with a number does not tell a NaN from infinity. -/
theorem lt_num [LinearOrder C] [OrderTop C] (a : Dbl C) (b : C) : a < num b ↔ a.orTop < b := by
  cases a with
  | nan => simp
  | num a => simp

end Dbl

/-- Outcomes of a computation on numbers as outcomes of one on `double`s. -/
def lift {X Y : Type} (f : X → Y) : Res X → Res Y
  | .ok x => .ok (f x)
  | .throw e => .throw e
  | .ub => .ub

end CRU.NaN
