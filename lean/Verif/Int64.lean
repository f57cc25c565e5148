import Verif.Base
/-
  Signed 64-bit arithmetic with overflow as undefined behaviour.
-/
namespace CRU

/-- Representable in `int64_t`. -/
def InI64 (x : Int) : Prop := -9223372036854775808 ≤ x ∧ x ≤ 9223372036854775807

instance (x : Int) : Decidable (InI64 x) := inferInstanceAs (Decidable (_ ∧ _))

/-- Result of a signed 64-bit operation: undefined on overflow. -/
def chk64 (x : Int) : Res Int := if InI64 x then .ok x else .ub

theorem chk64_ok {x : Int} (h : InI64 x) : chk64 x = .ok x := by simp [chk64, h]

end CRU
