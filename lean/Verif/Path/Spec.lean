import Mathlib.Data.Rat.Defs
import Mathlib.Algebra.BigOperators.Group.List.Basic
/-
  Paths, independently of the model.
-/
namespace CRU.Path

variable {C : Type}

/-- The consecutive pairs of a path. -/
def edges : List C → List (C × C)
  | a :: b :: l => (a, b) :: edges (b :: l)
  | _ => []

/-- Every edge of the path passes the check. -/
def EdgesValid (valid : C → C → Bool) (path : List C) : Prop := ∀ p ∈ edges path, valid p.1 p.2 = true

/-- Length of a path. -/
def pathLength (dist : C → C → ℚ) (path : List C) : ℚ := ((edges path).map fun p => dist p.1 p.2).sum

/-- Same first and same last state. -/
def SameEnds (p q : List C) : Prop := p.head? = q.head? ∧ p.getLast? = q.getLast?

end CRU.Path
