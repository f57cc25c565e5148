import Mathlib.Order.Basic
/-
  Directed Hausdorff distance and pairwise distances, independent of the code.
-/
namespace CRU.Distances

variable {A B D : Type}

/-- `c` is the largest distance from a point of `xs` to the closest point of `ys`. -/
def IsHausdorff [LE D] (d : A → B → D) (xs : List A) (ys : List B) (c : D) : Prop :=
  (∀ x ∈ xs, ∃ y ∈ ys, d x y ≤ c) ∧ (∃ x ∈ xs, ∀ y ∈ ys, c ≤ d x y)

end CRU.Distances
