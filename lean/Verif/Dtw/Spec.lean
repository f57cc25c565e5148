import Verif.Cost
/-
  What dynamic time warping is, independent of the code.
-/
namespace CRU.Dtw

/-- One step of a warping path: advance in the first sequence, in the second, or in both. -/
def WarpStep (p q : Nat × Nat) : Prop := q = (p.1 + 1, p.2) ∨ q = (p.1, p.2 + 1) ∨ q = (p.1 + 1, p.2 + 1)

/-- A warping path from the first pair of elements to the pair `e`, listed from its end (latest pair first). -/
inductive WarpPath : Nat × Nat → List (Nat × Nat) → Prop
  | start : WarpPath (0, 0) [(0, 0)]
  | step {p q : Nat × Nat} {l : List (Nat × Nat)} (h : WarpPath p l) (hs : WarpStep p q) : WarpPath q (q :: l)

/-- Total cost of a path: pair costs summed from its start. -/
def pathCost {C : Type} [Add C] [Zero C] (d : Nat → Nat → C) : List (Nat × Nat) → C
  | [] => 0
  | p :: l => d p.1 p.2 + pathCost d l

/-- `c` is the smallest cost of a warping path to the pair `e`. -/
def Best {C : Type} [Add C] [Zero C] [LE C] (d : Nat → Nat → C) (e : Nat × Nat) (c : C) : Prop :=
  (∃ l, WarpPath e l ∧ pathCost d l = c) ∧ ∀ l, WarpPath e l → c ≤ pathCost d l

end CRU.Dtw
