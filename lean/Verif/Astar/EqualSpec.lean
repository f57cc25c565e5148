import Verif.Astar.Spec
/-
  What a path is when states are compared with a caller-supplied equality.
-/
namespace CRU.Astar

variable {S C : Type} [Add C]

/-- Like `Walk`, but each state of `path` need only be *equal*, in the sense of `eq`, to a start state or to a child of
the state before it. -/
inductive WalkUpTo (eq : S → S → Bool) (starts : List (S × C)) (edge : S → S → C → Prop) : List S → C → Prop
  | start {s s0 : S} {c : C} (he : eq s s0 = true) (h : (s0, c) ∈ starts) : WalkUpTo eq starts edge [s] c
  | step {l : List S} {s t t0 : S} {c w : C} (h : WalkUpTo eq starts edge (l ++ [s]) c) (he : edge s t0 w)
      (ht : eq t t0 = true) : WalkUpTo eq starts edge (l ++ [s] ++ [t]) (c + w)

end CRU.Astar
