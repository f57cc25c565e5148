import Verif.Cost
/-
  What a path is, independent of the search.
-/
namespace CRU.Astar

variable {S C : Type} [Add C]

/-- `Walk starts edge path c`: `path` begins with a start state, each consecutive pair is an edge, and `c` is the
accumulated cost, start cost first, added in path order. -/
inductive Walk (starts : List (S × C)) (edge : S → S → C → Prop) : List S → C → Prop
  | start {s : S} {c : C} (h : (s, c) ∈ starts) : Walk starts edge [s] c
  | step {l : List S} {s t : S} {c w : C} (h : Walk starts edge (l ++ [s]) c) (he : edge s t w) :
      Walk starts edge (l ++ [s] ++ [t]) (c + w)

/-- `path` ends in a goal state. -/
def EndsInGoal (goal : S → Bool) (path : List S) : Prop := ∃ g, path.getLast? = some g ∧ goal g = true

variable [LinearOrder C] [Zero C]

/-- The heuristic is non-negative and never overestimates: from any state and any cost so far, cost so far plus heuristic
is at most the accumulated cost of any continuation to a goal. -/
def Admissible (edge : S → S → C → Prop) (goal : S → Bool) (h : S → C) : Prop :=
  ∀ s, 0 ≤ h s ∧ ∀ (x : C) (path : List S) (c : C), 0 ≤ x → Walk [(s, x)] edge path c → EndsInGoal goal path → x + h s ≤ c

end CRU.Astar
