import Verif.Base
/-
  Task models as a user sees them.
-/
namespace CRU.Task

/-- An action primitive (simple_task_planner.hpp:31-57): name, candidate test, predicted outcomes with costs, and what
executing it may do (any relation: execution is real and stateful; it may throw). -/
structure Primitive (S C : Type) where
  name : String
  candidate : S → Bool
  outcomes : S → List (S × C)
  execute : S → Res (List S) → Prop

variable {S C : Type}

/-- `t` is a predicted outcome, at cost `w`, of the primitive with index `j`, which is a candidate in `s`. -/
def Predicted (prims : List (Primitive S C)) (s t : S) (j : Int) (w : C) : Prop :=
  ∃ p, 0 ≤ j ∧ prims[j.toNat]? = some p ∧ p.candidate s = true ∧ (t, w) ∈ p.outcomes s

/-- A plan: states with the index of the primitive that leads to them; the first has index -1. -/
inductive IsPlan [Add C] [Zero C] (prims : List (Primitive S C)) (starts : List S) : List (S × Int) → C → Prop
  | start {s : S} (h : s ∈ starts) : IsPlan prims starts [(s, -1)] 0
  | step {l : List (S × Int)} {x : S × Int} {t : S} {j : Int} {c w : C} (h : IsPlan prims starts (l ++ [x]) c)
      (he : Predicted prims x.1 t j w) : IsPlan prims starts (l ++ [x] ++ [(t, j)]) (c + w)

/-- The execution trace of a task: every state was one of the outcomes actually produced, every executed primitive was a
candidate in the state it was executed in; the trace ends in a completed state, or because the execution limit (if not
negative) was reached. `n` counts executions so far, `cur` are the current outcomes. -/
inductive GoodTrace (prims : List (Primitive S C)) (complete : S → Bool) (max : Int) : Int → List S → List S → Prop
  | limit {n : Int} {cur : List S} (h0 : 0 ≤ max) (h : max ≤ n) : GoodTrace prims complete max n cur []
  | done {n : Int} {cur : List S} {s : S} (hs : s ∈ cur) (hc : complete s = true) : GoodTrace prims complete max n cur [s]
  | step {n : Int} {cur outs tr : List S} {s : S} {p : Primitive S C} (hs : s ∈ cur) (hp : p ∈ prims)
      (hc : p.candidate s = true) (hn : complete s = false) (hlim : max < 0 ∨ n < max) (he : p.execute s (.ok outs))
      (ht : GoodTrace prims complete max (n + 1) outs tr) : GoodTrace prims complete max n cur (s :: tr)

end CRU.Task
