import Verif.TaskPlanner.Callbacks
import Verif.TaskPlanner.Planning
/-
  include/common_robotics_utilities/simple_task_planner.hpp: `PerformSingleTaskExecution` where everything that is called may keep state and may
  throw: the primitives (`IsCandidate`, `GetOutcomes`, `Execute`), the completion test, the heuristic, the logging function and the callbacks.
  What a function answers may depend on every call made before it, of any of the functions, while planning or not, and on every answer given.
  Not modelled: primitives that are registered or unregistered while a plan is made (callbacks may change the collection between plans), and
  exceptions of `Name`.
-/
namespace CRU.Task.Session
open CRU.Task

variable {S C ε : Type}

/-- The calls made so far, in order: those made while planning (`inl`) and those made by the execution loop (`inr`). (no project code: C++ or
bookkeeping) -/
abbrev Hist (S C ε : Type) := List (Planning.Call S C ε ⊕ Callbacks.Event S C ε)

/-- Calls made while a plan is made. (no project code: C++ or bookkeeping) -/
def asked (p : Planning.Calls S C ε) : Hist S C ε := p.map .inl

/-- Calls made by the execution loop. (no project code: C++ or bookkeeping) -/
def did (E : Callbacks.Hist S C ε) : Hist S C ε := E.map .inr

/-- The primitives and functions given to `PerformSingleTaskExecution`. (simple_task_planner.hpp:463-495) -/
structure World (S C ε : Type) where
  /-- `task_sequence_complete_fn` -/
  complete : Hist S C ε → S → Except ε Bool
  /-- `state_heuristic_fn` -/
  heur : Option (Hist S C ε → S → Except ε C)
  /-- the number of primitives in the collection -/
  count : Hist S C ε → Nat
  /-- `Name` of the primitive with this index -/
  name : Hist S C ε → Nat → String
  /-- `IsCandidate` of the primitive with this index -/
  candidate : Hist S C ε → Nat → S → Except ε Bool
  /-- `GetOutcomes` of the primitive with this index -/
  outcomes : Hist S C ε → Nat → S → Except ε (List (S × C))
  /-- `user_post_outcome_callback_fn` -/
  outcome : Option (Hist S C ε → List S → Int → Callbacks.Plan S C → Except ε Unit)
  /-- `user_pre_execution_callback_fn` -/
  announce : Option (Hist S C ε → S → String → Callbacks.Plan S C → Except ε Unit)
  /-- the logging function of the collection -/
  log : Option (Hist S C ε → String → Except ε Unit)
  /-- `Execute` of the primitive with this name -/
  execute : Hist S C ε → String → S → Except ε (List S)
  /-- `user_post_execution_callback_fn` -/
  executed : Option (Hist S C ε → List S → Except ε Unit)

/-- simple_task_planner.hpp:502-506: what planning sees of the functions with the calls `h` made. -/
def World.fns (W : World S C ε) (h : Hist S C ε) : Planning.Fns S C ε where
  complete := fun p => W.complete (h ++ asked p)
  heur := W.heur.map fun f p => f (h ++ asked p)
  count := W.count h
  candidate := fun p => W.candidate (h ++ asked p)
  outcomes := fun p => W.outcomes (h ++ asked p)

/-- simple_task_planner.hpp:508-551: what the rest of a round sees of the functions with the calls `h` made; it does not plan. -/
def World.loop (W : World S C ε) (h : Hist S C ε) : Callbacks.World S C ε where
  prims := fun _ => []
  complete := fun _ _ => false
  heuristic := none
  outcome := W.outcome.map fun f E => f (h ++ did E)
  announce := W.announce.map fun f E => f (h ++ did E)
  log := W.log.map fun f E => f (h ++ did E)
  execute := fun E => W.execute (h ++ did E)
  executed := W.executed.map fun f E => f (h ++ did E)

/-- simple_task_planner.hpp:436-437: the primitive with this index; the rest of the round uses its name and, in `World.loop`, its `Execute`. -/
def World.prim (W : World S C ε) (h : Hist S C ε) (j : Nat) : Primitive S C := ⟨W.name h j, fun _ => false, fun _ => [], fun _ _ => False⟩

/-- What is thrown while planning is thrown. (no project code: C++ or bookkeeping) -/
def failed : Astar.Callbacks.Fail ε → Callbacks.Fail ε
  | .lib x => .lib x
  | .user x => .user x
  | .ub => .ub

variable [DecidableEq S] [LinearOrder C] [Add C] [Zero C] [OrderTop C]

/-- simple_task_planner.hpp:477-556 `PerformSingleTaskExecution`: a possible outcome of the loop, with `n` executions so far, current outcomes
`cur` and the calls `h` made, is `r` with the calls `H` made; the trace is what is pushed from here on. -/
inductive ExecRun (W : World S C ε) (max : Int) : Int → List S → Hist S C ε → Except (Callbacks.Fail ε) (List S) → Hist S C ε → Prop
  | limit {n : Int} {cur : List S} {h : Hist S C ε} (hl : ¬ (n < max ∨ max < 0)) : ExecRun W max n cur h (.ok []) h
  | planFails {n : Int} {cur : List S} {h : Hist S C ε} {x : Astar.Callbacks.Fail ε} {p : Planning.Calls S C ε} (hl : n < max ∨ max < 0)
      (hn : Planning.NextCalls (W.fns h) cur (.error x) p) : ExecRun W max n cur h (.error (failed x)) (h ++ asked p)
  | fails {n : Int} {cur : List S} {h : Hist S C ε} {p : Planning.Calls S C ε} {E : Callbacks.Hist S C ε} {plan : Callbacks.Plan S C} {i : Int}
      {j : Option Nat} {x : Callbacks.Fail ε} (hl : n < max ∨ max < 0) (hn : Planning.NextCalls (W.fns h) cur (.ok (plan, i, j)) p)
      (hr : Callbacks.round (W.loop (h ++ asked p)) n cur plan i (j.map (W.prim h)) [] = (.error x, E)) :
      ExecRun W max n cur h (.error x) (h ++ asked p ++ did E)
  | done {n : Int} {cur : List S} {h : Hist S C ε} {p : Planning.Calls S C ε} {E : Callbacks.Hist S C ε} {plan : Callbacks.Plan S C} {i : Int}
      {j : Option Nat} {s : S} (hl : n < max ∨ max < 0) (hn : Planning.NextCalls (W.fns h) cur (.ok (plan, i, j)) p)
      (hr : Callbacks.round (W.loop (h ++ asked p)) n cur plan i (j.map (W.prim h)) [] = (.ok (s, none), E)) :
      ExecRun W max n cur h (.ok [s]) (h ++ asked p ++ did E)
  | goOn {n m : Int} {cur outs : List S} {h H : Hist S C ε} {p : Planning.Calls S C ε} {E : Callbacks.Hist S C ε} {plan : Callbacks.Plan S C} {i : Int}
      {j : Option Nat} {s : S} {r : Except (Callbacks.Fail ε) (List S)} (hl : n < max ∨ max < 0)
      (hn : Planning.NextCalls (W.fns h) cur (.ok (plan, i, j)) p)
      (hr : Callbacks.round (W.loop (h ++ asked p)) n cur plan i (j.map (W.prim h)) [] = (.ok (s, some (m, outs)), E))
      (hx : ExecRun W max m outs (h ++ asked p ++ did E) r H) : ExecRun W max n cur h (Callbacks.addState s r) H

/-- simple_task_planner.hpp:463-556 `PerformSingleTaskExecution` of several start states: outcome and calls made. -/
def PerformRun (W : World S C ε) (max : Int) (starts : List S) (r : Except (Callbacks.Fail ε) (List S)) (H : Hist S C ε) : Prop :=
  ExecRun W max 0 starts [] r H

end CRU.Task.Session
