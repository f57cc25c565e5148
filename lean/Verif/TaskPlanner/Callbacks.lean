import Verif.TaskPlanner.Props
/-
  include/common_robotics_utilities/simple_task_planner.hpp: `PerformSingleTaskExecution` with its callbacks, with primitives whose answers change
  over time, and with exceptions of all of them.
  What a primitive or a callback answers may depend on every call made before it and on every answer given: they are functions of the list of
  calls so far. While one plan is made, `IsCandidate`, `GetOutcomes`, the completion test and the heuristic give the answers of that moment and do
  not throw; the number and names of the primitives may also be different for every plan.
-/
namespace CRU.Task.Callbacks
open CRU.Task

/-- A plan with its cost: `TaskStateAstarResult`. (simple_task_planner.hpp:252-256) -/
abbrev Plan (S C : Type) := List (S × Int) × C

/-- One call made by the execution loop: its arguments, and the answer or exception. (no project code: C++ or bookkeeping) -/
inductive Event (S C ε : Type) where
  /-- `user_post_outcome_callback_fn` -/
  | outcome (cur : List S) (i : Int) (plan : Plan S C) (ans : Except ε Unit)
  /-- `user_pre_execution_callback_fn`, with the primitive's name -/
  | announce (s : S) (name : String) (plan : Plan S C) (ans : Except ε Unit)
  /-- the logging function, with the primitive's name in the message -/
  | log (name : String) (ans : Except ε Unit)
  /-- `Execute` of the primitive with this name -/
  | execute (name : String) (s : S) (ans : Except ε (List S))
  /-- `user_post_execution_callback_fn` -/
  | executed (outs : List S) (ans : Except ε Unit)

/-- The calls made so far, in order. (no project code: C++ or bookkeeping) -/
abbrev Hist (S C ε : Type) := List (Event S C ε)

/-- The primitives and functions given to `PerformSingleTaskExecution`. (simple_task_planner.hpp:463-495) -/
structure World (S C ε : Type) where
  /-- the primitives of the collection, with the answers of `IsCandidate` and `GetOutcomes` at this time -/
  prims : Hist S C ε → List (Primitive S C)
  /-- `task_sequence_complete_fn` -/
  complete : Hist S C ε → S → Bool
  /-- `state_heuristic_fn` -/
  heuristic : Option (Hist S C ε → S → C)
  /-- `user_post_outcome_callback_fn` -/
  outcome : Option (Hist S C ε → List S → Int → Plan S C → Except ε Unit)
  /-- `user_pre_execution_callback_fn` -/
  announce : Option (Hist S C ε → S → String → Plan S C → Except ε Unit)
  /-- the logging function of the collection -/
  log : Option (Hist S C ε → String → Except ε Unit)
  /-- `Execute` of the primitive with this name -/
  execute : Hist S C ε → String → S → Except ε (List S)
  /-- `user_post_execution_callback_fn` -/
  executed : Option (Hist S C ε → List S → Except ε Unit)

/-- How a call can fail: an exception of the library, one of a function given by the user, undefined behaviour. (no project code: C++ or
bookkeeping) -/
inductive Fail (ε : Type) where
  | lib (x : Exc)
  | user (x : ε)
  | ub

variable {S C ε α β : Type}

/-- Code that makes calls. (no project code: C++ or bookkeeping) -/
abbrev Run (S C ε α : Type) := Hist S C ε → Except (Fail ε) α × Hist S C ε

/-- A statement that does nothing but give `a`. (no project code: C++ or bookkeeping) -/
def ret (a : α) : Run S C ε α := fun h => (.ok a, h)

/-- Sequential composition; an exception skips the rest. (no project code: C++ or bookkeeping) -/
def seq (m : Run S C ε α) (f : α → Run S C ε β) : Run S C ε β := fun h =>
  match m h with
  | (.ok a, h1) => f a h1
  | (.error x, h1) => (.error x, h1)

instance : Monad (Run S C ε) where
  pure := ret
  bind := seq

/-- A step that calls nothing. (no project code: C++ or bookkeeping) -/
def lib : Res α → Run S C ε α
  | .ok a => ret a
  | .throw x => fun h => (.error (.lib x), h)
  | .ub => fun h => (.error .ub, h)

/-- A call: the answer, and the call added to the list. (no project code: C++ or bookkeeping) -/
def ask (f : Hist S C ε → Except ε α) (ev : Except ε α → Event S C ε) : Run S C ε α := fun h =>
  match f h with
  | .ok a => (.ok a, h ++ [ev (.ok a)])
  | .error x => (.error (.user x), h ++ [ev (.error x)])

/-- A call of a function that need not be given: `if (fn) { fn(...); }`. (simple_task_planner.hpp:118-124, 514-519, 532-536, 547-550) -/
def askIf (f : Option (Hist S C ε → Except ε Unit)) (ev : Except ε Unit → Event S C ε) : Run S C ε Unit :=
  match f with
  | none => ret ()
  | some g => ask g ev

/-- simple_task_planner.hpp:542: `num_primitive_executions++` on an `int32_t`. -/
def bump (n : Int) : Res Int := if n + 1 < 2 ^ 31 then .ok (n + 1) else .ub

/-- simple_task_planner.hpp:508-551: one round of the loop after planning: the state added to the trace, and unless the task is done the number
of executions and the outcomes for the next round. -/
def round (W : World S C ε) (n : Int) (cur : List S) (plan : Plan S C) (i : Int) (p : Option (Primitive S C)) :
    Run S C ε (S × Option (Int × List S)) := do
  let s ← lib (atInt cur i)
  askIf (W.outcome.map fun f h => f h cur i plan) (Event.outcome cur i plan)
  match p with
  | none => pure (s, none)
  | some q => do
    askIf (W.announce.map fun f h => f h s q.name plan) (Event.announce s q.name plan)
    askIf (W.log.map fun f h => f h q.name) (Event.log q.name)
    let m ← lib (bump n)
    let outs ← ask (fun h => W.execute h q.name s) (Event.execute q.name s)
    askIf (W.executed.map fun f h => f h outs) (Event.executed outs)
    pure (s, some (m, outs))

/-- The trace with one more state in front, if there is a trace. (simple_task_planner.hpp:510-511) -/
def addState (s : S) : Except (Fail ε) (List S) → Except (Fail ε) (List S)
  | .ok tr => .ok (s :: tr)
  | .error x => .error x

variable [DecidableEq S] [LinearOrder C] [Add C] [Zero C] [OrderTop C]

/-- simple_task_planner.hpp:394-457 `GetNextPrimitiveToExecute` at a moment with the calls `h` made. -/
def Next (W : World S C ε) (h : Hist S C ε) (cur : List S) (r : Res (Plan S C × Int × Option (Primitive S C))) : Prop :=
  NextRun (W.prims h) (W.complete h) (W.heuristic.map fun f => f h) cur r

/-- simple_task_planner.hpp:477-556 `PerformSingleTaskExecution`: a possible outcome of the loop, with `n` executions so far, current outcomes
`cur` and the calls `h` made, is `r` with the calls `H` made; the trace is what is pushed from here on. -/
inductive ExecRun (W : World S C ε) (max : Int) : Int → List S → Hist S C ε → Except (Fail ε) (List S) → Hist S C ε → Prop
  | limit {n : Int} {cur : List S} {h : Hist S C ε} (hl : ¬ (n < max ∨ max < 0)) : ExecRun W max n cur h (.ok []) h
  | planThrows {n : Int} {cur : List S} {h : Hist S C ε} {x : Exc} (hl : n < max ∨ max < 0) (hn : Next W h cur (.throw x)) :
      ExecRun W max n cur h (.error (.lib x)) h
  | planUb {n : Int} {cur : List S} {h : Hist S C ε} (hl : n < max ∨ max < 0) (hn : Next W h cur .ub) : ExecRun W max n cur h (.error .ub) h
  | fails {n : Int} {cur : List S} {h H : Hist S C ε} {plan : Plan S C} {i : Int} {p : Option (Primitive S C)} {x : Fail ε}
      (hl : n < max ∨ max < 0) (hn : Next W h cur (.ok (plan, i, p))) (hr : round W n cur plan i p h = (.error x, H)) :
      ExecRun W max n cur h (.error x) H
  | done {n : Int} {cur : List S} {h H : Hist S C ε} {plan : Plan S C} {i : Int} {p : Option (Primitive S C)} {s : S}
      (hl : n < max ∨ max < 0) (hn : Next W h cur (.ok (plan, i, p))) (hr : round W n cur plan i p h = (.ok (s, none), H)) :
      ExecRun W max n cur h (.ok [s]) H
  | goOn {n m : Int} {cur outs : List S} {h h1 H : Hist S C ε} {plan : Plan S C} {i : Int} {p : Option (Primitive S C)} {s : S}
      {r : Except (Fail ε) (List S)} (hl : n < max ∨ max < 0) (hn : Next W h cur (.ok (plan, i, p)))
      (hr : round W n cur plan i p h = (.ok (s, some (m, outs)), h1)) (hx : ExecRun W max m outs h1 r H) :
      ExecRun W max n cur h (addState s r) H

/-- simple_task_planner.hpp:463-556 `PerformSingleTaskExecution` of several start states: outcome and calls made. -/
def PerformRun (W : World S C ε) (max : Int) (starts : List S) (r : Except (Fail ε) (List S)) (H : Hist S C ε) : Prop :=
  ExecRun W max 0 starts [] r H

/-- simple_task_planner.hpp:558-584 `PerformSingleTaskExecution` of one start state. -/
def PerformRun1 (W : World S C ε) (max : Int) (start : S) (r : Except (Fail ε) (List S)) (H : Hist S C ε) : Prop :=
  PerformRun W max ([] ++ [start]) r H

end CRU.Task.Callbacks
