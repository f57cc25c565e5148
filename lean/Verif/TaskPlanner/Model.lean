import Verif.TaskPlanner.Spec
import Verif.Astar.Model
/-
  Model of include/common_robotics_utilities/simple_task_planner.hpp. Logging and user callbacks are left out here (they see
  const references); TaskPlanner/Callbacks.lean has them. States are compared with `=` (lawful StateEqual); `OutcomeWithPrimitiveIndexHash` returns `bool`,
  which affects only the distribution of hash values.
-/
namespace CRU.Task

variable {S C : Type} [DecidableEq S] [LinearOrder C] [Add C] [Zero C] [OrderTop C]

/-- simple_task_planner.hpp:125-142 `RegisterPrimitive`. -/
def register (prims : List (Primitive S C)) (p : Primitive S C) : List (Primitive S C) × Res Unit :=
  if prims.any (fun q => q.name = p.name) then (prims, .throw .invalidArgument) else (prims ++ [p], .ok ())

/-- simple_task_planner.hpp:144-160 `UnregisterPrimitivesByName`. -/
def unregister (prims : List (Primitive S C)) (names : List String) : List (Primitive S C) :=
  prims.filter fun p => p.name ∉ names

/-- simple_task_planner.hpp:125-167 the mutators of `ActionPrimitiveCollection`. -/
inductive CollOp (S C : Type) where
  | register (p : Primitive S C)
  | unregister (names : List String)
  | clear

/-- Effect of one call (exceptions leave the returned state). (simple_task_planner.hpp:114-170) -/
def CollOp.run (prims : List (Primitive S C)) : CollOp S C → List (Primitive S C)
  | .register p => (CRU.Task.register prims p).1
  | .unregister names => CRU.Task.unregister prims names
  | .clear => []

/-- simple_task_planner.hpp:285-314 `generate_children_function`. -/
def children (prims : List (Primitive S C)) (s : S) : List ((S × Int) × C) :=
  prims.zipIdx.flatMap fun pi =>
    if pi.1.candidate s then (pi.1.outcomes s).map fun o => ((o.1, (pi.2 : Int)), o.2) else []

/-- simple_task_planner.hpp:272-330: the A* problem; without a heuristic function the heuristic is 0. -/
def planProblem (prims : List (Primitive S C)) (complete : S → Bool) (h : Option (S → C)) : Astar.Problem (S × Int) C where
  goal := fun x => complete x.1
  expand := fun x => .ok (children prims x.1)
  h := fun x => match h with | some f => f x.1 | none => 0
  limit := true

/-- simple_task_planner.hpp:332-338 -/
def planStarts (starts : List S) : List ((S × Int) × C) := starts.map fun s => ((s, -1), 0)

/-- simple_task_planner.hpp:258-353 `PlanTaskStateSequence`. -/
def PlanRun (prims : List (Primitive S C)) (complete : S → Bool) (h : Option (S → C)) (starts : List S)
    (r : Res (List (S × Int) × C)) : Prop :=
  Astar.AstarRun (planProblem prims complete h) (planStarts starts) r

/-- simple_task_planner.hpp:420-456, what is done with the planning result: selected outcome index and next primitive. -/
def pickNext (prims : List (Primitive S C)) (starts : List S) (plan : List (S × Int) × C) :
    Res (Int × Option (Primitive S C)) :=
  if plan.2 ≠ ⊤ then do
    let first ← atChecked plan.1 0
    match starts.findIdx? (fun t => first.1 = t) with
    | none => .throw .runtimeError
    | some i =>
      if plan.1.length > 1 then do
        let next ← atChecked plan.1 1
        let p ← atInt prims next.2
        pure ((i : Int), some p)
      else pure ((i : Int), none)
  else .throw .runtimeError

/-- simple_task_planner.hpp:394-457 `GetNextPrimitiveToExecute`: outcome with the plan it was chosen from. -/
inductive NextRun (prims : List (Primitive S C)) (complete : S → Bool) (h : Option (S → C)) (starts : List S) :
    Res ((List (S × Int) × C) × Int × Option (Primitive S C)) → Prop
  | empty (hs : starts = []) : NextRun prims complete h starts (.throw .invalidArgument)
  | planned {r : Res (List (S × Int) × C)} (hs : starts ≠ []) (hp : PlanRun prims complete h starts r) :
      NextRun prims complete h starts (do
        let plan ← r
        let x ← pickNext prims starts plan
        pure (plan, x))

/-- simple_task_planner.hpp:477-560 `PerformSingleTaskExecution`: `r` is a possible outcome of the loop with `n` executions so far and current
outcomes `cur`; the trace is what is pushed from here on. `max` is `max_primitive_executions`. The execution counter is
unbounded (the code's `int32_t` overflows after 2^31 executions when there is no limit). -/
inductive ExecRun (prims : List (Primitive S C)) (complete : S → Bool) (h : Option (S → C)) (max : Int) :
    Int → List S → Res (List S) → Prop
  | limit {n : Int} {cur : List S} (hl : ¬ (n < max ∨ max < 0)) : ExecRun prims complete h max n cur (.ok [])
  | planThrows {n : Int} {cur : List S} {e : Exc} (hl : n < max ∨ max < 0)
      (hn : NextRun prims complete h cur (.throw e)) : ExecRun prims complete h max n cur (.throw e)
  | planUb {n : Int} {cur : List S} (hl : n < max ∨ max < 0)
      (hn : NextRun prims complete h cur .ub) : ExecRun prims complete h max n cur .ub
  | badIndex {n : Int} {cur : List S} {plan : List (S × Int) × C} {i : Int} {p : Option (Primitive S C)} {e : Exc}
      (hl : n < max ∨ max < 0) (hn : NextRun prims complete h cur (.ok (plan, i, p))) (hi : atInt cur i = .throw e) :
      ExecRun prims complete h max n cur (.throw e)
  | done {n : Int} {cur : List S} {plan : List (S × Int) × C} {i : Int} {s : S} (hl : n < max ∨ max < 0)
      (hn : NextRun prims complete h cur (.ok (plan, i, none))) (hi : atInt cur i = .ok s) :
      ExecRun prims complete h max n cur (.ok [s])
  | execThrows {n : Int} {cur : List S} {plan : List (S × Int) × C} {i : Int} {s : S} {p : Primitive S C} {e : Exc}
      (hl : n < max ∨ max < 0) (hn : NextRun prims complete h cur (.ok (plan, i, some p))) (hi : atInt cur i = .ok s)
      (he : p.execute s (.throw e)) : ExecRun prims complete h max n cur (.throw e)
  | exec {n : Int} {cur outs : List S} {plan : List (S × Int) × C} {i : Int} {s : S} {p : Primitive S C} {r : Res (List S)}
      (hl : n < max ∨ max < 0) (hn : NextRun prims complete h cur (.ok (plan, i, some p))) (hi : atInt cur i = .ok s)
      (he : p.execute s (.ok outs)) (hr : ExecRun prims complete h max (n + 1) outs r) :
      ExecRun prims complete h max n cur (do
        let tr ← r
        pure (s :: tr))

end CRU.Task
