import Verif.TaskPlanner.Model
import Verif.Astar.Callbacks
/-
  include/common_robotics_utilities/simple_task_planner.hpp: `PlanTaskStateSequence` and `GetNextPrimitiveToExecute` with primitives, a completion
  test and a heuristic that keep state and that may throw.
  What a function answers may depend on every call made before it while the plan is made, of any of the functions, and on every answer given.
  Not modelled: primitives that register or unregister primitives while a plan is made.
-/
namespace CRU.Task.Planning
open CRU.Task

variable {S C ε α β : Type}

/-- One call made while a plan is made: its arguments, and the answer or exception. (no project code: C++ or bookkeeping) -/
inductive Call (S C ε : Type) where
  /-- `task_sequence_complete_fn` -/
  | complete (s : S) (ans : Except ε Bool)
  /-- `state_heuristic_fn` -/
  | heur (s : S) (ans : Except ε C)
  /-- `IsCandidate` of the primitive with this index -/
  | candidate (i : Nat) (s : S) (ans : Except ε Bool)
  /-- `GetOutcomes` of the primitive with this index -/
  | outcomes (i : Nat) (s : S) (ans : Except ε (List (S × C)))

/-- The calls made so far, in order. (no project code: C++ or bookkeeping) -/
abbrev Calls (S C ε : Type) := List (Call S C ε)

/-- The primitives and functions given to `PlanTaskStateSequence`. (simple_task_planner.hpp:258-267) -/
structure Fns (S C ε : Type) where
  /-- `task_sequence_complete_fn` -/
  complete : Calls S C ε → S → Except ε Bool
  /-- `state_heuristic_fn`, which need not be given -/
  heur : Option (Calls S C ε → S → Except ε C)
  /-- the number of primitives -/
  count : Nat
  /-- `IsCandidate` of the primitives -/
  candidate : Calls S C ε → Nat → S → Except ε Bool
  /-- `GetOutcomes` of the primitives -/
  outcomes : Calls S C ε → Nat → S → Except ε (List (S × C))

/-- Code that makes calls and that can only fail with an exception of one of them. (no project code: C++ or bookkeeping) -/
abbrev Run (S C ε α : Type) := Calls S C ε → Except ε α × Calls S C ε

/-- A statement that does nothing but give `a`. (no project code: C++ or bookkeeping) -/
def ret (a : α) : Run S C ε α := fun p => (.ok a, p)

/-- Sequential composition; an exception skips the rest: nothing in the file catches. (no project code: C++ or bookkeeping) -/
def seq (m : Run S C ε α) (f : α → Run S C ε β) : Run S C ε β := fun p =>
  match m p with
  | (.ok a, p1) => f a p1
  | (.error x, p1) => (.error x, p1)

instance : Monad (Run S C ε) where
  pure := ret
  bind := seq

/-- A call: the answer, and the call added to the list. (no project code: C++ or bookkeeping) -/
def ask (f : Calls S C ε → Except ε α) (ev : Except ε α → Call S C ε) : Run S C ε α := fun p => (f p, p ++ [ev (f p)])

/-- simple_task_planner.hpp:272-278 `goal_reached_function`. -/
def goalReached (F : Fns S C ε) (x : S × Int) : Run S C ε Bool := ask (fun p => F.complete p x.1) (Call.complete x.1)

/-- simple_task_planner.hpp:287-311: the loop over the primitives, for the indices `l`. -/
def askPrimitives (F : Fns S C ε) (s : S) : List Nat → Run S C ε (List ((S × Int) × C))
  | [] => ret []
  | i :: l => do
    let c ← ask (fun p => F.candidate p i s) (Call.candidate i s)
    if c then do
      let outs ← ask (fun p => F.outcomes p i s) (Call.outcomes i s)
      let rest ← askPrimitives F s l
      ret (outs.map (fun o => ((o.1, (i : Int)), o.2)) ++ rest)
    else askPrimitives F s l

/-- simple_task_planner.hpp:280-314 `generate_children_function`. -/
def generateChildren (F : Fns S C ε) (x : S × Int) : Run S C ε (List ((S × Int) × C)) := askPrimitives F x.1 (List.range F.count)

/-- simple_task_planner.hpp:316-330 `heuristic_function`: without a function of the user 0, and no call. -/
def heuristic [Zero C] (F : Fns S C ε) (x : S × Int) : Run S C ε C :=
  match F.heur with
  | some f => ask (fun p => f p x.1) (Call.heur x.1)
  | none => ret 0

section
variable [Zero C]

/-- The calls of the user's functions after one more call of a lambda by the search. (no project code: C++ or bookkeeping) -/
def play (F : Fns S C ε) (p : Calls S C ε) : Astar.Callbacks.Event (S × Int) C ε → Calls S C ε
  | .goal x _ => (goalReached F x p).2
  | .heur x _ => (heuristic F x p).2
  | .kids x _ => (generateChildren F x p).2
  | .gen _ _ => p
  | .valid _ _ _ => p
  | .dist _ _ _ => p

/-- The calls of the user's functions made by the calls of the lambdas. (no project code: C++ or bookkeeping) -/
def replay (F : Fns S C ε) (h : Astar.Callbacks.Hist (S × Int) C ε) : Calls S C ε := h.foldl (play F) []

/-- simple_task_planner.hpp:272-330: the lambdas as functions of the calls of lambdas made so far; the search takes no others. -/
def lambdas (F : Fns S C ε) : Astar.Callbacks.Fns (S × Int) C ε where
  goal := fun h x => (goalReached F x (replay F h)).1
  heur := fun h x => (heuristic F x (replay F h)).1
  kids := fun h x => (generateChildren F x (replay F h)).1
  gen := fun _ _ => .ok []
  valid := fun _ _ _ => .ok true
  dist := fun _ _ _ => .ok 0

end

variable [DecidableEq S] [LinearOrder C] [Add C] [Zero C] [OrderTop C]

/-- simple_task_planner.hpp:258-349 `PlanTaskStateSequence`: a possible outcome, with all the calls of the user's functions. -/
def PlanCalls (F : Fns S C ε) (starts : List S) (r : Except (Astar.Callbacks.Fail ε) (List (S × Int) × C)) (p : Calls S C ε) : Prop :=
  ∃ h, Astar.Callbacks.AstarRun (Astar.Callbacks.world1 (lambdas F) true) (planStarts starts) r h ∧ p = replay F h

/-- simple_task_planner.hpp:420-456, what is done with the planning result: selected outcome index and index of the next primitive among
`count`. -/
def pickIndex (count : Nat) (starts : List S) (plan : List (S × Int) × C) : Res (Int × Option Nat) :=
  if plan.2 ≠ ⊤ then do
    let first ← atChecked plan.1 0
    match starts.findIdx? (fun t => first.1 = t) with
    | none => .throw .runtimeError
    | some i =>
      if plan.1.length > 1 then do
        let next ← atChecked plan.1 1
        let j ← atInt (List.range count) next.2
        pure ((i : Int), some j)
      else pure ((i : Int), none)
  else .throw .runtimeError

/-- simple_task_planner.hpp:394-457 `GetNextPrimitiveToExecute`: outcome, with the plan it was chosen from, and all the calls of the user's
functions. -/
inductive NextCalls (F : Fns S C ε) (starts : List S) :
    Except (Astar.Callbacks.Fail ε) ((List (S × Int) × C) × Int × Option Nat) → Calls S C ε → Prop
  | noStates (hs : starts = []) : NextCalls F starts (.error (.lib .invalidArgument)) []
  | fails {x : Astar.Callbacks.Fail ε} {p : Calls S C ε} (hs : starts ≠ []) (hp : PlanCalls F starts (.error x) p) : NextCalls F starts (.error x) p
  | planned {plan : List (S × Int) × C} {p : Calls S C ε} (hs : starts ≠ []) (hp : PlanCalls F starts (.ok plan) p) :
      NextCalls F starts (Astar.Callbacks.ofRes (do
        let x ← pickIndex F.count starts plan
        pure (plan, x))) p

end CRU.Task.Planning
