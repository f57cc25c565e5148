import Verif.Rrt.BiModel
/-
  The planners of include/common_robotics_utilities/simple_rrt_planner.hpp with user-supplied functions that may also throw.
  A function given to a planner takes the environment state `σ` and returns or throws an exception of type `ε`, with the new
  environment state in both cases; a function that gets a tree by mutable reference also leaves a tree behind in both cases.
  Nothing in the planners catches: an exception ends the call, and what the caller then sees is the tree it passed in.
-/
namespace CRU.Rrt.Throw

variable {V S σ ε W α β : Type}

/-- What a planner can throw: one of its own exceptions, or one that came out of a user-supplied function.
(no project code: C++ or bookkeeping) -/
inductive Thrown (ε : Type) where
  | lib (x : Exc)
  | user (x : ε)
  deriving DecidableEq, Repr

/-- Code with local variables `W` and environment `σ`: `none` when the fuel is used up; otherwise the value or exception,
with variables and environment as left behind. (no project code: C++ or bookkeeping) -/
abbrev Code (W σ ε α : Type) := W → σ → Option (Except (Thrown ε) α × W × σ)

/-- A statement that does nothing but give `a`. (no project code: C++ or bookkeeping) -/
def ret (a : α) : Code W σ ε α := fun w s => some (.ok a, w, s)

/-- Sequential composition; an exception skips the rest. (no project code: C++ or bookkeeping) -/
def seq (m : Code W σ ε α) (f : α → Code W σ ε β) : Code W σ ε β := fun w s =>
  match m w s with
  | some (.ok a, w1, s1) => f a w1 s1
  | some (.error x, w1, s1) => some (.error x, w1, s1)
  | none => none

instance : Monad (Code W σ ε) where
  pure := ret
  bind := seq

/-- Out of fuel. (no project code: C++ or bookkeeping) -/
def more : Code W σ ε α := fun _ _ => none

/-- Reads the local variables. (no project code: C++ or bookkeeping) -/
def look : Code W σ ε W := fun w s => some (.ok w, w, s)

/-- Assigns to the local variables. (no project code: C++ or bookkeeping) -/
def update (f : W → W) : Code W σ ε Unit := fun w s => some (.ok (), f w, s)

/-- A step of the planner itself that may throw; the steps used here have no undefined behaviour, which is mapped to an
arbitrary exception. (no project code: C++ or bookkeeping) -/
def lib : Res α → Code W σ ε α
  | .ok a => ret a
  | .throw x => fun w s => some (.error (.lib x), w, s)
  | .ub => fun w s => some (.error (.lib .outOfRange), w, s)

/-- A call of a user-supplied function that cannot change the variables. (no project code: C++ or bookkeeping) -/
def call (f : σ → Except ε α × σ) : Code W σ ε α := fun w s =>
  match f s with
  | (.ok a, s1) => some (.ok a, w, s1)
  | (.error x, s1) => some (.error (.user x), w, s1)

/-- A call of a user-supplied function that may change some variables: `get` gives what is passed by reference, `set` stores
it. (no project code: C++ or bookkeeping) -/
def callRef {T : Type} (get : W → T) (set : W → T → W) (f : σ → T → (Option ε × T) × σ) : Code W σ ε Unit := fun w s =>
  match f s (get w) with
  | ((none, t), s1) => some (.ok (), set w t, s1)
  | ((some x, t), s1) => some (.error (.user x), set w t, s1)

/-- simple_rrt_planner.hpp:672-685, the functions given to `RRTPlanMultiPath`, each of which may throw. -/
structure Env (σ ε V S : Type) where
  sample : σ → Except ε S × σ
  nearest : σ → Tree V → S → Except ε Int × σ
  propagate : σ → V → S → Except ε (Propagation V) × σ
  stateAdded : Option (σ → Tree V → Int → (Option ε × Tree V) × σ)
  goalReached : σ → V → Except ε Bool × σ
  goalCallback : Option (σ → Tree V → Int → (Option ε × Tree V) × σ)
  terminate : σ → Int → Except ε Bool × σ

/-- Variables of `RRTPlanMultiPath`. (simple_rrt_planner.hpp:673, 694-700) -/
structure Vars (V : Type) where
  tree : Tree V
  goals : List Int := []
  stats : Stats := {}

/-- simple_rrt_planner.hpp:777-781, 787-790: call of a callback with the tree, if it is set. -/
def optional (cb : Option (σ → Tree V → Int → (Option ε × Tree V) × σ)) (i : Int) : Code (Vars V) σ ε Unit :=
  match cb with
  | some f => callRef Vars.tree (fun w t => { w with tree := t }) (fun s t => f s t i)
  | none => pure ()

/-- simple_rrt_planner.hpp:707-708: call of a callback without testing that it is set. -/
def untested (cb : Option (σ → Tree V → Int → (Option ε × Tree V) × σ)) (i : Int) : Code (Vars V) σ ε Unit :=
  match cb with
  | some f => callRef Vars.tree (fun w t => { w with tree := t }) (fun s t => f s t i)
  | none => lib (.throw .badFunctionCall)

/-- simple_rrt_planner.hpp:702-711, the check of the given tree. -/
def initialCheck (e : Env σ ε V S) : Nat → Int → Code (Vars V) σ ε Unit
  | 0, _ => more
  | fuel + 1, idx => do
    let w ← look
    if idx < (w.tree.length : Int) then do
      let n ← lib (getNode w.tree idx)
      let g ← call (fun s => e.goalReached s n.value)
      if g then do
        update (fun w => { w with goals := w.goals ++ [idx] })
        untested e.goalCallback idx
        initialCheck e fuel (idx + 1)
      else initialCheck e fuel (idx + 1)
    else pure ()

/-- simple_rrt_planner.hpp:743-772, the insertion of one propagated state. -/
def insert (nearest : Int) (mapping : List Int) (v : V) (rel : Int) : Code (Vars V) σ ε Int := do
  let w ← look
  update (fun w => { w with tree := (addPropagated w.tree nearest mapping v rel).1 })
  lib (addPropagated w.tree nearest mapping v rel).2

/-- simple_rrt_planner.hpp:741-794, the loop over the propagated states. -/
def addAll (e : Env σ ε V S) (nearest : Int) : Propagation V → List Int → Code (Vars V) σ ε Unit
  | [], _ => pure ()
  | (v, rel) :: ps, mapping => do
    let newIdx ← insert nearest mapping v rel
    optional e.stateAdded newIdx
    let w ← look
    let n ← lib (getNode w.tree newIdx)
    let g ← call (fun s => e.goalReached s n.value)
    if g then do
      update (fun w => { w with goals := w.goals ++ [newIdx] })
      optional e.goalCallback newIdx
      addAll e nearest ps (mapping ++ [newIdx])
    else addAll e nearest ps (mapping ++ [newIdx])

/-- simple_rrt_planner.hpp:720-802, body of the planning loop. -/
def planStep (e : Env σ ε V S) : Code (Vars V) σ ε Unit := do
  let target ← call e.sample
  update (fun w => { w with stats := { w.stats with total := w.stats.total + 1 } })
  let w ← look
  let nn ← call (fun s => e.nearest s w.tree target)
  let q ← lib (getNode w.tree nn)
  let ps ← call (fun s => e.propagate s q.value target)
  match ps with
  | [] => update (fun w => { w with stats := { w.stats with failed := w.stats.failed + 1 } })
  | p :: rest => do
    update (fun w => { w with stats := { w.stats with successful := w.stats.successful + 1 } })
    addAll e nn (p :: rest) []

/-- simple_rrt_planner.hpp:718-803, the planning loop. -/
def planLoop (e : Env σ ε V S) : Nat → Code (Vars V) σ ε Unit
  | 0 => more
  | fuel + 1 => do
    let w ← look
    let stop ← call (fun s => e.terminate s (w.tree.length : Int))
    if stop then pure () else do
      planStep e
      planLoop e fuel

/-- simple_rrt_planner.hpp:805-814, 585-622: the extraction of the solutions, which calls no user-supplied function. -/
def extract (fuel : Nat) : Code (Vars V) σ ε (Result V) := do
  let w ← look
  match extractSolutionPaths fuel w.tree w.goals with
  | some r => do
    let ps ← lib r
    pure ⟨ps, w.stats, w.tree.length, ps.length⟩
  | none => more

/-- simple_rrt_planner.hpp:687-815, body of `RRTPlanMultiPath`. -/
def planBody (e : Env σ ε V S) (fuel : Nat) : Code (Vars V) σ ε (Result V) := do
  let w ← look
  if w.tree.isEmpty then lib (.throw .invalidArgument) else do
    initialCheck e fuel 0
    planLoop e fuel
    extract fuel

/-- simple_rrt_planner.hpp:672-815 `RRTPlanMultiPath`: result or exception, the caller's tree and the environment. -/
def rrtPlanMultiPath (e : Env σ ε V S) (fuel : Nat) (tree : Tree V) (s : σ) :
    Option (Except (Thrown ε) (Result V) × Tree V × σ) :=
  (planBody e fuel { tree := tree } s).map fun r => (r.1, r.2.1.tree, r.2.2)

/-- simple_rrt_planner.hpp:1206-1221, the wrapped functions of `RRTPlanSinglePath`: the environment also carries
`solution_found`, which is set before the caller's callback runs. -/
def singleEnv (e : Env σ ε V S) : Env (σ × Bool) ε V S where
  sample s := ((e.sample s.1).1, ((e.sample s.1).2, s.2))
  nearest s t x := ((e.nearest s.1 t x).1, ((e.nearest s.1 t x).2, s.2))
  propagate s q x := ((e.propagate s.1 q x).1, ((e.propagate s.1 q x).2, s.2))
  stateAdded := e.stateAdded.map fun f s t i => ((f s.1 t i).1, ((f s.1 t i).2, s.2))
  goalReached s v := ((e.goalReached s.1 v).1, ((e.goalReached s.1 v).2, s.2))
  goalCallback := some fun s t i =>
    match e.goalCallback with
    | some f => ((f s.1 t i).1, ((f s.1 t i).2, true))
    | none => ((none, t), (s.1, true))
  terminate s size :=
    if s.2 then (.ok true, s) else ((e.terminate s.1 size).1, ((e.terminate s.1 size).2, s.2))

/-- simple_rrt_planner.hpp:1191-1238 `RRTPlanSinglePath`. -/
def rrtPlanSinglePath (e : Env σ ε V S) (fuel : Nat) (tree : Tree V) (s : σ) :
    Option (Except (Thrown ε) (List V × Stats) × Tree V × σ) :=
  match rrtPlanMultiPath (singleEnv e) fuel tree (s, false) with
  | some (.ok r, t, s1) => some (.ok (r.paths.headD [], r.stats), t, s1.1)
  | some (.error x, t, s1) => some (.error x, t, s1.1)
  | none => none

end CRU.Rrt.Throw
