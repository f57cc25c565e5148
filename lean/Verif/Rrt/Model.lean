import Verif.Rrt.Spec
/-
  Model of include/common_robotics_utilities/simple_rrt_planner.hpp: planner trees, solution extraction and the
  single-direction planner. A mutating function returns the state it leaves behind together with its outcome, so that the
  state after an exception is visible. The user-supplied functions may be stateful: each takes the environment state `σ`
  and returns a new one. They are assumed to return normally. Vector growth is assumed not to run out of memory and the
  tree to have fewer than 2^63 nodes.
-/
namespace CRU.Rrt

variable {V S σ : Type}

/-- simple_rrt_planner.hpp:119-129 `AddChildIndex`: appended unless already listed. -/
def addChildIndex (n : Node V) (c : Int) : Node V :=
  if c ∈ n.children then n else { n with children := n.children ++ [c] }

/-- simple_rrt_planner.hpp:131-142 `RemoveChildIndex`: drops every occurrence. -/
def removeChildIndex (n : Node V) (c : Int) : Node V :=
  { n with children := n.children.filter (· ≠ c) }

/-- simple_rrt_planner.hpp:230-239 `GetNodeImmutable` / `GetNodeMutable`. -/
def getNode (t : Tree V) (i : Int) : Res (Node V) := atInt t i

/-- simple_rrt_planner.hpp:241-245 `AddNode`. -/
def addNode (t : Tree V) (v : V) : Tree V × Int := (t ++ [⟨v, -1, []⟩], ((t ++ [⟨v, -1, []⟩] : Tree V).length : Int) - 1)

/-- simple_rrt_planner.hpp:247-253 `AddNodeAndConnect`: the node is stored first, then its parent is looked up. -/
def addNodeAndConnect (t : Tree V) (v : V) (parent : Int) : Tree V × Res Int :=
  let t1 : Tree V := t ++ [⟨v, parent, []⟩]
  let newIdx : Int := (t1.length : Int) - 1
  match getNode t1 parent with
  | .ok _ => (t1.modify parent.toNat (fun n => addChildIndex n newIdx), .ok newIdx)
  | .throw e => (t1, .throw e)
  | .ub => (t1, .ub)

/-- A `for` loop with early `return false`. (no project code: C++ or bookkeeping) -/
def allRes {α : Type} (p : α → Res Bool) : List α → Res Bool
  | [] => .ok true
  | x :: xs => do
    let b ← p x
    if b then allRes p xs else pure false

/-- simple_rrt_planner.hpp:295-322, check of the link to the parent. -/
def checkParent (t : Tree V) (i : Int) (n : Node V) : Res Bool :=
  if n.parent > i then .ok false
  else if n.parent ≥ 0 ∧ n.parent < (t.length : Int) then
    if n.parent ≠ i then do
      let p ← getNode t n.parent
      pure (p.children.contains i)
    else .ok false
  else .ok true

/-- simple_rrt_planner.hpp:326-350, check of one child link. -/
def checkChild (t : Tree V) (i : Int) (c : Int) : Res Bool :=
  if c > 0 ∧ c < (t.length : Int) then
    if c > i then do
      let m ← getNode t c
      pure (decide (m.parent = i))
    else .ok false
  else .ok false

/-- simple_rrt_planner.hpp:288-352, loop body of `CheckNodeLinkage`. -/
def checkNode (t : Tree V) (i : Int) : Res Bool := do
  let n ← getNode t i
  let ok ← checkParent t i n
  if ok then allRes (checkChild t i) n.children else pure false

/-- simple_rrt_planner.hpp:283-354 `CheckNodeLinkage`. -/
def checkNodeLinkage (t : Tree V) : Res Bool := allRes (fun i : Nat => checkNode t (i : Int)) (List.range t.length)

/-- simple_rrt_planner.hpp:262-273 `SetNodes`. -/
def setNodes (t nodes : Tree V) : Tree V × Res Bool :=
  match checkNodeLinkage nodes with
  | .ok true => (nodes, .ok true)
  | .ok false => (t, .ok false)
  | .throw e => (t, .throw e)
  | .ub => (t, .ub)

/-- simple_rrt_planner.hpp:215-222 constructor from nodes. -/
def ofNodes (nodes : Tree V) : Res (Tree V) :=
  match setNodes [] nodes with
  | (t, .ok true) => .ok t
  | (_, .ok false) => .throw .invalidArgument
  | (_, .throw e) => .throw e
  | (_, .ub) => .ub

/-- simple_rrt_planner.hpp:592-598, the `while` loop of `ExtractSolutionPath`. `none`: still running when the fuel is used
up. -/
def extractLoop (t : Tree V) : Nat → Int → List V → Option (Res (List V))
  | 0, _, _ => none
  | fuel + 1, parent, acc =>
    if parent ≥ 0 then
      match getNode t parent with
      | .ok p => extractLoop t fuel p.parent (acc ++ [p.value])
      | .throw e => some (.throw e)
      | .ub => some .ub
    else some (.ok acc)

/-- simple_rrt_planner.hpp:585-602 `ExtractSolutionPath`. -/
def extractSolutionPath (fuel : Nat) (t : Tree V) (goal : Int) : Option (Res (List V)) :=
  match getNode t goal with
  | .ok g =>
    match extractLoop t fuel g.parent [g.value] with
    | some (.ok l) => some (.ok l.reverse)
    | r => r
  | .throw e => some (.throw e)
  | .ub => some .ub

/-- simple_rrt_planner.hpp:610-622 `ExtractSolutionPaths`. -/
def extractSolutionPaths (fuel : Nat) (t : Tree V) : List Int → Option (Res (List (List V)))
  | [] => some (.ok [])
  | g :: gs =>
    match extractSolutionPath fuel t g with
    | some (.ok p) =>
      match extractSolutionPaths fuel t gs with
      | some (.ok ps) => some (.ok (p :: ps))
      | r => r
    | some (.throw e) => some (.throw e)
    | some .ub => some .ub
    | none => none

/-- simple_rrt_planner.hpp:672-685, the functions given to `RRTPlanMultiPath`. `none`: a default-constructed
`std::function`. -/
structure Env (σ V S : Type) where
  sample : σ → S × σ
  nearest : σ → Tree V → S → Int × σ
  propagate : σ → V → S → Propagation V × σ
  stateAdded : Option (σ → Tree V → Int → Tree V × σ)
  goalReached : σ → V → Bool × σ
  goalCallback : Option (σ → Tree V → Int → Tree V × σ)
  terminate : σ → Int → Bool × σ

/-- Counters kept in `statistics` (doubles in the code, exact below 2^53). (simple_rrt_planner.hpp:695-697) -/
structure Stats where
  total : Nat := 0
  successful : Nat := 0
  failed : Nat := 0
  deriving DecidableEq, Repr

/-- Local state of `RRTPlanMultiPath`: the tree, `goal_state_indices`, `statistics`, and the environment. (simple_rrt_planner.hpp:688-697) -/
structure St (σ V : Type) where
  tree : Tree V
  goals : List Int := []
  stats : Stats := {}
  env : σ

/-- Outcome of a statement: the state reached and the exception thrown, if any. (no project code: C++ or bookkeeping) -/
abbrev Out (τ : Type) := τ × Option Exc

/-- simple_rrt_planner.hpp:702-711, the check of the given tree. The callback is called without testing that it is set. -/
def initialCheck (e : Env σ V S) : Nat → Int → St σ V → Option (Out (St σ V))
  | 0, _, _ => none
  | fuel + 1, idx, s =>
    if idx < (s.tree.length : Int) then
      match getNode s.tree idx with
      | .ok n =>
        match e.goalReached s.env n.value with
        | (true, s1) =>
          match e.goalCallback with
          | some cb =>
            initialCheck e fuel (idx + 1)
              { s with tree := (cb s1 s.tree idx).1, goals := s.goals ++ [idx], env := (cb s1 s.tree idx).2 }
          | none => some ({ s with goals := s.goals ++ [idx], env := s1 }, some .badFunctionCall)
        | (false, s1) => initialCheck e fuel (idx + 1) { s with env := s1 }
      | .throw x => some (s, some x)
      | .ub => some (s, some .outOfRange)
    else some (s, none)

/-- simple_rrt_planner.hpp:744-772 and 1030-1059: parent of one propagated state and its insertion. -/
def addPropagated (t : Tree V) (nearest : Int) (mapping : List Int) (v : V) (rel : Int) : Tree V × Res Int :=
  match (if rel ≥ 0 then atInt mapping rel else .ok nearest) with
  | .ok parent => addNodeAndConnect t v parent
  | .throw x => (t, .throw x)
  | .ub => (t, .ub)

/-- simple_rrt_planner.hpp:777-781, call of the optional state-added callback. -/
def callStateAdded (cb : Option (σ → Tree V → Int → Tree V × σ)) (s : σ) (t : Tree V) (i : Int) : Tree V × σ :=
  match cb with
  | some f => f s t i
  | none => (t, s)

/-- simple_rrt_planner.hpp:743-794, the loop over the propagated states. -/
def addAll (e : Env σ V S) (nearest : Int) : Propagation V → List Int → St σ V → Out (St σ V)
  | [], _, s => (s, none)
  | (v, rel) :: ps, mapping, s =>
    match addPropagated s.tree nearest mapping v rel with
    | (t1, .ok newIdx) =>
      let a := callStateAdded e.stateAdded s.env t1 newIdx
      match getNode a.1 newIdx with
      | .ok n =>
        match e.goalReached a.2 n.value with
        | (true, s2) =>
          let b := callStateAdded e.goalCallback s2 a.1 newIdx
          addAll e nearest ps (mapping ++ [newIdx]) { s with tree := b.1, goals := s.goals ++ [newIdx], env := b.2 }
        | (false, s2) => addAll e nearest ps (mapping ++ [newIdx]) { s with tree := a.1, env := s2 }
      | .throw x => ({ s with tree := a.1, env := a.2 }, some x)
      | .ub => ({ s with tree := a.1, env := a.2 }, some .outOfRange)
    | (t1, .throw x) => ({ s with tree := t1 }, some x)
    | (t1, .ub) => ({ s with tree := t1 }, some .outOfRange)

/-- simple_rrt_planner.hpp:720-802, body of the planning loop after the termination check. -/
def planStep (e : Env σ V S) (s : St σ V) : Out (St σ V) :=
  let target := e.sample s.env
  let nn := e.nearest target.2 s.tree target.1
  let s1 : St σ V := { s with stats := { s.stats with total := s.stats.total + 1 }, env := nn.2 }
  match getNode s.tree nn.1 with
  | .ok q =>
    let ps := e.propagate nn.2 q.value target.1
    match ps.1 with
    | [] => ({ s1 with stats := { s1.stats with failed := s1.stats.failed + 1 }, env := ps.2 }, none)
    | p :: rest =>
      addAll e nn.1 (p :: rest) [] { s1 with stats := { s1.stats with successful := s1.stats.successful + 1 }, env := ps.2 }
  | .throw x => (s1, some x)
  | .ub => (s1, some .outOfRange)

/-- simple_rrt_planner.hpp:718-803, the planning loop. -/
def planLoop (e : Env σ V S) : Nat → St σ V → Option (Out (St σ V))
  | 0, _ => none
  | fuel + 1, s =>
    match e.terminate s.env (s.tree.length : Int) with
    | (true, s1) => some ({ s with env := s1 }, none)
    | (false, s1) =>
      match planStep e { s with env := s1 } with
      | (s2, none) => planLoop e fuel s2
      | r => some r

/-- Paths and statistics of `MultipleSolutionPlanningResults` (planning time left out). (simple_rrt_planner.hpp:447-474, 810-814) -/
structure Result (V : Type) where
  paths : List (List V)
  stats : Stats
  totalStates : Nat
  solutions : Nat
  deriving DecidableEq, Repr

/-- simple_rrt_planner.hpp:688-716 and 718-803: the state reached after the initial check and the planning loop. -/
def rrtRun (e : Env σ V S) (fuel : Nat) (tree : Tree V) (s : σ) : Option (Out (St σ V)) :=
  match initialCheck e fuel 0 { tree := tree, env := s } with
  | some (s1, none) => planLoop e fuel s1
  | r => r

/-- simple_rrt_planner.hpp:672-815 `RRTPlanMultiPath`: final tree, environment state and outcome. -/
def rrtPlanMultiPath (e : Env σ V S) (fuel : Nat) (tree : Tree V) (s : σ) : Option ((Tree V × σ) × Res (Result V)) :=
  if tree.isEmpty then some ((tree, s), .throw .invalidArgument)
  else
    match rrtRun e fuel tree s with
    | some (s2, none) =>
      match extractSolutionPaths fuel s2.tree s2.goals with
      | some (.ok ps) => some ((s2.tree, s2.env), .ok ⟨ps, s2.stats, s2.tree.length, ps.length⟩)
      | some (.throw x) => some ((s2.tree, s2.env), .throw x)
      | some .ub => some ((s2.tree, s2.env), .ub)
      | none => none
    | some (s2, some x) => some ((s2.tree, s2.env), .throw x)
    | none => none

/-- simple_rrt_planner.hpp:1206-1221, the wrapped functions of `RRTPlanSinglePath`: the environment also carries
`solution_found`. -/
def singleEnv (e : Env σ V S) : Env (σ × Bool) V S where
  sample s := ((e.sample s.1).1, ((e.sample s.1).2, s.2))
  nearest s t x := ((e.nearest s.1 t x).1, ((e.nearest s.1 t x).2, s.2))
  propagate s q x := ((e.propagate s.1 q x).1, ((e.propagate s.1 q x).2, s.2))
  stateAdded := e.stateAdded.map fun f s t i => ((f s.1 t i).1, ((f s.1 t i).2, s.2))
  goalReached s v := ((e.goalReached s.1 v).1, ((e.goalReached s.1 v).2, s.2))
  goalCallback := some fun s t i =>
    match e.goalCallback with
    | some f => ((f s.1 t i).1, ((f s.1 t i).2, true))
    | none => (t, (s.1, true))
  terminate s size :=
    if s.2 then (true, s) else ((e.terminate s.1 size).1, ((e.terminate s.1 size).2, s.2))

/-- simple_rrt_planner.hpp:1191-1238 `RRTPlanSinglePath`: final tree, environment state and the path with statistics. -/
def rrtPlanSinglePath (e : Env σ V S) (fuel : Nat) (tree : Tree V) (s : σ) :
    Option ((Tree V × σ) × Res (List V × Stats)) :=
  match rrtPlanMultiPath (singleEnv e) fuel tree (s, false) with
  | some ((t, s1), .ok r) =>
    some ((t, s1.1), match r.paths with
      | p :: _ => .ok (p, r.stats)
      | [] => .ok ([], r.stats))
  | some ((t, s1), .throw x) => some ((t, s1.1), .throw x)
  | some ((t, s1), .ub) => some ((t, s1.1), .ub)
  | none => none

end CRU.Rrt
