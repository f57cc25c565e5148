import Verif.Rrt.Model
/-
  Model of the bidirectional planner, include/common_robotics_utilities/simple_rrt_planner.hpp. The two trees are
  different objects. User-supplied functions are stateful as in `Rrt.Model`.
-/
namespace CRU.Rrt

variable {V σ : Type}

/-- simple_rrt_planner.hpp:505-506 `BiRRTActiveTreeType`. -/
inductive Side where
  | start | goal
  deriving DecidableEq, Repr

/-- simple_rrt_planner.hpp:875-893, the functions given to `BiRRTPlanMultiPath`. `selectSample` answers true for
`TREE_SAMPLE`. `none`: a default-constructed `std::function`. -/
structure BiEnv (σ V : Type) where
  selectSample : σ → Tree V → Tree V → Side → Bool × σ
  stateSample : σ → V × σ
  treeSample : σ → Tree V → Side → Int × σ
  nearest : σ → Tree V → V → Side → Int × σ
  propagate : σ → V → V → Side → Propagation V × σ
  stateAdded : Option (σ → Tree V → Int → Side → Tree V × σ)
  connected : σ → V → V → Side → Bool × σ
  bridgeCallback : Option (σ → Tree V → Int → Tree V → Int → Side → (Tree V × Tree V) × σ)
  selectActive : σ → Tree V → Tree V → Side → Side × σ
  terminate : σ → Int → Int → Bool × σ

/-- Counters in `statistics`. (simple_rrt_planner.hpp:939-946) -/
structure BiStats where
  startActive : Nat := 0
  goalActive : Nat := 0
  total : Nat := 0
  successful : Nat := 0
  failed : Nat := 0
  swaps : Nat := 0
  deriving DecidableEq, Repr

/-- Local state of `BiRRTPlanMultiPath`; a bridge is a pair of start-tree and goal-tree indices. (simple_rrt_planner.hpp:905-946) -/
structure BiSt (σ V : Type) where
  start : Tree V
  goal : Tree V
  bridges : List (Int × Int) := []
  active : Side := .start
  stats : BiStats := {}
  env : σ

/-- simple_rrt_planner.hpp:977-982 `active_tree` / `target_tree`. -/
def BiSt.tree (s : BiSt σ V) : Side → Tree V
  | .start => s.start
  | .goal => s.goal

/-- simple_rrt_planner.hpp:980-982: the side that is not active. -/
def Side.other : Side → Side
  | .start => .goal
  | .goal => .start

/-- Assignment through the reference `active_tree`. (simple_rrt_planner.hpp:977-979) -/
def BiSt.setTree (s : BiSt σ V) (side : Side) (t : Tree V) : BiSt σ V :=
  match side with
  | .start => { s with start := t }
  | .goal => { s with goal := t }

/-- simple_rrt_planner.hpp:913-924 `GoalBridge(int64_t, int64_t)`. -/
def goalBridge (a b : Int) : Res (Int × Int) :=
  if a < 0 then .throw .invalidArgument
  else if b < 0 then .throw .invalidArgument
  else .ok (a, b)

/-- simple_rrt_planner.hpp:948-969, the check of the given trees, as one loop over `(i, j)`. The callback is called without
testing that it is set. -/
def initialBridges (e : BiEnv σ V) : Nat → Int → Int → BiSt σ V → Option (Out (BiSt σ V))
  | 0, _, _, _ => none
  | fuel + 1, i, j, s =>
    if i < (s.start.length : Int) then
      if j < (s.goal.length : Int) then
        match getNode s.start i, getNode s.goal j with
        | .ok a, .ok b =>
          match e.connected s.env a.value b.value s.active with
          | (true, s1) =>
            match goalBridge i j with
            | .ok br =>
              match e.bridgeCallback with
              | some cb =>
                let r := cb s1 s.start i s.goal j s.active
                initialBridges e fuel i (j + 1)
                  { s with start := r.1.1, goal := r.1.2, bridges := s.bridges ++ [br], env := r.2 }
              | none => some ({ s with bridges := s.bridges ++ [br], env := s1 }, some .badFunctionCall)
            | .throw x => some ({ s with env := s1 }, some x)
            | .ub => some ({ s with env := s1 }, some .invalidArgument)
          | (false, s1) => initialBridges e fuel i (j + 1) { s with env := s1 }
        | .throw x, _ => some (s, some x)
        | _, .throw x => some (s, some x)
        | _, _ => some (s, some .outOfRange)
      else initialBridges e fuel (i + 1) 0 s
    else some (s, none)

/-- simple_rrt_planner.hpp:1064-1068, call of the optional state-added callback. -/
def callBiStateAdded (e : BiEnv σ V) (s : σ) (t : Tree V) (i : Int) (side : Side) : Tree V × σ :=
  match e.stateAdded with
  | some f => f s t i side
  | none => (t, s)

/-- simple_rrt_planner.hpp:1089-1098, call of the optional bridge callback. -/
def callBridge (e : BiEnv σ V) (s : BiSt σ V) (br : Int × Int) : BiSt σ V :=
  match e.bridgeCallback with
  | some cb =>
    let r := cb s.env s.start br.1 s.goal br.2 s.active
    { s with start := r.1.1, goal := r.1.2, env := r.2 }
  | none => s

/-- simple_rrt_planner.hpp:1070-1101, the test for a bridge after one state has been added. -/
def tryBridge (e : BiEnv σ V) (treeSample : Bool) (targetIdx : Int) (target : V) (newIdx : Int) (s : BiSt σ V) :
    Out (BiSt σ V) :=
  if treeSample then
    match getNode (s.tree s.active) newIdx with
    | .ok n =>
      match e.connected s.env n.value target s.active with
      | (true, s1) =>
        match (if s.active = .start then goalBridge newIdx targetIdx else goalBridge targetIdx newIdx) with
        | .ok br => (callBridge e { s with bridges := s.bridges ++ [br], env := s1 } br, none)
        | .throw x => ({ s with env := s1 }, some x)
        | .ub => ({ s with env := s1 }, some .invalidArgument)
      | (false, s1) => ({ s with env := s1 }, none)
    | .throw x => (s, some x)
    | .ub => (s, some .outOfRange)
  else (s, none)

/-- simple_rrt_planner.hpp:1029-1103, the loop over the propagated states. -/
def addAllBi (e : BiEnv σ V) (treeSample : Bool) (targetIdx : Int) (target : V) (nearest : Int) :
    Propagation V → List Int → BiSt σ V → Out (BiSt σ V)
  | [], _, s => (s, none)
  | (v, rel) :: ps, mapping, s =>
    match addPropagated (s.tree s.active) nearest mapping v rel with
    | (t1, .ok newIdx) =>
      let a := callBiStateAdded e s.env t1 newIdx s.active
      match tryBridge e treeSample targetIdx target newIdx { s.setTree s.active a.1 with env := a.2 } with
      | (s2, none) => addAllBi e treeSample targetIdx target nearest ps (mapping ++ [newIdx]) s2
      | r => r
    | (t1, .throw x) => (s.setTree s.active t1, some x)
    | (t1, .ub) => (s.setTree s.active t1, some .outOfRange)

/-- simple_rrt_planner.hpp:996-1008, the target: index in the target tree (or −1) and state. -/
def chooseTarget (e : BiEnv σ V) (treeSample : Bool) (s : BiSt σ V) : Res (Int × V × σ) :=
  if treeSample then
    let k := e.treeSample s.env (s.tree s.active.other) s.active
    match getNode (s.tree s.active.other) k.1 with
    | .ok n => .ok (k.1, n.value, k.2)
    | .throw x => .throw x
    | .ub => .ub
  else
    let v := e.stateSample s.env
    .ok (-1, v.1, v.2)

/-- simple_rrt_planner.hpp:1107-1115, selection of the next active tree. -/
def selectActive (e : BiEnv σ V) (s : BiSt σ V) : BiSt σ V :=
  let r := e.selectActive s.env s.start s.goal s.active
  { s with
    stats := { s.stats with swaps := s.stats.swaps + (if r.1 ≠ s.active then 1 else 0) }
    active := r.1
    env := r.2 }

/-- simple_rrt_planner.hpp:984-991: the counter of the active tree. -/
def countActive (side : Side) (st : BiStats) : BiStats :=
  match side with
  | .start => { st with startActive := st.startActive + 1 }
  | .goal => { st with goalActive := st.goalActive + 1 }

/-- simple_rrt_planner.hpp:976-1115, body of the planning loop after the termination check. -/
def biStep (e : BiEnv σ V) (s : BiSt σ V) : Out (BiSt σ V) :=
  let s0 : BiSt σ V := { s with stats := countActive s.active s.stats }
  let ty := e.selectSample s0.env s0.start s0.goal s0.active
  match chooseTarget e ty.1 { s0 with env := ty.2 } with
  | .ok (targetIdx, target, env1) =>
    let nn := e.nearest env1 (s0.tree s0.active) target s0.active
    let s1 : BiSt σ V := { s0 with stats := { s0.stats with total := s0.stats.total + 1 }, env := nn.2 }
    match getNode (s1.tree s1.active) nn.1 with
    | .ok q =>
      let ps := e.propagate nn.2 q.value target s1.active
      match ps.1 with
      | [] =>
        (selectActive e { s1 with stats := { s1.stats with failed := s1.stats.failed + 1 }, env := ps.2 }, none)
      | p :: rest =>
        match addAllBi e ty.1 targetIdx target nn.1 (p :: rest) []
            { s1 with stats := { s1.stats with successful := s1.stats.successful + 1 }, env := ps.2 } with
        | (s2, none) => (selectActive e s2, none)
        | r => r
    | .throw x => (s1, some x)
    | .ub => (s1, some .outOfRange)
  | .throw x => ({ s0 with env := ty.2 }, some x)
  | .ub => ({ s0 with env := ty.2 }, some .outOfRange)

/-- simple_rrt_planner.hpp:974-1115, the planning loop. -/
def biLoop (e : BiEnv σ V) : Nat → BiSt σ V → Option (Out (BiSt σ V))
  | 0, _ => none
  | fuel + 1, s =>
    match e.terminate s.env (s.start.length : Int) (s.goal.length : Int) with
    | (true, s1) => some ({ s with env := s1 }, none)
    | (false, s1) =>
      match biStep e { s with env := s1 } with
      | (s2, none) => biLoop e fuel s2
      | r => some r

/-- simple_rrt_planner.hpp:1123-1134, body of the loop over the bridges. -/
def bridgePath (fuel : Nat) (start goal : Tree V) (br : Int × Int) : Option (Res (List V)) :=
  match extractSolutionPath fuel start br.1 with
  | some (.ok ps) =>
    match extractSolutionPath fuel goal br.2 with
    | some (.ok pg) => some (.ok (ps ++ pg.reverse))
    | r => r
  | r => r

/-- simple_rrt_planner.hpp:1120-1135, extraction of all solutions. -/
def bridgePaths (fuel : Nat) (start goal : Tree V) : List (Int × Int) → Option (Res (List (List V)))
  | [] => some (.ok [])
  | br :: brs =>
    match bridgePath fuel start goal br with
    | some (.ok p) =>
      match bridgePaths fuel start goal brs with
      | some (.ok ps) => some (.ok (p :: ps))
      | r => r
    | some (.throw x) => some (.throw x)
    | some .ub => some .ub
    | none => none

/-- Paths and statistics of the result. (simple_rrt_planner.hpp:447-474, 1140-1145) -/
structure BiResult (V : Type) where
  paths : List (List V)
  stats : BiStats
  totalStates : Nat
  solutions : Nat
  deriving DecidableEq, Repr

/-- simple_rrt_planner.hpp:937-972 and 974-1115: the state reached after the initial check and the planning loop. -/
def biRun (e : BiEnv σ V) (fuel : Nat) (start goal : Tree V) (s : σ) : Option (Out (BiSt σ V)) :=
  match initialBridges e fuel 0 0 { start := start, goal := goal, env := s } with
  | some (s1, none) => biLoop e fuel s1
  | r => r

/-- simple_rrt_planner.hpp:875-1146 `BiRRTPlanMultiPath`: final trees, environment state and outcome. -/
def biRRTPlanMultiPath (e : BiEnv σ V) (fuel : Nat) (start goal : Tree V) (s : σ) :
    Option ((Tree V × Tree V × σ) × Res (BiResult V)) :=
  if start.isEmpty then some ((start, goal, s), .throw .invalidArgument)
  else if goal.isEmpty then some ((start, goal, s), .throw .invalidArgument)
  else
    match biRun e fuel start goal s with
    | some (s2, none) =>
      match bridgePaths fuel s2.start s2.goal s2.bridges with
      | some (.ok ps) =>
        some ((s2.start, s2.goal, s2.env), .ok ⟨ps, s2.stats, s2.start.length + s2.goal.length, ps.length⟩)
      | some (.throw x) => some ((s2.start, s2.goal, s2.env), .throw x)
      | some .ub => some ((s2.start, s2.goal, s2.env), .ub)
      | none => none
    | some (s2, some x) => some ((s2.start, s2.goal, s2.env), .throw x)
    | none => none

/-- simple_rrt_planner.hpp:1318-1339, the wrapped functions of `BiRRTPlanSinglePath`: the environment also carries
`solution_found`. -/
def singleBiEnv (e : BiEnv σ V) : BiEnv (σ × Bool) V where
  selectSample s a b x := ((e.selectSample s.1 a b x).1, ((e.selectSample s.1 a b x).2, s.2))
  stateSample s := ((e.stateSample s.1).1, ((e.stateSample s.1).2, s.2))
  treeSample s t x := ((e.treeSample s.1 t x).1, ((e.treeSample s.1 t x).2, s.2))
  nearest s t v x := ((e.nearest s.1 t v x).1, ((e.nearest s.1 t v x).2, s.2))
  propagate s q v x := ((e.propagate s.1 q v x).1, ((e.propagate s.1 q v x).2, s.2))
  stateAdded := e.stateAdded.map fun f s t i x => ((f s.1 t i x).1, ((f s.1 t i x).2, s.2))
  connected s a b x := ((e.connected s.1 a b x).1, ((e.connected s.1 a b x).2, s.2))
  bridgeCallback := some fun s a i b j x =>
    match e.bridgeCallback with
    | some f => ((f s.1 a i b j x).1, ((f s.1 a i b j x).2, true))
    | none => ((a, b), (s.1, true))
  selectActive s a b x := ((e.selectActive s.1 a b x).1, ((e.selectActive s.1 a b x).2, s.2))
  terminate s m n := if s.2 then (true, s) else ((e.terminate s.1 m n).1, ((e.terminate s.1 m n).2, s.2))

/-- simple_rrt_planner.hpp:1299-1357 `BiRRTPlanSinglePath`. -/
def biRRTPlanSinglePath (e : BiEnv σ V) (fuel : Nat) (start goal : Tree V) (s : σ) :
    Option ((Tree V × Tree V × σ) × Res (List V × BiStats)) :=
  match biRRTPlanMultiPath (singleBiEnv e) fuel start goal (s, false) with
  | some ((a, b, s1), .ok r) =>
    some ((a, b, s1.1), match r.paths with
      | p :: _ => .ok (p, r.stats)
      | [] => .ok ([], r.stats))
  | some ((a, b, s1), .throw x) => some ((a, b, s1.1), .throw x)
  | some ((a, b, s1), .ub) => some ((a, b, s1.1), .ub)
  | none => none

end CRU.Rrt
