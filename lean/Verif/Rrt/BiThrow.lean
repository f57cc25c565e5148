import Verif.Rrt.Throw
/-
  The bidirectional planner of include/common_robotics_utilities/simple_rrt_planner.hpp with user-supplied functions that may
  throw, in the style of `Rrt.Throw`.
-/
namespace CRU.Rrt.Throw

variable {V σ ε : Type}

/-- simple_rrt_planner.hpp:875-893, the functions given to `BiRRTPlanMultiPath`, each of which may throw. -/
structure BiEnv (σ ε V : Type) where
  selectSample : σ → Tree V → Tree V → Side → Except ε Bool × σ
  stateSample : σ → Except ε V × σ
  treeSample : σ → Tree V → Side → Except ε Int × σ
  nearest : σ → Tree V → V → Side → Except ε Int × σ
  propagate : σ → V → V → Side → Except ε (Propagation V) × σ
  stateAdded : Option (σ → Tree V → Int → Side → (Option ε × Tree V) × σ)
  connected : σ → V → V → Side → Except ε Bool × σ
  bridgeCallback : Option (σ → Tree V → Int → Tree V → Int → Side → (Option ε × Tree V × Tree V) × σ)
  selectActive : σ → Tree V → Tree V → Side → Except ε Side × σ
  terminate : σ → Int → Int → Except ε Bool × σ

/-- Variables of `BiRRTPlanMultiPath`. (simple_rrt_planner.hpp:876-877, 905-946) -/
structure BiVars (V : Type) where
  start : Tree V
  goal : Tree V
  bridges : List (Int × Int) := []
  active : Side := .start
  stats : BiStats := {}

/-- simple_rrt_planner.hpp:977-982 `active_tree` / `target_tree`. -/
def BiVars.tree (w : BiVars V) : Side → Tree V
  | .start => w.start
  | .goal => w.goal

/-- Assignment through the reference `active_tree`. (simple_rrt_planner.hpp:977-979) -/
def BiVars.setTree (w : BiVars V) (side : Side) (t : Tree V) : BiVars V :=
  match side with
  | .start => { w with start := t }
  | .goal => { w with goal := t }

/-- A call of the bridge callback with both trees. (simple_rrt_planner.hpp:960-965, 1092-1097) -/
def callBridge (f : σ → Tree V → Int → Tree V → Int → Side → (Option ε × Tree V × Tree V) × σ) (br : Int × Int) :
    Code (BiVars V) σ ε Unit := do
  let w ← look
  callRef (fun w => (w.start, w.goal)) (fun w t => { w with start := t.1, goal := t.2 })
    (fun s t => f s t.1 br.1 t.2 br.2 w.active)

/-- simple_rrt_planner.hpp:960-965: call of the bridge callback without testing that it is set. -/
def untestedBridge (cb : Option (σ → Tree V → Int → Tree V → Int → Side → (Option ε × Tree V × Tree V) × σ))
    (br : Int × Int) : Code (BiVars V) σ ε Unit :=
  match cb with
  | some f => callBridge f br
  | none => lib (.throw .badFunctionCall)

/-- simple_rrt_planner.hpp:1089-1098: call of the bridge callback, if it is set. -/
def optionalBridge (cb : Option (σ → Tree V → Int → Tree V → Int → Side → (Option ε × Tree V × Tree V) × σ))
    (br : Int × Int) : Code (BiVars V) σ ε Unit :=
  match cb with
  | some f => callBridge f br
  | none => pure ()

/-- simple_rrt_planner.hpp:948-969, the check of the given trees, as one loop over `(i, j)`. The callback is called without
testing that it is set. -/
def initialBridges (e : BiEnv σ ε V) : Nat → Int → Int → Code (BiVars V) σ ε Unit
  | 0, _, _ => more
  | fuel + 1, i, j => do
    let w ← look
    if i < (w.start.length : Int) then
      if j < (w.goal.length : Int) then do
        let a ← lib (getNode w.start i)
        let b ← lib (getNode w.goal j)
        let c ← call (fun s => e.connected s a.value b.value w.active)
        if c then do
          let br ← lib (goalBridge i j)
          update (fun w => { w with bridges := w.bridges ++ [br] })
          untestedBridge e.bridgeCallback (i, j)
          initialBridges e fuel i (j + 1)
        else initialBridges e fuel i (j + 1)
      else initialBridges e fuel (i + 1) 0
    else pure ()

/-- simple_rrt_planner.hpp:1029-1061, the insertion of one propagated state into the active tree. -/
def insertBi (nearest : Int) (mapping : List Int) (v : V) (rel : Int) : Code (BiVars V) σ ε Int := do
  let w ← look
  update (fun w => w.setTree w.active (addPropagated (w.tree w.active) nearest mapping v rel).1)
  lib (addPropagated (w.tree w.active) nearest mapping v rel).2

/-- simple_rrt_planner.hpp:1063-1068, call of the optional state-added callback. -/
def addedBi (e : BiEnv σ ε V) (i : Int) : Code (BiVars V) σ ε Unit := do
  let w ← look
  match e.stateAdded with
  | some f => callRef (fun w => w.tree w.active) (fun w t => w.setTree w.active t) (fun s t => f s t i w.active)
  | none => pure ()

/-- simple_rrt_planner.hpp:1070-1101, the test for a bridge after one state has been added. -/
def tryBridge (e : BiEnv σ ε V) (treeSample : Bool) (targetIdx : Int) (target : V) (newIdx : Int) :
    Code (BiVars V) σ ε Unit :=
  if treeSample then do
    let w ← look
    let n ← lib (getNode (w.tree w.active) newIdx)
    let c ← call (fun s => e.connected s n.value target w.active)
    if c then do
      let br ← lib (if w.active = .start then goalBridge newIdx targetIdx else goalBridge targetIdx newIdx)
      update (fun w => { w with bridges := w.bridges ++ [br] })
      optionalBridge e.bridgeCallback br
    else pure ()
  else pure ()

/-- simple_rrt_planner.hpp:1029-1103, the loop over the propagated states. -/
def addAllBi (e : BiEnv σ ε V) (treeSample : Bool) (targetIdx : Int) (target : V) (nearest : Int) :
    Propagation V → List Int → Code (BiVars V) σ ε Unit
  | [], _ => pure ()
  | (v, rel) :: ps, mapping => do
    let newIdx ← insertBi nearest mapping v rel
    addedBi e newIdx
    tryBridge e treeSample targetIdx target newIdx
    addAllBi e treeSample targetIdx target nearest ps (mapping ++ [newIdx])

/-- simple_rrt_planner.hpp:996-1008, the target: index in the target tree (or −1) and state. -/
def chooseTarget (e : BiEnv σ ε V) (treeSample : Bool) : Code (BiVars V) σ ε (Int × V) :=
  if treeSample then do
    let w ← look
    let k ← call (fun s => e.treeSample s (w.tree w.active.other) w.active)
    let n ← lib (getNode (w.tree w.active.other) k)
    pure (k, n.value)
  else do
    let v ← call e.stateSample
    pure (-1, v)

/-- simple_rrt_planner.hpp:1107-1115, selection of the next active tree. -/
def selectActiveBi (e : BiEnv σ ε V) : Code (BiVars V) σ ε Unit := do
  let w ← look
  let side ← call (fun s => e.selectActive s w.start w.goal w.active)
  update (fun w => { w with
    stats := { w.stats with swaps := w.stats.swaps + (if side ≠ w.active then 1 else 0) }
    active := side })

/-- simple_rrt_planner.hpp:1014-1105: the propagated states are added, or the failure is counted. -/
def grow (e : BiEnv σ ε V) (treeSample : Bool) (target : Int × V) (nearest : Int) :
    Propagation V → Code (BiVars V) σ ε Unit
  | [] => update (fun w => { w with stats := { w.stats with failed := w.stats.failed + 1 } })
  | p :: rest => do
    update (fun w => { w with stats := { w.stats with successful := w.stats.successful + 1 } })
    addAllBi e treeSample target.1 target.2 nearest (p :: rest) []

/-- simple_rrt_planner.hpp:976-1115, body of the planning loop. -/
def biStep (e : BiEnv σ ε V) : Code (BiVars V) σ ε Unit := do
  update (fun w => { w with stats := countActive w.active w.stats })
  let w ← look
  let ty ← call (fun s => e.selectSample s w.start w.goal w.active)
  let target ← chooseTarget e ty
  update (fun w => { w with stats := { w.stats with total := w.stats.total + 1 } })
  let nn ← call (fun s => e.nearest s (w.tree w.active) target.2 w.active)
  let q ← lib (getNode (w.tree w.active) nn)
  let ps ← call (fun s => e.propagate s q.value target.2 w.active)
  grow e ty target nn ps
  selectActiveBi e

/-- simple_rrt_planner.hpp:974-1115, the planning loop. -/
def biLoop (e : BiEnv σ ε V) : Nat → Code (BiVars V) σ ε Unit
  | 0 => more
  | fuel + 1 => do
    let w ← look
    let stop ← call (fun s => e.terminate s (w.start.length : Int) (w.goal.length : Int))
    if stop then pure () else do
      biStep e
      biLoop e fuel

/-- simple_rrt_planner.hpp:1117-1145: the extraction of the solutions, which calls no user-supplied function. -/
def extractBi (fuel : Nat) : Code (BiVars V) σ ε (BiResult V) := do
  let w ← look
  match bridgePaths fuel w.start w.goal w.bridges with
  | some r => do
    let ps ← lib r
    pure ⟨ps, w.stats, w.start.length + w.goal.length, ps.length⟩
  | none => more

/-- simple_rrt_planner.hpp:894-1146, body of `BiRRTPlanMultiPath`. -/
def biBody (e : BiEnv σ ε V) (fuel : Nat) : Code (BiVars V) σ ε (BiResult V) := do
  let w ← look
  if w.start.isEmpty then lib (.throw .invalidArgument)
  else if w.goal.isEmpty then lib (.throw .invalidArgument)
  else do
    initialBridges e fuel 0 0
    biLoop e fuel
    extractBi fuel

/-- simple_rrt_planner.hpp:875-1146 `BiRRTPlanMultiPath`: result or exception, the caller's trees and the environment. -/
def biRRTPlanMultiPath (e : BiEnv σ ε V) (fuel : Nat) (start goal : Tree V) (s : σ) :
    Option (Except (Thrown ε) (BiResult V) × (Tree V × Tree V) × σ) :=
  (biBody e fuel { start := start, goal := goal } s).map fun r => (r.1, (r.2.1.start, r.2.1.goal), r.2.2)

/-- simple_rrt_planner.hpp:1318-1339, the wrapped functions of `BiRRTPlanSinglePath`: the environment also carries
`solution_found`, which is set before the caller's callback runs. -/
def singleBiEnv (e : BiEnv σ ε V) : BiEnv (σ × Bool) ε V where
  selectSample s a b x := ((e.selectSample s.1 a b x).1, ((e.selectSample s.1 a b x).2, s.2))
  stateSample s := ((e.stateSample s.1).1, ((e.stateSample s.1).2, s.2))
  treeSample s t x := ((e.treeSample s.1 t x).1, ((e.treeSample s.1 t x).2, s.2))
  nearest s t v x := ((e.nearest s.1 t v x).1, ((e.nearest s.1 t v x).2, s.2))
  propagate s q v x := ((e.propagate s.1 q v x).1, ((e.propagate s.1 q v x).2, s.2))
  stateAdded := e.stateAdded.map fun f s t i x => ((f s.1 t i x).1, ((f s.1 t i x).2, s.2))
  connected s a b x := ((e.connected s.1 a b x).1, ((e.connected s.1 a b x).2, s.2))
  bridgeCallback := some fun s a i b j x =>
    match e.bridgeCallback with
    | some f => ((f s.1 a i b j x).1, ((f s.1 a i b j x).2, true))
    | none => ((none, a, b), (s.1, true))
  selectActive s a b x := ((e.selectActive s.1 a b x).1, ((e.selectActive s.1 a b x).2, s.2))
  terminate s m n := if s.2 then (.ok true, s) else ((e.terminate s.1 m n).1, ((e.terminate s.1 m n).2, s.2))

/-- simple_rrt_planner.hpp:1299-1357 `BiRRTPlanSinglePath`. -/
def biRRTPlanSinglePath (e : BiEnv σ ε V) (fuel : Nat) (start goal : Tree V) (s : σ) :
    Option (Except (Thrown ε) (List V × BiStats) × (Tree V × Tree V) × σ) :=
  match biRRTPlanMultiPath (singleBiEnv e) fuel start goal (s, false) with
  | some (.ok r, t, s1) => some (.ok (r.paths.headD [], r.stats), t, s1.1)
  | some (.error x, t, s1) => some (.error x, t, s1.1)
  | none => none

end CRU.Rrt.Throw
