import Verif.Prm.Model
/-
  Model of `BuildRoadMap`, include/common_robotics_utilities/simple_prm_planner.hpp:462-677. The sampler may return any state
  of `sampled`, independently at every call; edge and state validity are functions. The bodies of a parallel loop run
  atomically in any order the loop allows: sampling is only parallel without the duplicate check, and then every body
  writes its own slot; the connection bodies write their own node and read only the states of others.
-/
namespace CRU.Prm
open CRU.Graph CRU.Knn CRU.Parallel CRU.GraphSearch

variable {V C : Type} [LinearOrder C] [Zero C] [OrderTop C]

/-- What the sampling phase needs besides `Env`. (simple_prm_planner.hpp:462-475) -/
structure BuildEnv (V C : Type) where
  sampled : V → Prop
  stateValid : V → Bool
  maxTries : Int
  parallelSampling : Bool
  ps : Nat → List (Entry C) → List (Entry C)

/-- simple_prm_planner.hpp:493-505 `roadmap_states_distance_fn`. -/
def stateDist (dist : V → V → C) (sample : V) : Option V → C
  | some s => dist s sample
  | none => ⊤

/-- simple_prm_planner.hpp:510-535 `valid_sample_fn`, with `k` tries left: possible results. -/
inductive TryRun (e : Env V C) (be : BuildEnv V C) (states : List (Option V)) : Nat → Res (Option V) → Prop
  | gaveUp : TryRun e be states 0 (.ok none)
  | invalid {k : Nat} {x : V} {r : Res (Option V)} (hx : be.sampled x) (hv : be.stateValid x = false)
      (rest : TryRun e be states k r) : TryRun e be states (k + 1) r
  | anyValid {k : Nat} {x : V} (hx : be.sampled x) (hv : be.stateValid x = true) (hd : e.addDuplicates = true) :
      TryRun e be states (k + 1) (.ok (some x))
  | fresh {k : Nat} {x : V} {n : Entry C} {l : List (Entry C)} (hx : be.sampled x) (hv : be.stateValid x = true)
      (hd : e.addDuplicates = false)
      (hk : KnnRun be.ps e.backend e.threads states (stateDist e.dist x) 0 states.length 1 (.ok (n :: l))) (hn : n.dist > 0) :
      TryRun e be states (k + 1) (.ok (some x))
  | duplicate {k : Nat} {x : V} {n : Entry C} {l : List (Entry C)} {r : Res (Option V)} (hx : be.sampled x)
      (hv : be.stateValid x = true) (hd : e.addDuplicates = false)
      (hk : KnnRun be.ps e.backend e.threads states (stateDist e.dist x) 0 states.length 1 (.ok (n :: l))) (hn : ¬ n.dist > 0)
      (rest : TryRun e be states k r) : TryRun e be states (k + 1) r
  | none {k : Nat} {x : V} (hx : be.sampled x) (hv : be.stateValid x = true) (hd : e.addDuplicates = false)
      (hk : KnnRun be.ps e.backend e.threads states (stateDist e.dist x) 0 states.length 1 (.ok [])) :
      TryRun e be states (k + 1) (.throw .outOfRange)
  | throws {k : Nat} {x : V} {ex : Exc} (hx : be.sampled x) (hv : be.stateValid x = true) (hd : e.addDuplicates = false)
      (hk : KnnRun be.ps e.backend e.threads states (stateDist e.dist x) 0 states.length 1 (.throw ex)) :
      TryRun e be states (k + 1) (.throw ex)
  | ub {k : Nat} {x : V} (hx : be.sampled x) (hv : be.stateValid x = true) (hd : e.addDuplicates = false)
      (hk : KnnRun be.ps e.backend e.threads states (stateDist e.dist x) 0 states.length 1 .ub) :
      TryRun e be states (k + 1) .ub

/-- simple_prm_planner.hpp:546-554 `sampling_item_work` for the indices in the order given. -/
inductive SampleRun (e : Env V C) (be : BuildEnv V C) : List Int → List (Option V) → Res (List (Option V)) → Prop
  | done {states : List (Option V)} : SampleRun e be [] states (.ok states)
  | next {i : Int} {order : List Int} {states : List (Option V)} {o : Option V} {r : Res (List (Option V))}
      (ht : TryRun e be states be.maxTries.toNat (.ok o)) (hi : 0 ≤ i ∧ i.toNat < states.length)
      (rest : SampleRun e be order (states.set i.toNat o) r) : SampleRun e be (i :: order) states r
  | outOfRange {i : Int} {order : List Int} {states : List (Option V)} {o : Option V}
      (ht : TryRun e be states be.maxTries.toNat (.ok o)) (hi : ¬ (0 ≤ i ∧ i.toNat < states.length)) :
      SampleRun e be (i :: order) states (.throw .outOfRange)
  | throws {i : Int} {order : List Int} {states : List (Option V)} {ex : Exc}
      (ht : TryRun e be states be.maxTries.toNat (.throw ex)) : SampleRun e be (i :: order) states (.throw ex)
  | ub {i : Int} {order : List Int} {states : List (Option V)}
      (ht : TryRun e be states be.maxTries.toNat .ub) : SampleRun e be (i :: order) states .ub

/-- simple_prm_planner.hpp:557-568: the roadmap without edges. -/
def populate : List (Option V) → Graph V C → Res (Graph V C)
  | [], g => .ok g
  | some s :: rest, g => populate rest (addNodeValue g s).1
  | none :: _, _ => .throw .runtimeError

/-- simple_prm_planner.hpp:583-614, the body of the loop over the neighbours of node `i`. -/
def connectOne (e : Env V C) (i : Int) (state : V) (nb : Entry C) (g : Graph V C) : Res (Graph V C) :=
  if nb.index ≠ i then do
    let other ← getNode g nb.index
    let otherToState := e.valid other.value state
    let g1 := if otherToState then pushIn g i ⟨nb.index, i, nb.dist, 0⟩ else g
    if e.symmetric && otherToState then pure (pushOut g1 i ⟨i, nb.index, nb.dist, 0⟩)
    else if e.valid state other.value then pure (pushOut g1 i ⟨i, nb.index, e.dist state other.value, 0⟩)
    else pure g1
  else .ok g

/-- simple_prm_planner.hpp:572-615 `connection_item_work`. -/
def ConnectRun (e : Env V C) (i : Int) (g : Graph V C) (r : Res (Graph V C)) : Prop :=
  match getNode g i, chk64 (e.K + 1) with
  | .ok n, .ok K1 => ∃ rk, KnnQuery e.knn g.length (getNode g) n.value K1 .roadmapToNew g.length rk ∧
      r = (do
        let l ← rk
        forEach (connectOne e i n.value) l g)
  | .throw x, _ => r = .throw x
  | .ub, _ => r = .ub
  | .ok _, .throw x => r = .throw x
  | .ok _, .ub => r = .ub

/-- simple_prm_planner.hpp:617-619: the connection bodies in the order given. -/
inductive ConnectAllRun (e : Env V C) : List Int → Graph V C → Res (Graph V C) → Prop
  | done {g : Graph V C} : ConnectAllRun e [] g (.ok g)
  | next {i : Int} {order : List Int} {g g' : Graph V C} {r : Res (Graph V C)} (h : ConnectRun e i g (.ok g'))
      (rest : ConnectAllRun e order g' r) : ConnectAllRun e (i :: order) g r
  | throws {i : Int} {order : List Int} {g : Graph V C} {x : Exc} (h : ConnectRun e i g (.throw x)) :
      ConnectAllRun e (i :: order) g (.throw x)
  | ub {i : Int} {order : List Int} {g : Graph V C} (h : ConnectRun e i g .ub) : ConnectAllRun e (i :: order) g .ub

/-- simple_prm_planner.hpp:653-662: make sure the start of an in-edge of node `i` lists it. -/
def mirrorIn (i : Int) (ed : Edge C) (g : Graph V C) : Res (Graph V C) := do
  let other ← getNode g ed.src
  if other.outs.any fun x => decide (x.dst = i) then pure g else pure (pushOut g ed.src ⟨ed.src, i, ed.weight, 0⟩)

/-- simple_prm_planner.hpp:664-673: make sure the end of an out-edge of node `i` lists it. -/
def mirrorOut (i : Int) (ed : Edge C) (g : Graph V C) : Res (Graph V C) := do
  let other ← getNode g ed.dst
  if other.ins.any fun x => decide (x.src = i) then pure g else pure (pushIn g ed.dst ⟨i, ed.dst, ed.weight, 0⟩)

/-- simple_prm_planner.hpp:649-674, the body of the pass over the nodes. The lists the code iterates over are those of node `i`; it
appends to lists of other nodes only, because there are no self-edges. -/
def mirrorNode (i : Int) (g : Graph V C) : Res (Graph V C) := do
  let n ← getNode g i
  let g1 ← forEach (mirrorIn i) n.ins g
  let n1 ← getNode g1 i
  forEach (mirrorOut i) n1.outs g1

/-- simple_prm_planner.hpp:462-677 `BuildRoadMap`: possible results. -/
inductive BuildRun (e : Env V C) (be : BuildEnv V C) (size : Int) : Res (Graph V C) → Prop
  | badArguments (h : size < 0 ∨ e.K < 1 ∨ be.maxTries < 1) : BuildRun e be size (.throw .runtimeError)
  | samplingThrows {order : List Int} {x : Exc} (h : 0 ≤ size ∧ 1 ≤ e.K ∧ 1 ≤ be.maxTries)
      (ho : IndexRun e.backend (if be.parallelSampling && e.addDuplicates then e.threads else 1) 0 size order)
      (hs : SampleRun e be order (List.replicate size.toNat none) (.throw x)) : BuildRun e be size (.throw x)
  | samplingUb {order : List Int} (h : 0 ≤ size ∧ 1 ≤ e.K ∧ 1 ≤ be.maxTries)
      (ho : IndexRun e.backend (if be.parallelSampling && e.addDuplicates then e.threads else 1) 0 size order)
      (hs : SampleRun e be order (List.replicate size.toNat none) .ub) : BuildRun e be size .ub
  | samplingFails {order : List Int} {states : List (Option V)} (h : 0 ≤ size ∧ 1 ≤ e.K ∧ 1 ≤ be.maxTries)
      (ho : IndexRun e.backend (if be.parallelSampling && e.addDuplicates then e.threads else 1) 0 size order)
      (hs : SampleRun e be order (List.replicate size.toNat none) (.ok states))
      (hp : populate (C := C) states [] = .throw .runtimeError) : BuildRun e be size (.throw .runtimeError)
  | connected {order order2 : List Int} {states : List (Option V)} {g : Graph V C} {r : Res (Graph V C)}
      (h : 0 ≤ size ∧ 1 ≤ e.K ∧ 1 ≤ be.maxTries)
      (ho : IndexRun e.backend (if be.parallelSampling && e.addDuplicates then e.threads else 1) 0 size order)
      (hs : SampleRun e be order (List.replicate size.toNat none) (.ok states)) (hp : populate states [] = .ok g)
      (ho2 : IndexRun e.backend e.threads 0 g.length order2) (hc : ConnectAllRun e order2 g r) :
      BuildRun e be size (do
        let g1 ← r
        forEach mirrorNode (irange 0 g1.length) g1)

end CRU.Prm
