import Verif.Prm.QueryThrow
import Verif.Prm.Build
import Verif.Parallel.AtomicLoop
/-
  C119: `BuildRoadMap` with functions that may throw. Model of include/common_robotics_utilities/simple_prm_planner.hpp:462-677 as in
  Prm/BuildModel.lean. `.ok (.error x)` means that the call throws the caller's exception `x`.
-/
namespace CRU.Prm.Throw
open CRU.Graph CRU.Knn CRU.Parallel CRU.GraphSearch CRU.Distances.Throw
set_option linter.unusedSectionVars false

variable {V C ε : Type} [LinearOrder C] [Zero C] [OrderTop C]

/-! ### Model -/

/-- What the sampling phase needs besides `Env`: the sampler may return, or throw, anything in `sampled`. (simple_prm_planner.hpp:462-475) -/
structure BuildEnv (V C ε : Type) where
  sampled : Except ε V → Prop
  stateValid : V → Except ε Bool
  maxTries : Int
  parallelSampling : Bool
  ps : Nat → List (Entry C) → List (Entry C)

/-- simple_prm_planner.hpp:493-505 `roadmap_states_distance_fn`. -/
def stateDist (dist : V → V → Except ε C) (sample : V) : Option V → Except ε C
  | some s => dist s sample
  | none => .ok ⊤

/-- simple_prm_planner.hpp:510-535 `valid_sample_fn`, with `k` tries left: possible results. -/
inductive TryRun (e : Env V C ε) (be : BuildEnv V C ε) (states : List (Option V)) : Nat → Res (Except ε (Option V)) → Prop
  | gaveUp : TryRun e be states 0 (.ok (.ok none))
  | sampleRaises {k : Nat} {x : ε} (hx : be.sampled (.error x)) : TryRun e be states (k + 1) (.ok (.error x))
  | validRaises {k : Nat} {q : V} {x : ε} (hx : be.sampled (.ok q)) (hv : be.stateValid q = .error x) :
      TryRun e be states (k + 1) (.ok (.error x))
  | invalid {k : Nat} {q : V} {r : Res (Except ε (Option V))} (hx : be.sampled (.ok q)) (hv : be.stateValid q = .ok false)
      (rest : TryRun e be states k r) : TryRun e be states (k + 1) r
  | anyValid {k : Nat} {q : V} (hx : be.sampled (.ok q)) (hv : be.stateValid q = .ok true) (hd : e.addDuplicates = true) :
      TryRun e be states (k + 1) (.ok (.ok (some q)))
  | distRaises {k : Nat} {q : V} {x : ε} (hx : be.sampled (.ok q)) (hv : be.stateValid q = .ok true) (hd : e.addDuplicates = false)
      (hk : CRU.Knn.Throw.KnnRun be.ps e.backend e.threads states (stateDist e.dist q) 0 states.length 1 (.ok (.error x))) :
      TryRun e be states (k + 1) (.ok (.error x))
  | fresh {k : Nat} {q : V} {n : Entry C} {l : List (Entry C)} (hx : be.sampled (.ok q)) (hv : be.stateValid q = .ok true)
      (hd : e.addDuplicates = false)
      (hk : CRU.Knn.Throw.KnnRun be.ps e.backend e.threads states (stateDist e.dist q) 0 states.length 1 (.ok (.ok (n :: l)))) (hn : n.dist > 0) :
      TryRun e be states (k + 1) (.ok (.ok (some q)))
  | duplicate {k : Nat} {q : V} {n : Entry C} {l : List (Entry C)} {r : Res (Except ε (Option V))} (hx : be.sampled (.ok q))
      (hv : be.stateValid q = .ok true) (hd : e.addDuplicates = false)
      (hk : CRU.Knn.Throw.KnnRun be.ps e.backend e.threads states (stateDist e.dist q) 0 states.length 1 (.ok (.ok (n :: l)))) (hn : ¬ n.dist > 0)
      (rest : TryRun e be states k r) : TryRun e be states (k + 1) r
  | none {k : Nat} {q : V} (hx : be.sampled (.ok q)) (hv : be.stateValid q = .ok true) (hd : e.addDuplicates = false)
      (hk : CRU.Knn.Throw.KnnRun be.ps e.backend e.threads states (stateDist e.dist q) 0 states.length 1 (.ok (.ok []))) :
      TryRun e be states (k + 1) (.throw .outOfRange)
  | throws {k : Nat} {q : V} {ex : Exc} (hx : be.sampled (.ok q)) (hv : be.stateValid q = .ok true) (hd : e.addDuplicates = false)
      (hk : CRU.Knn.Throw.KnnRun be.ps e.backend e.threads states (stateDist e.dist q) 0 states.length 1 (.throw ex)) :
      TryRun e be states (k + 1) (.throw ex)
  | ub {k : Nat} {q : V} (hx : be.sampled (.ok q)) (hv : be.stateValid q = .ok true) (hd : e.addDuplicates = false)
      (hk : CRU.Knn.Throw.KnnRun be.ps e.backend e.threads states (stateDist e.dist q) 0 states.length 1 .ub) :
      TryRun e be states (k + 1) .ub

/-- simple_prm_planner.hpp:546-550 `sampling_item_work`; nothing is stored if an exception is thrown. -/
inductive SampleBody (e : Env V C ε) (be : BuildEnv V C ε) (c : Call) (states : List (Option V)) : Res (List (Option V) × Option ε) → Prop
  | stored {o : Option V} (ht : TryRun e be states be.maxTries.toNat (.ok (.ok o))) (hi : 0 ≤ c.index ∧ c.index.toNat < states.length) :
      SampleBody e be c states (.ok (states.set c.index.toNat o, none))
  | raises {x : ε} (ht : TryRun e be states be.maxTries.toNat (.ok (.error x))) : SampleBody e be c states (.ok (states, some x))
  | outOfRange {o : Option V} (ht : TryRun e be states be.maxTries.toNat (.ok (.ok o)))
      (hi : ¬ (0 ≤ c.index ∧ c.index.toNat < states.length)) : SampleBody e be c states (.throw .outOfRange)
  | throws {x : Exc} (ht : TryRun e be states be.maxTries.toNat (.throw x)) : SampleBody e be c states (.throw x)
  | ub (ht : TryRun e be states be.maxTries.toNat .ub) : SampleBody e be c states .ub

/-- simple_prm_planner.hpp:583-614, the body of the loop over the neighbours of node `i`: the roadmap that is left behind and the exception, if any. -/
def connectOne (e : Env V C ε) (i : Int) (state : V) (nb : Entry C) (g : Graph V C) : Res (Graph V C × Option ε) :=
  if nb.index ≠ i then do
    let other ← getNode g nb.index
    match e.valid other.value state with
    | .error x => pure (g, some x)
    | .ok otherToState =>
      let g1 := if otherToState then pushIn g i ⟨nb.index, i, nb.dist, 0⟩ else g
      if e.symmetric && otherToState then pure (pushOut g1 i ⟨i, nb.index, nb.dist, 0⟩, none)
      else
        match e.valid state other.value with
        | .error x => pure (g1, some x)
        | .ok false => pure (g1, none)
        | .ok true =>
          match e.dist state other.value with
          | .error x => pure (g1, some x)
          | .ok w => pure (pushOut g1 i ⟨i, nb.index, w, 0⟩, none)
  else .ok (g, none)

/-- simple_prm_planner.hpp:583: the neighbours one after the other, up to the first exception. -/
def connectList (e : Env V C ε) (i : Int) (state : V) : List (Entry C) → Graph V C → Res (Graph V C × Option ε)
  | [], g => .ok (g, none)
  | nb :: l, g => do
    let p ← connectOne e i state nb g
    match p.2 with
    | some x => pure (p.1, some x)
    | none => connectList e i state l p.1

/-- simple_prm_planner.hpp:572-615 `connection_item_work`. -/
def ConnectBody (e : Env V C ε) (c : Call) (g : Graph V C) (r : Res (Graph V C × Option ε)) : Prop :=
  match getNode g c.index, chk64 (e.K + 1) with
  | .ok n, .ok K1 => ∃ rk, KnnQuery e.knn g.length (getNode g) n.value K1 .roadmapToNew g.length rk ∧
      r = (do
        match ← rk with
        | .error x => pure (g, some x)
        | .ok l => connectList e c.index n.value l g)
  | .throw x, _ => r = .throw x
  | .ub, _ => r = .ub
  | .ok _, .throw x => r = .throw x
  | .ok _, .ub => r = .ub

/-- simple_prm_planner.hpp:537-544: how many threads sample. -/
def samplingThreads (e : Env V C ε) (be : BuildEnv V C ε) : Int := if be.parallelSampling && e.addDuplicates then e.threads else 1

/-- simple_prm_planner.hpp:462-677 `BuildRoadMap`: possible results. -/
inductive BuildRun (e : Env V C ε) (be : BuildEnv V C ε) (size : Int) : Res (Except ε (Graph V C)) → Prop
  | badArguments (h : size < 0 ∨ e.K < 1 ∨ be.maxTries < 1) : BuildRun e be size (.throw .runtimeError)
  | samplingEnds {ws : List (List Call)} {r : Res (Except ε (List (Option V)))} (h : 0 ≤ size ∧ 1 ≤ e.K ∧ 1 ≤ be.maxTries)
      (hw : staticIndexLoop e.backend (samplingThreads e be) 0 size = .ok ws)
      (hs : LoopRun e.backend.isOmp (SampleBody e be) ws [] (List.replicate size.toNat none) r) (hr : ∀ s, r ≠ .ok (.ok s)) :
      BuildRun e be size (passOn r)
  | samplingFails {ws : List (List Call)} {states : List (Option V)} (h : 0 ≤ size ∧ 1 ≤ e.K ∧ 1 ≤ be.maxTries)
      (hw : staticIndexLoop e.backend (samplingThreads e be) 0 size = .ok ws)
      (hs : LoopRun e.backend.isOmp (SampleBody e be) ws [] (List.replicate size.toNat none) (.ok (.ok states)))
      (hp : populate (C := C) states [] = .throw .runtimeError) : BuildRun e be size (.throw .runtimeError)
  | connectingEnds {ws ws2 : List (List Call)} {states : List (Option V)} {g : Graph V C} {r : Res (Except ε (Graph V C))}
      (h : 0 ≤ size ∧ 1 ≤ e.K ∧ 1 ≤ be.maxTries) (hw : staticIndexLoop e.backend (samplingThreads e be) 0 size = .ok ws)
      (hs : LoopRun e.backend.isOmp (SampleBody e be) ws [] (List.replicate size.toNat none) (.ok (.ok states)))
      (hp : populate states [] = .ok g) (hw2 : staticIndexLoop e.backend e.threads 0 g.length = .ok ws2)
      (hc : LoopRun e.backend.isOmp (ConnectBody e) ws2 [] g r) (hr : ∀ g', r ≠ .ok (.ok g')) : BuildRun e be size (passOn r)
  | connected {ws ws2 : List (List Call)} {states : List (Option V)} {g g1 : Graph V C}
      (h : 0 ≤ size ∧ 1 ≤ e.K ∧ 1 ≤ be.maxTries) (hw : staticIndexLoop e.backend (samplingThreads e be) 0 size = .ok ws)
      (hs : LoopRun e.backend.isOmp (SampleBody e be) ws [] (List.replicate size.toNat none) (.ok (.ok states)))
      (hp : populate states [] = .ok g) (hw2 : staticIndexLoop e.backend e.threads 0 g.length = .ok ws2)
      (hc : LoopRun e.backend.isOmp (ConnectBody e) ws2 [] g (.ok (.ok g1))) :
      BuildRun e be size (do
        let g2 ← forEach mirrorNode (irange 0 g1.length) g1
        pure (.ok g2))

/-! ### Specification -/

/-- A state that the sampler can return and the check accepts. -/
def Usable (be : BuildEnv V C ε) (q : V) : Prop := be.sampled (.ok q) ∧ be.stateValid q = .ok true

/-- Connecting a node with state `a` to a neighbour with state `b` throws `x`: the check of the edge from the neighbour does; or the check of the edge
to it, made unless connections are declared symmetric and the first check said yes; or, if that says yes, the distance to it. -/
def ConnectRaises (e : Env V C ε) (a b : V) (x : ε) : Prop :=
  e.valid b a = .error x ∨ ∃ c, e.valid b a = .ok c ∧ ¬ (e.symmetric = true ∧ c = true) ∧
    (e.valid a b = .error x ∨ e.valid a b = .ok true ∧ e.dist a b = .error x)

/-- What can make `BuildRoadMap` throw `x`, an exception of the functions it is given: the sampler; the check of a state that was sampled; the distance
between two usable states, if duplicates are to be found; or, for a node of a roadmap of usable states, the neighbour query or connecting it to one
of the neighbours found, other than itself. -/
def BuildRaises (e : Env V C ε) (be : BuildEnv V C ε) (size : Int) (x : ε) : Prop :=
  be.sampled (.error x) ∨ (∃ q, be.sampled (.ok q) ∧ be.stateValid q = .error x) ∨
  (e.addDuplicates = false ∧ ∃ a b, Usable be a ∧ Usable be b ∧ e.dist a b = .error x) ∨
  ∃ (g : Graph V C) (i : Nat) (n : Node V C), (g.length : Int) = size ∧ (∀ m ∈ g, Usable be m.value) ∧ g[i]? = some n ∧
    (e.knn g.length (getNode g) n.value (e.K + 1) .roadmapToNew g.length (.ok (.error x)) ∨
    ∃ l, e.knn g.length (getNode g) n.value (e.K + 1) .roadmapToNew g.length (.ok (.ok l)) ∧
      ∃ nb ∈ l, ∃ b, nb.index ≠ i ∧ HasValue g nb.index b ∧ ConnectRaises e n.value b x)

/-- The same arguments with a state check that always returns and a sampler that does not throw. -/
def BuildEnv.total (be : BuildEnv V C ε) (stateValid : V → Bool) : Prm.BuildEnv V C where
  sampled q := be.sampled (.ok q)
  stateValid := stateValid
  maxTries := be.maxTries
  parallelSampling := be.parallelSampling
  ps := be.ps

/-- `stateValid` has the values of the state check where that returns. -/
def BuildEnv.Extends (be : BuildEnv V C ε) (stateValid : V → Bool) : Prop := ∀ q c, be.stateValid q = .ok c → stateValid q = c

end CRU.Prm.Throw
