import Verif.Distances.Model
import Verif.Hier.Spec
/-
  Model of include/common_robotics_utilities/simple_hierarchical_clustering.hpp. Distances are values of any type with comparisons, `std::min`,
  `std::max`, 0 and infinity (`double` with or without NaN). Indices are natural numbers (`int64_t` never gets negative here).
-/
namespace CRU.Hier
open CRU.Parallel CRU.Distances

variable {D : Type} [LT D] [LE D] [DecidableLT D] [DecidableLE D] [Min D] [Max D] [Top D] [Zero D]

/-- simple_hierarchical_clustering.hpp:39-67 `Item` (valid ones). -/
structure Item where
  isCluster : Bool
  index : Nat
  deriving DecidableEq

/-- simple_hierarchical_clustering.hpp:70-115 `ClosestPair`; an invalid one is `none`. -/
structure Pair (D : Type) where
  first : Item
  second : Item
  dist : D

/-- simple_hierarchical_clustering.hpp:75, 78, 108: distance of a possibly invalid pair. -/
def distOf : Option (Pair D) → D
  | some p => p.dist
  | none => ⊤

/-- simple_hierarchical_clustering.hpp:80-103: the checking constructor. -/
def mkPair (f s : Item) (d : D) : Res (Option (Pair D)) :=
  if d < 0 then .throw .invalidArgument
  else if f = s then .throw .invalidArgument
  else .ok (some ⟨f, s, d⟩)

/-- simple_hierarchical_clustering.hpp:164-172, 239-244, 305-313, 338-346, 395-400, 424-429: replace the closest pair found so far if this one is closer. -/
def consider (f s : Item) (d : D) (cur : Option (Pair D)) : Res (Option (Pair D)) :=
  if d < distOf cur then mkPair f s d else .ok cur

/-- simple_hierarchical_clustering.hpp:152-159 (also 227-234, 327-334, 413-420): smallest and largest distance from `x` to the elements of a cluster. -/
def linkRow (m : Mat D) (x : Nat) : List Nat → D × D → Res (D × D)
  | [], acc => .ok acc
  | y :: ys, acc => do
    let d ← m.get x y
    linkRow m x ys (min acc.1 d, max acc.2 d)

/-- simple_hierarchical_clustering.hpp:150-160 (also 225-235): over all pairs. -/
def linkAll (m : Mat D) (ys : List Nat) : List Nat → D × D → Res (D × D)
  | [], acc => .ok acc
  | x :: xs, acc => do
    let acc' ← linkRow m x ys acc
    linkAll m ys xs acc'

/-- simple_hierarchical_clustering.hpp:148-163 (also 223-238, 325-337, 411-423 with a single first element): cluster distance. -/
def linkDist (s : Strategy) (m : Mat D) (xs ys : List Nat) : Res D := do
  let r ← linkAll m ys xs (⊤, 0)
  pure (if s = .completeLink then r.2 else r.1)

/-- simple_hierarchical_clustering.hpp:296-315 / 386-402: a value against the other values `us`. -/
def valueLoop (mask : List Bool) (m : Mat D) (v : Nat) : List Nat → Option (Pair D) → Res (Option (Pair D))
  | [], cur => .ok cur
  | u :: us, cur => do
    let masked ← atChecked mask u
    let cur' ← (if masked then pure cur else do
      let d ← m.get v u
      consider ⟨false, v⟩ ⟨false, u⟩ d cur)
    valueLoop mask m v us cur'

/-- simple_hierarchical_clustering.hpp:139-174, 213-246, 317-348, 404-431: an item (with elements `xs`) against the clusters listed with their numbers. -/
def clusterLoop (s : Strategy) (m : Mat D) (item : Item) (xs : List Nat) : List (List Nat × Nat) → Option (Pair D) →
    Res (Option (Pair D))
  | [], cur => .ok cur
  | c :: cs, cur => do
    let cur' ← (if c.1 ≠ [] then do
        let d ← linkDist s m xs c.1
        consider item ⟨true, c.2⟩ d cur
      else pure cur)
    clusterLoop s m item xs cs cur'

/-- simple_hierarchical_clustering.hpp:289-350 / 380-433: the search started from one value. -/
def valueBody (s : Strategy) (mask : List Bool) (m : Mat D) (clusters : List (List Nat)) (v : Nat) (cur : Option (Pair D)) :
    Res (Option (Pair D)) := do
  let masked ← atChecked mask v
  if masked then pure cur
  else do
    let cur' ← valueLoop mask m v (List.range' (v + 1) (mask.length - (v + 1))) cur
    clusterLoop s m ⟨false, v⟩ [v] clusters.zipIdx cur'

/-- simple_hierarchical_clustering.hpp:130-176 / 205-248: the search started from one cluster. -/
def clusterBody (s : Strategy) (m : Mat D) (clusters : List (List Nat)) (i : Nat) (cur : Option (Pair D)) :
    Res (Option (Pair D)) := do
  let first ← atChecked clusters i
  if first ≠ [] then clusterLoop s m ⟨true, i⟩ first (clusters.zipIdx.drop (i + 1)) cur
  else pure cur

/-- simple_hierarchical_clustering.hpp:199-250, 373-435: serial search. -/
def serialSearch (body : Nat → Option (Pair D) → Res (Option (Pair D))) : List Nat → Option (Pair D) → Res (Option (Pair D))
  | [], cur => .ok cur
  | i :: is, cur => do
    let cur' ← body i cur
    serialSearch body is cur'

/-- simple_hierarchical_clustering.hpp:127-180, 285-354: the bodies of the parallel search in the given order. A slot is only touched by the thread with that number,
so a body is one step. -/
def parSearch (body : Nat → Option (Pair D) → Res (Option (Pair D))) : List Call → List (Option (Pair D)) →
    Res (List (Option (Pair D)))
  | [], st => .ok st
  | c :: cs, st => do
    let old ← atInt st c.thread
    let new ← body c.index.toNat old
    parSearch body cs (st.set c.thread.toNat new)

/-- simple_hierarchical_clustering.hpp:182-191, 356-363: best of the per-thread results. -/
def reduce (st : List (Option (Pair D))) : Option (Pair D) :=
  st.foldl (fun cur p => if distOf p < distOf cur then p else cur) none

/-- simple_hierarchical_clustering.hpp:256-271, 443-460: `r` is the outcome of one run of a search over `n` items. -/
def SearchRun (b : Backend) (threads : Int) (n : Nat) (body : Nat → Option (Pair D) → Res (Option (Pair D)))
    (r : Res (Option (Pair D))) : Prop :=
  if threads > 1 then
    ∃ ws tr, staticIndexLoop b threads 0 n = .ok ws ∧ Interleaving ws tr ∧
      r = (parSearch body tr (List.replicate threads.toNat none) >>= fun st => pure (reduce st))
  else r = serialSearch body (List.range n) none

/-- simple_hierarchical_clustering.hpp:479-501 -/
def choose (v c : Option (Pair D)) : Option (Pair D) :=
  match v, c with
  | some a, some b => if a.dist < b.dist then some a else some b
  | some a, none => some a
  | none, some b => some b
  | none, none => none

/-- simple_hierarchical_clustering.hpp:544-547: the local state of the clustering loop. -/
structure St (D : Type) where
  mask : List Bool
  clusters : List (List Nat)
  closest : D

/-- The arguments of a clustering call. (simple_hierarchical_clustering.hpp:531-534) -/
structure Args (D : Type) where
  b : Backend
  threads : Int
  s : Strategy
  m : Mat D
  bound : D

/-- simple_hierarchical_clustering.hpp:468-502 `GetClosestPair`. -/
def PairRun (P : Args D) (st : St D) (r : Res (Option (Pair D))) : Prop :=
  ∃ rv rc, SearchRun P.b P.threads st.mask.length (valueBody P.s st.mask P.m st.clusters) rv ∧
    SearchRun P.b P.threads st.clusters.length (clusterBody P.s P.m st.clusters) rc ∧
    r = (do
      let v ← rv
      let c ← rc
      pure (choose v c))

/-- `v.at(i) = x` -/
def setChecked {X : Type} (l : List X) (i : Nat) (x : X) : Res (List X) :=
  if i < l.length then .ok (l.set i x) else .throw .outOfRange

/-- simple_hierarchical_clustering.hpp:558-600: merge a pair. -/
def mergePair (st : St D) (p : Pair D) : Res (St D) :=
  if !p.first.isCluster && !p.second.isCluster then do
    let mask ← setChecked st.mask p.first.index true
    let mask' ← setChecked mask p.second.index true
    pure ⟨mask', st.clusters ++ [[p.first.index, p.second.index]], p.dist⟩
  else if p.first.isCluster && p.second.isCluster then do
    let a ← atChecked st.clusters p.first.index
    let b ← atChecked st.clusters p.second.index
    pure ⟨st.mask, (st.clusters.set p.first.index (a ++ b)).set p.second.index [], p.dist⟩
  else do
    let ci := if p.first.isCluster then p.first.index else p.second.index
    let vi := if p.first.isCluster then p.second.index else p.first.index
    let c ← atChecked st.clusters ci
    let mask ← setChecked st.mask vi true
    pure ⟨mask, st.clusters.set ci (c ++ [vi]), p.dist⟩

/-- simple_hierarchical_clustering.hpp:549-606: the loop started in `st` ends with outcome `r`. -/
inductive LoopRun (P : Args D) : St D → Res (St D) → Prop
  | none {st : St D} (hp : PairRun P st (.ok none)) : LoopRun P st (.ok st)
  | far {st : St D} {p : Pair D} (hp : PairRun P st (.ok (some p))) (h : ¬ p.dist ≤ P.bound) : LoopRun P st (.ok st)
  | step {st st' : St D} {p : Pair D} {r : Res (St D)} (hp : PairRun P st (.ok (some p))) (h : p.dist ≤ P.bound)
      (hm : mergePair st p = .ok st') (hr : LoopRun P st' r) : LoopRun P st r
  | mergeThrow {st : St D} {p : Pair D} {e : Exc} (hp : PairRun P st (.ok (some p))) (h : p.dist ≤ P.bound)
      (hm : mergePair st p = .throw e) : LoopRun P st (.throw e)
  | mergeUb {st : St D} {p : Pair D} (hp : PairRun P st (.ok (some p))) (h : p.dist ≤ P.bound)
      (hm : mergePair st p = .ub) : LoopRun P st .ub
  | pairThrow {st : St D} {e : Exc} (hp : PairRun P st (.throw e)) : LoopRun P st (.throw e)
  | pairUb {st : St D} (hp : PairRun P st .ub) : LoopRun P st .ub

/-- The values that are not masked. (simple_hierarchical_clustering.hpp:617-625) -/
def unmasked (mask : List Bool) : List Nat := (List.range mask.length).filter fun i => mask[i]? = some false

/-- simple_hierarchical_clustering.hpp:608-627: non-empty clusters, then the remaining values on their own. -/
def finish (st : St D) : List (List Nat) := st.clusters.filter (fun c => c ≠ []) ++ (unmasked st.mask).map fun v => [v]

/-- simple_hierarchical_clustering.hpp:544-548 -/
def initSt (n : Nat) : St D := ⟨List.replicate n false, [], 0⟩

/-- simple_hierarchical_clustering.hpp:531-629 `IndexClusterWithDistanceMatrix`: clusters and `FinalClosestDistance`. -/
def IndexClusterRun (P : Args D) (r : Res (List (List Nat) × D)) : Prop :=
  if P.m.rows ≠ P.m.cols then r = .throw .invalidArgument
  else if P.m.rows = 0 then r = .throw .invalidArgument
  else ∃ rl, LoopRun P (initSt P.m.rows) rl ∧ r = (do
    let st ← rl
    pure (finish st, st.closest))

/-- simple_hierarchical_clustering.hpp:631-653 `MakeElementClusteringFromIndexClustering`, one cluster. -/
def elements {A : Type} (data : List A) : List Nat → Res (List A)
  | [] => .ok []
  | i :: is => do
    let x ← atChecked data i
    let rest ← elements data is
    pure (x :: rest)

/-- simple_hierarchical_clustering.hpp:631-653 -/
def elementClusters {A : Type} (data : List A) : List (List Nat) → Res (List (List A))
  | [] => .ok []
  | c :: cs => do
    let x ← elements data c
    let rest ← elementClusters data cs
    pure (x :: rest)

/-- simple_hierarchical_clustering.hpp:660-682 `ClusterWithDistanceMatrix`. -/
def ClusterMatrixRun {A : Type} (data : List A) (P : Args D) (r : Res (List (List A) × D)) : Prop :=
  if data = [] then r = .throw .invalidArgument
  else if P.m.rows ≠ data.length ∨ P.m.cols ≠ data.length then r = .throw .invalidArgument
  else ∃ ri, IndexClusterRun P ri ∧ r = (do
    let x ← ri
    let cs ← elementClusters data x.1
    pure (cs, x.2))

/-- simple_hierarchical_clustering.hpp:689-701 `IndexCluster`. -/
def IndexClusterFnRun {A : Type} (b : Backend) (threads : Int) (s : Strategy) (bound : D) (data : List A) (d : A → A → D)
    (r : Res (List (List Nat) × D)) : Prop :=
  ∃ rm, SelfMatrix b threads data d rm ∧
    match rm with
    | .ok m => IndexClusterRun ⟨b, threads, s, m, bound⟩ r
    | .throw e => r = .throw e
    | .ub => r = .ub

/-- simple_hierarchical_clustering.hpp:708-720 `Cluster`: the matrix is built by `BuildPairwiseDistanceMatrix`. -/
def ClusterRun {A : Type} (b : Backend) (threads : Int) (s : Strategy) (bound : D) (data : List A) (d : A → A → D)
    (r : Res (List (List A) × D)) : Prop :=
  ∃ rm, SelfMatrix b threads data d rm ∧
    match rm with
    | .ok m => ClusterMatrixRun data ⟨b, threads, s, m, bound⟩ r
    | .throw e => r = .throw e
    | .ub => r = .ub

end CRU.Hier
