import Verif.Knn.Model
import Verif.Parallel.Run
import Verif.Kmeans.Spec
/-
  Model of include/common_robotics_utilities/simple_kmeans_clustering.hpp. Distances are values of a linear order; the
  averaging function may throw; it and the distance function are deterministic. Logging and allocation failure are left out. The
  random draws may be anything, and so may the iteration order of `std::unordered_map`.
-/
namespace CRU.Kmeans
open CRU.Parallel CRU.Knn

variable {A W D : Type} [LinearOrder D] [Inhabited A]

/-- `static_cast<int32_t>` of a 64-bit integer. (no project code: C++ or bookkeeping) -/
def narrow32 (i : Int) : Int := (i + 2147483648) % 4294967296 - 2147483648

/-- simple_kmeans_clustering.hpp:39-45: the label of the datum at `i`. -/
def labelOf (ps : Nat → List (Entry D) → List (Entry D)) (dist : A → A → D) (data centers : List A) (i : Int) : Res Int := do
  let x ← atInt data i
  let nn ← knnSerial ps centers (fun c => dist c x) 0 centers.length 1
  let e ← atChecked nn 0
  pure (narrow32 e.index)

/-- simple_kmeans_clustering.hpp:29-52 `PerformSingleClusteringIteration`: `r` is the outcome of one run. -/
def AssignRun (ps : Nat → List (Entry D) → List (Entry D)) (b : Backend) (threads : Int) (dist : A → A → D)
    (data centers : List A) (r : Res (List Int)) : Prop :=
  ∃ order, IndexRun b threads 0 data.length order ∧
    r = modifyAll (fun i _ => labelOf ps dist data centers i) order (List.replicate data.length 0)

/-- `v.at(static_cast<size_t>(label)).push_back(x)` -/
def pushAt {X : Type} (v : List (List X)) (label : Int) (x : X) : Res (List (List X)) := do
  let l ← atInt v label
  pure (v.set label.toNat (l ++ [x]))

/-- simple_kmeans_clustering.hpp:79-86: separate the data (from index `idx` on) into their clusters. -/
def separate (weights : List W) (labels : List Int) : List A → Nat → List (List A) × List (List W) →
    Res (List (List A) × List (List W))
  | [], _, st => .ok st
  | x :: xs, idx, st => do
    let label ← atChecked labels idx
    let a ← pushAt st.1 label x
    let w ← atChecked weights idx
    let b ← pushAt st.2 label w
    separate weights labels xs (idx + 1) (a, b)

/-- simple_kmeans_clustering.hpp:91-99: the centre of one cluster. -/
def centerOf (avg : List A → List W → Res A) (st : List (List A) × List (List W)) (c : Int) : Res A := do
  let xs ← atInt st.1 c
  let ws ← atInt st.2 c
  avg xs ws

/-- simple_kmeans_clustering.hpp:63-111 `ComputeClusterCentersWeighted`. A negative number of clusters becomes a huge unsigned
vector size. An exception of the averaging function is taken to leave the loop (it does for a serial run; see Throw.lean for the others). -/
def CentersRun (b : Backend) (threads : Int) (avg : List A → List W → Res A) (data : List A) (weights : List W)
    (labels : List Int) (k : Int) (r : Res (List A)) : Prop :=
  if data.length ≠ labels.length then r = .throw .invalidArgument
  else if k < 0 then r = .throw .lengthError
  else
    match separate weights labels data 0 (List.replicate k.toNat [], List.replicate k.toNat []) with
    | .throw e => r = .throw e
    | .ub => r = .ub
    | .ok st => ∃ order, IndexRun b threads 0 k order ∧
        r = modifyAll (fun c _ => centerOf avg st c) order (List.replicate k.toNat default)

/-- simple_kmeans_clustering.hpp:115-134 `CheckForConvergence`. -/
def converged (old new : List Int) : Res Bool :=
  if old.length = new.length then .ok (decide (old = new)) else .throw .invalidArgument

/-- The arguments that stay fixed during a call. (simple_kmeans_clustering.hpp:146-156) -/
structure Args (A W D : Type) where
  ps : Nat → List (Entry D) → List (Entry D)
  b : Backend
  threads : Int
  dist : A → A → D
  avg : List A → List W → Res A
  k : Int

/-- simple_kmeans_clustering.hpp:276-295: the loop, entered with `labels`, ends with outcome `r`. -/
inductive Iterate (P : Args A W D) (data : List A) (weights : List W) : List Int → Res (List Int) → Prop
  | stop {labels new : List Int} {cs : List A}
      (hc : CentersRun P.b P.threads P.avg data weights labels P.k (.ok cs))
      (ha : AssignRun P.ps P.b P.threads P.dist data cs (.ok new)) (h : converged labels new = .ok true) :
      Iterate P data weights labels (.ok new)
  | next {labels new : List Int} {cs : List A} {r : Res (List Int)}
      (hc : CentersRun P.b P.threads P.avg data weights labels P.k (.ok cs))
      (ha : AssignRun P.ps P.b P.threads P.dist data cs (.ok new)) (h : converged labels new = .ok false)
      (hr : Iterate P data weights new r) : Iterate P data weights labels r
  | sizes {labels new : List Int} {cs : List A} {e : Exc}
      (hc : CentersRun P.b P.threads P.avg data weights labels P.k (.ok cs))
      (ha : AssignRun P.ps P.b P.threads P.dist data cs (.ok new)) (h : converged labels new = .throw e) :
      Iterate P data weights labels (.throw e)
  | centersThrow {labels : List Int} {e : Exc} (hc : CentersRun P.b P.threads P.avg data weights labels P.k (.throw e)) :
      Iterate P data weights labels (.throw e)
  | centersUb {labels : List Int} (hc : CentersRun P.b P.threads P.avg data weights labels P.k .ub) :
      Iterate P data weights labels .ub
  | assignThrow {labels : List Int} {cs : List A} {e : Exc}
      (hc : CentersRun P.b P.threads P.avg data weights labels P.k (.ok cs))
      (ha : AssignRun P.ps P.b P.threads P.dist data cs (.throw e)) : Iterate P data weights labels (.throw e)
  | assignUb {labels : List Int} {cs : List A}
      (hc : CentersRun P.b P.threads P.avg data weights labels P.k (.ok cs))
      (ha : AssignRun P.ps P.b P.threads P.dist data cs .ub) : Iterate P data weights labels .ub

/-- simple_kmeans_clustering.hpp:269-302: what is done once there are centres. -/
inductive FromCenters (P : Args A W D) (data : List A) (weights : List W) (cs : List A) : Res (List Int) → Prop
  | count (h : (cs.length : Int) ≠ P.k) : FromCenters P data weights cs (.throw .runtimeError)
  | run {labels : List Int} {r : Res (List Int)} (h : (cs.length : Int) = P.k)
      (ha : AssignRun P.ps P.b P.threads P.dist data cs (.ok labels)) (hr : Iterate P data weights labels r) :
      FromCenters P data weights cs r
  | assignThrow {e : Exc} (h : (cs.length : Int) = P.k) (ha : AssignRun P.ps P.b P.threads P.dist data cs (.throw e)) :
      FromCenters P data weights cs (.throw e)
  | assignUb (h : (cs.length : Int) = P.k) (ha : AssignRun P.ps P.b P.threads P.dist data cs .ub) :
      FromCenters P data weights cs .ub

/-- simple_kmeans_clustering.hpp:215-220, 251-256: draw until `n` different indices into `size` elements were drawn; `picked` are
the keys of the map, in its iteration order. Without a possible `picked` (`n > size`) the loop does not end. -/
def Picked (size : Nat) (n : Int) (picked : List Nat) : Prop :=
  picked.Nodup ∧ (∀ i ∈ picked, i < size) ∧ (picked.length : Int) = max n 0

/-- `data[i]` for all picked indices. (simple_kmeans_clustering.hpp:210-250) -/
def gather {X : Type} (data : List X) : List Nat → Res (List X)
  | [] => .ok []
  | i :: is => do
    let x ← atRaw data i
    let rest ← gather data is
    pure (x :: rest)

/-- `v.at(i)` for all picked indices. (simple_kmeans_clustering.hpp:210-250) -/
def gatherChecked {X : Type} (v : List X) : List Nat → Res (List X)
  | [] => .ok []
  | i :: is => do
    let x ← atChecked v i
    let rest ← gatherChecked v is
    pure (x :: rest)

/-- simple_kmeans_clustering.hpp:156-171, 249-303: `ClusterWeighted` without preliminary clustering. -/
inductive PlainRun (P : Args A W D) (data : List A) (weights : List W) : Res (List Int) → Prop
  | empty (h : data = []) : PlainRun P data weights (.ok [])
  | one (h : data ≠ []) (hk : P.k = 1) : PlainRun P data weights (.ok (List.replicate data.length 0))
  | zero (h : data ≠ []) (hk : P.k = 0) : PlainRun P data weights (.throw .invalidArgument)
  | negative (h : data ≠ []) (hk : P.k < 0) : PlainRun P data weights (.throw .lengthError)
  | run {picked : List Nat} {cs : List A} {r : Res (List Int)} (h : data ≠ []) (hk : 1 < P.k)
      (hp : Picked data.length P.k picked) (hg : gather data picked = .ok cs) (hr : FromCenters P data weights cs r) :
      PlainRun P data weights r

/-- simple_kmeans_clustering.hpp:176-178, 211-213: `ceil(size * 0.125)`, exact for sizes below 2^53. -/
def subsetSize (n : Nat) : Nat := (n + 7) / 8

/-- simple_kmeans_clustering.hpp:179: `subset_size >= (num_clusters * 5)`; the product is computed in `int` and overflow is
undefined. -/
def prelimEnabled (n : Nat) (k : Int) : Res Bool :=
  if -2147483648 ≤ k * 5 ∧ k * 5 ≤ 2147483647 then .ok (decide ((subsetSize n : Int) ≥ k * 5)) else .ub

/-- simple_kmeans_clustering.hpp:146-303 `ClusterWeighted`; `Cluster` (314-336) is the case of an averaging function that ignores
its weights, with weights 1. -/
inductive ClusterRun (P : Args A W D) (data : List A) (weights : List W) (prelim : Bool) : Res (List Int) → Prop
  | early {r : Res (List Int)} (h : data = [] ∨ P.k = 1 ∨ P.k = 0) (hr : PlainRun P data weights r) :
      ClusterRun P data weights prelim r
  | overflow (hp : prelim = true) (h : data ≠ [] ∧ P.k ≠ 1 ∧ P.k ≠ 0) (he : prelimEnabled data.length P.k = .ub) :
      ClusterRun P data weights prelim .ub
  | plain {r : Res (List Int)} (hp : prelim = false ∨ prelimEnabled data.length P.k = .ok false)
      (hr : PlainRun P data weights r) : ClusterRun P data weights prelim r
  | weightsThrow {picked : List Nat} {sub : List A} {e : Exc} (hp : prelim = true) (h : data ≠ [] ∧ P.k ≠ 1 ∧ P.k ≠ 0)
      (he : prelimEnabled data.length P.k = .ok true) (hpk : Picked data.length (subsetSize data.length) picked)
      (hg : gatherChecked data picked = .ok sub) (hw : gatherChecked weights picked = .throw e) :
      ClusterRun P data weights prelim (.throw e)
  | subThrow {picked : List Nat} {sub : List A} {subW : List W} {e : Exc} (hp : prelim = true)
      (h : data ≠ [] ∧ P.k ≠ 1 ∧ P.k ≠ 0) (he : prelimEnabled data.length P.k = .ok true)
      (hpk : Picked data.length (subsetSize data.length) picked)
      (hg : gatherChecked data picked = .ok sub) (hw : gatherChecked weights picked = .ok subW)
      (hs : PlainRun P sub subW (.throw e)) : ClusterRun P data weights prelim (.throw e)
  | centersThrow {picked : List Nat} {sub : List A} {subW : List W} {l : List Int} {e : Exc} (hp : prelim = true)
      (h : data ≠ [] ∧ P.k ≠ 1 ∧ P.k ≠ 0) (he : prelimEnabled data.length P.k = .ok true)
      (hpk : Picked data.length (subsetSize data.length) picked)
      (hg : gatherChecked data picked = .ok sub) (hw : gatherChecked weights picked = .ok subW)
      (hs : PlainRun P sub subW (.ok l)) (hc : CentersRun P.b P.threads P.avg sub subW l P.k (.throw e)) :
      ClusterRun P data weights prelim (.throw e)
  | subUb {picked : List Nat} {sub : List A} {subW : List W} (hp : prelim = true)
      (h : data ≠ [] ∧ P.k ≠ 1 ∧ P.k ≠ 0) (he : prelimEnabled data.length P.k = .ok true)
      (hpk : Picked data.length (subsetSize data.length) picked)
      (hg : gatherChecked data picked = .ok sub) (hw : gatherChecked weights picked = .ok subW)
      (hs : PlainRun P sub subW .ub ∨ ∃ l, PlainRun P sub subW (.ok l) ∧ CentersRun P.b P.threads P.avg sub subW l P.k .ub) :
      ClusterRun P data weights prelim .ub
  | prelim {picked : List Nat} {sub cs : List A} {subW : List W} {l : List Int} {r : Res (List Int)} (hp : prelim = true)
      (h : data ≠ [] ∧ P.k ≠ 1 ∧ P.k ≠ 0) (he : prelimEnabled data.length P.k = .ok true)
      (hpk : Picked data.length (subsetSize data.length) picked)
      (hg : gatherChecked data picked = .ok sub) (hw : gatherChecked weights picked = .ok subW)
      (hs : PlainRun P sub subW (.ok l)) (hc : CentersRun P.b P.threads P.avg sub subW l P.k (.ok cs))
      (hr : FromCenters P data weights cs r) : ClusterRun P data weights prelim r

end CRU.Kmeans
