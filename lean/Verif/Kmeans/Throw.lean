import Verif.Kmeans.Total
import Verif.Knn.Throw
/-
  C112, K-means with distance and averaging functions that may throw. `.ok (.error x)` means that the call throws the caller's exception `x`;
  exceptions are the caller's values, of any type `ε`. Both functions are deterministic; nothing else is assumed of them. As in Model.lean, random
  draws may be anything.
-/
namespace CRU.Kmeans.Throw
open CRU.Parallel CRU.Knn CRU.Distances.Throw
set_option linter.unusedSectionVars false

variable {A W D X Y ε : Type}

/-! ### Model -/

/-- `v.at(i) = x` in the given order. (simple_kmeans_clustering.hpp:43-44, 98-99) -/
def assignAt : List (Int × X) → List X → Res (List X)
  | [], v => .ok v
  | (i, x) :: l, v => do
    let _ ← atInt v i
    assignAt l (v.set i.toNat x)

/-- simple_kmeans_clustering.hpp:37-45, 91-100, the two `per_item_work`: an element for the place of the index, or an exception. -/
def fillBody (h : Int → Res (Except ε X)) (c : Call) : Res (Effects (Int × X) ε) := do
  match ← h c.index with
  | .error x => pure ([], some x)
  | .ok v => pure ([(c.index, v)], none)

/-- simple_kmeans_clustering.hpp:35-51, 89-106: a vector of `n` elements, each set by a body of a parallel loop. -/
def FillRun (b : Backend) (threads : Int) (n : Int) (h : Int → Res (Except ε X)) (z : X) (r : Res (Except ε (List X))) : Prop :=
  ∃ ws, staticIndexLoop b threads 0 n = .ok ws ∧
    BodyRun b.isOmp (fillBody h) ws (fun tr => assignAt tr (List.replicate n.toNat z)) r

/-- The arguments that stay fixed during a call. (simple_kmeans_clustering.hpp:146-156) -/
structure Args (A W D ε : Type) where
  ps : Nat → List (Entry D) → List (Entry D)
  b : Backend
  threads : Int
  dist : A → A → Except ε D
  avg : List A → List W → Except ε A
  k : Int

/-- simple_kmeans_clustering.hpp:39-45: the label of the datum at `i`. -/
def labelOf (P : Args A W D ε) (data centers : List A) (i : Int) : Res (Except ε Int) := do
  let x ← atInt data i
  match ← Knn.Throw.knnSerial P.ps centers (fun c => P.dist c x) 0 centers.length 1 with
  | .error x => pure (.error x)
  | .ok nn =>
    let e ← atChecked nn 0
    pure (.ok (narrow32 e.index))

/-- simple_kmeans_clustering.hpp:29-52 `PerformSingleClusteringIteration`. -/
def AssignRun (P : Args A W D ε) (data centers : List A) (r : Res (Except ε (List Int))) : Prop :=
  FillRun P.b P.threads data.length (labelOf P data centers) 0 r

/-- simple_kmeans_clustering.hpp:91-99: the centre of one cluster. -/
def centerOf (P : Args A W D ε) (st : List (List A) × List (List W)) (c : Int) : Res (Except ε A) := do
  let xs ← atInt st.1 c
  let ws ← atInt st.2 c
  pure (P.avg xs ws)

/-- simple_kmeans_clustering.hpp:63-111 `ComputeClusterCentersWeighted`. -/
def CentersRun [Inhabited A] (P : Args A W D ε) (data : List A) (weights : List W) (labels : List Int) (r : Res (Except ε (List A))) : Prop :=
  if data.length ≠ labels.length then r = .throw .invalidArgument
  else if P.k < 0 then r = .throw .lengthError
  else
    match separate weights labels data 0 (List.replicate P.k.toNat [], List.replicate P.k.toNat []) with
    | .throw e => r = .throw e
    | .ub => r = .ub
    | .ok st => FillRun P.b P.threads P.k (centerOf P st) default r

/-- How an outcome that is not a value leaves the enclosing function. (no project code: C++ or bookkeeping) -/
def Leaves (o : Res (Except ε X)) (r : Res (Except ε Y)) : Prop :=
  match o with
  | .ok (.ok _) => False
  | .ok (.error x) => r = .ok (.error x)
  | .throw e => r = .throw e
  | .ub => r = .ub

/-- One thing after the other. (no project code: C++ or bookkeeping) -/
def Then (R : Res (Except ε X) → Prop) (K : X → Res (Except ε Y) → Prop) (r : Res (Except ε Y)) : Prop :=
  (∃ x, R (.ok (.ok x)) ∧ K x r) ∨ ∃ o, R o ∧ Leaves o r

/-- simple_kmeans_clustering.hpp:276-295: the loop, entered with `labels`, ends with outcome `r`. -/
inductive Iterate [Inhabited A] (P : Args A W D ε) (data : List A) (weights : List W) : List Int → Res (Except ε (List Int)) → Prop
  | stop {labels new : List Int} {cs : List A} (hc : CentersRun P data weights labels (.ok (.ok cs)))
      (ha : AssignRun P data cs (.ok (.ok new))) (h : converged labels new = .ok true) : Iterate P data weights labels (.ok (.ok new))
  | next {labels new : List Int} {cs : List A} {r : Res (Except ε (List Int))} (hc : CentersRun P data weights labels (.ok (.ok cs)))
      (ha : AssignRun P data cs (.ok (.ok new))) (h : converged labels new = .ok false) (hr : Iterate P data weights new r) :
      Iterate P data weights labels r
  | sizes {labels new : List Int} {cs : List A} {e : Exc} (hc : CentersRun P data weights labels (.ok (.ok cs)))
      (ha : AssignRun P data cs (.ok (.ok new))) (h : converged labels new = .throw e) : Iterate P data weights labels (.throw e)
  | centers {labels : List Int} {o : Res (Except ε (List A))} {r : Res (Except ε (List Int))} (hc : CentersRun P data weights labels o)
      (hl : Leaves o r) : Iterate P data weights labels r
  | assign {labels : List Int} {cs : List A} {o r : Res (Except ε (List Int))} (hc : CentersRun P data weights labels (.ok (.ok cs)))
      (ha : AssignRun P data cs o) (hl : Leaves o r) : Iterate P data weights labels r

/-- simple_kmeans_clustering.hpp:269-302: what is done once there are centres. -/
def FromCenters [Inhabited A] (P : Args A W D ε) (data : List A) (weights : List W) (cs : List A) (r : Res (Except ε (List Int))) : Prop :=
  if (cs.length : Int) ≠ P.k then r = .throw .runtimeError
  else Then (AssignRun P data cs) (Iterate P data weights) r

/-- simple_kmeans_clustering.hpp:156-171, 249-303: `ClusterWeighted` without preliminary clustering. -/
def PlainRun [Inhabited A] (P : Args A W D ε) (data : List A) (weights : List W) (r : Res (Except ε (List Int))) : Prop :=
  if data.length = 0 then r = .ok (.ok [])
  else if P.k = 1 then r = .ok (.ok (List.replicate data.length 0))
  else if P.k = 0 then r = .throw .invalidArgument
  else if P.k < 0 then r = .throw .lengthError
  else ∃ picked cs, Picked data.length P.k picked ∧ gather data picked = .ok cs ∧ FromCenters P data weights cs r

/-- simple_kmeans_clustering.hpp:146-303 `ClusterWeighted`; `Cluster` (314-336) is the case of an averaging function that ignores its weights,
with weights 1. -/
def ClusterRun [Inhabited A] (P : Args A W D ε) (data : List A) (weights : List W) (prelim : Bool) (r : Res (Except ε (List Int))) : Prop :=
  if data.length = 0 ∨ P.k = 1 ∨ P.k = 0 ∨ prelim = false then PlainRun P data weights r
  else
    match prelimEnabled data.length P.k with
    | .ub => r = .ub
    | .throw e => r = .throw e
    | .ok false => PlainRun P data weights r
    | .ok true => ∃ picked, Picked data.length (subsetSize data.length) picked ∧
      match gatherChecked data picked, gatherChecked weights picked with
      | .ok sub, .ok subW => Then (PlainRun P sub subW) (fun l => Then (CentersRun P sub subW l) (FromCenters P data weights)) r
      | .throw e, _ => r = .throw e
      | .ok _, .throw e => r = .throw e
      | _, _ => r = .ub

/-! ### Specification -/

/-- `label` is the number of a centre that is nearest to `x`; the distance function answered for all centres. -/
def IsNearest [LE D] (dist : A → A → Except ε D) (centers : List A) (x : A) (label : Int) : Prop :=
  0 ≤ label ∧ ∃ h : label.toNat < centers.length, ∃ v, dist centers[label.toNat] x = .ok v ∧
    ∀ (j : Nat) (hj : j < centers.length), ∃ v', dist centers[j] x = .ok v' ∧ v ≤ v'

/-- The labelling is stable: the averaging function answered for all its clusters, and every datum carries the label of a nearest one of these
centres. -/
def IsStable [LE D] (dist : A → A → Except ε D) (avg : List A → List W → Except ε A) (data : List A) (weights : List W) (k : Nat)
    (labels : List Int) : Prop :=
  ∃ centers : List A, centers.length = k ∧
    (∀ (j : Nat) (h : j < centers.length), avg (members data labels j) (members weights labels j) = .ok centers[j]) ∧
    ∀ (i : Nat) (h : i < data.length) (h' : i < labels.length), IsNearest dist centers data[i] labels[i]

/-- Where an exception of the caller's functions can come from: the distance function threw it for a datum and a centre, which is a datum itself or
what the averaging function returned for some data; or the averaging function threw it for some data, with as many weights. -/
inductive ThrownBy (dist : A → A → Except ε D) (avg : List A → List W → Except ε A) (data : List A) (weights : List W) (x : ε) : Prop
  | distFromDatum {c y : A} (hc : c ∈ data) (hy : y ∈ data) (h : dist c y = .error x)
  | distFromCentre {c y : A} {xs : List A} {ws : List W} (hxs : ∀ a ∈ xs, a ∈ data) (hws : ∀ w ∈ ws, w ∈ weights) (hl : xs.length = ws.length)
      (hc : avg xs ws = .ok c) (hy : y ∈ data) (h : dist c y = .error x)
  | average {xs : List A} {ws : List W} (hxs : ∀ a ∈ xs, a ∈ data) (hws : ∀ w ∈ ws, w ∈ weights) (hl : xs.length = ws.length)
      (h : avg xs ws = .error x)

/-- There is a datum, a first centre, for which the distance function answered on all of `sub`. -/
def Started (P : Args A W D ε) (data sub : List A) : Prop := ∃ c ∈ data, ∀ y ∈ sub, ∃ v, P.dist c y = .ok v

/-- Functions that do not throw the caller's exceptions and give the answers that `P`'s functions give. -/
structure Extends (P : Args A W D ε) (dist : A → A → D) (avg : List A → List W → Res A) : Prop where
  dist : ∀ a b v, P.dist a b = .ok v → dist a b = v
  avg : ∀ xs ws c, P.avg xs ws = .ok c → avg xs ws = .ok c

/-- The call of Model.lean with these functions instead. -/
def withFunctions (P : Args A W D ε) (dist : A → A → D) (avg : List A → List W → Res A) : Kmeans.Args A W D where
  ps := P.ps
  b := P.b
  threads := P.threads
  dist := dist
  avg := avg
  k := P.k

/-! ### Proofs -/

theorem assignAt_ok : ∀ (l : List (Int × X)) (v : List X), (∀ a ∈ l, 0 ≤ a.1 ∧ a.1.toNat < v.length) → ∃ v', assignAt l v = .ok v'
  | [], v, _ => ⟨v, rfl⟩
  | (i, x) :: l, v, h => by
    obtain ⟨h1, h2⟩ := h (i, x) (by simp)
    unfold assignAt
    rw [atInt_ok v i h1 h2, Res.ok_bind]
    exact assignAt_ok l _ fun a ha => by simpa using h a (by simp [ha])

theorem assignAt_spec : ∀ (l : List (Int × X)) (v v' : List X), assignAt l v = .ok v' →
    v'.length = v.length ∧ ∀ k : Nat, (v'[k]? = v[k]? ∧ ∀ a ∈ l, a.1 ≠ (k : Int)) ∨ ∃ x, ((k : Int), x) ∈ l ∧ v'[k]? = some x
  | [], v, v', h => by cases h; simp
  | (i, x) :: l, v, v', h => by
    unfold assignAt at h
    obtain ⟨y, h1, h⟩ := Res.bind_eq_ok.mp h
    obtain ⟨h0, hl, -⟩ := atInt_mem h1
    obtain ⟨k1, k2⟩ := assignAt_spec l _ v' h
    refine ⟨by simpa using k1, fun k => ?_⟩
    rcases k2 k with ⟨k3, k4⟩ | ⟨z, k3, k4⟩
    · by_cases hik : i = (k : Int)
      · subst hik
        refine .inr ⟨x, by simp, ?_⟩
        rw [k3, List.getElem?_set]
        simp only [Int.toNat_natCast] at *
        simp [hl]
      · refine .inl ⟨?_, ?_⟩
        · rw [k3, List.getElem?_set_ne (by omega)]
        · intro a ha
          rcases List.mem_cons.mp ha with rfl | ha
          · exact hik
          · exact k4 a ha
    · exact .inr ⟨z, List.mem_cons_of_mem _ k3, k4⟩

/-- One loop: all bodies returned and the vector has their values, or the loop throws what one body threw. -/
theorem fill_spec {b : Backend} {threads : Int} {n : Nat} {h : Int → Res (Except ε X)} {w : Nat → Except ε X} {z : X}
    {r : Res (Except ε (List X))} (hr : FillRun b threads n h z r) (hI : InI64 n) (hth : InI64 threads)
    (hw : ∀ i, i < n → h (i : Int) = .ok (w i)) :
    (∃ l, r = .ok (.ok l) ∧ l.length = n ∧ ∀ i (hi : i < l.length), w i = .ok l[i]) ∨
    ∃ i x, i < n ∧ w i = .error x ∧ r = .ok (.error x) := by
  obtain ⟨ws, hws, hrun⟩ := hr
  have hperm : (ws.flatten.map (·.index)).Perm (irange 0 n) := by
    obtain ⟨tr, htr⟩ := Interleaving.exists_run ws
    have hx : IndexRun b threads 0 n (tr.map (·.index)) := ⟨ws, tr, hws, htr, rfl⟩
    exact ((htr.perm.symm).map _).trans (hx.perm (by decide) hI hth (by simpa using hI) (by omega))
  have hidx : ∀ c ∈ ws.flatten, 0 ≤ c.index ∧ c.index.toNat < n := by
    intro c hc
    have := mem_irange.mp (hperm.subset (List.mem_map.mpr ⟨c, hc, rfl⟩))
    omega
  let u : Call → Effects (Int × X) ε := fun c =>
    match w c.index.toNat with
    | .error x => ([], some x)
    | .ok v => ([(c.index, v)], none)
  have hf : ∀ c ∈ ws.flatten, fillBody h c = .ok (u c) := by
    intro c hc
    have hci := hidx c hc
    have := hw c.index.toNat hci.2
    rw [Int.toNat_of_nonneg hci.1] at this
    unfold fillBody
    rw [this, Res.ok_bind]
    simp only [u]
    cases w c.index.toNat <;> rfl
  have hu : ∀ c a, a ∈ (u c).1 → w c.index.toNat = .ok a.2 ∧ a.1 = c.index := by
    intro c a ha
    simp only [u] at ha
    cases hwc : w c.index.toNat with
    | error x => rw [hwc] at ha; simp at ha
    | ok v => rw [hwc] at ha; simp only [List.mem_singleton] at ha; subst ha; exact ⟨rfl, rfl⟩
  rcases bodyRun_spec hf (fun tr htr => assignAt_ok tr _ (fun a ha => by
    obtain ⟨c, hc, hac⟩ := htr a ha
    have := hidx c hc
    rw [(hu c a hac).2]
    simpa using this)) hrun with ⟨hno, tr, l, htr, hl, rfl⟩ | ⟨pre, c, post, x, hsplit, hcx, rfl, -⟩
  · left
    obtain ⟨k1, k2⟩ := assignAt_spec _ _ _ hl
    have hln : l.length = n := by simpa using k1
    have hmem : ∀ a, a ∈ tr ↔ ∃ c ∈ ws.flatten, a ∈ (u c).1 := by
      intro a
      rw [htr.perm.mem_iff]
      simp only [List.mem_flatten, List.mem_map]
      constructor
      · rintro ⟨_, ⟨w', hw', rfl⟩, ha⟩
        obtain ⟨c, hc, hac⟩ := List.mem_flatMap.mp ha
        exact ⟨c, ⟨w', hw', hc⟩, hac⟩
      · rintro ⟨c, ⟨w', hw', hc⟩, hac⟩
        exact ⟨_, ⟨w', hw', rfl⟩, List.mem_flatMap.mpr ⟨c, hc, hac⟩⟩
    refine ⟨l, rfl, hln, fun i hi => ?_⟩
    rcases k2 i with ⟨-, hk⟩ | ⟨v, hv, hlv⟩
    · exfalso
      have hm : (i : Int) ∈ ws.flatten.map (·.index) := hperm.symm.subset (mem_irange.mpr (by omega))
      obtain ⟨c, hc, hci⟩ := List.mem_map.mp hm
      have hn := hno c hc
      simp only [u] at hn
      cases hwc : w c.index.toNat with
      | error x => rw [hwc] at hn; simp at hn
      | ok v =>
        exact hk (c.index, v) ((hmem _).mpr ⟨c, hc, by simp only [u]; rw [hwc]; simp⟩) hci
    · obtain ⟨c, hc, hac⟩ := (hmem _).mp hv
      obtain ⟨h1, h2⟩ := hu c _ hac
      simp only at h1 h2
      rw [← h2, Int.toNat_natCast] at h1
      rw [List.getElem?_eq_getElem hi] at hlv
      cases hlv
      exact h1
  · right
    have hc : c ∈ ws.flatten := by rw [hsplit]; simp
    refine ⟨c.index.toNat, x, (hidx c hc).2, ?_, rfl⟩
    simp only [u] at hcx
    cases hwc : w c.index.toNat with
    | error y => rw [hwc] at hcx; simpa using hcx
    | ok v => rw [hwc] at hcx; simp at hcx

theorem fill_exists (b : Backend) (threads : Int) (n : Int) (h : Int → Res (Except ε X)) (z : X) (hn : 0 ≤ n) (hI : InI64 n)
    (hth : InI64 threads) : ∃ r, FillRun b threads n h z r := by
  obtain ⟨_, ws, _, hws, _, _⟩ := IndexRun.exists b threads 0 n (by decide) hI hth (by simpa using hI) hn
  obtain ⟨r, hr⟩ := bodyRun_exists b.isOmp (fillBody h) ws (fun tr => assignAt tr (List.replicate n.toNat z))
  exact ⟨r, ws, hws, hr⟩

section Order
variable [LinearOrder D] [Inhabited A] {d' : A → A → D} {avg' : List A → List W → Res A}

/-- The label of one datum. -/
theorem labelOf_spec (P : Args A W D ε) (hE : Extends P d' avg') (hps : LawfulPartialSort P.ps) (data centers : List A) (hc : centers ≠ [])
    (hlen : (centers.length : Int) ≤ 2147483647) (i : Nat) (hi : i < data.length) :
    (∃ l, labelOf P data centers i = .ok (.ok l) ∧ IsNearest P.dist centers data[i] l ∧
      Kmeans.labelOf P.ps d' data centers i = .ok l) ∨
    ∃ x, labelOf P data centers i = .ok (.error x) ∧ ∃ c ∈ centers, P.dist c data[i] = .error x := by
  have hpos : 0 < centers.length := List.length_pos_iff.mpr hc
  have hx : atInt data (i : Int) = .ok data[i] := by
    rw [atInt_ok data i (by omega) (by simpa using hi)]
    simp
  rcases Knn.Throw.serial_spec P.ps centers (fun c => P.dist c data[i]) 0 centers.length 1 hpos (le_refl _) (by decide) with
    ⟨l, k1, k2, k3⟩ | ⟨j, x, hj, -, -, k1, -, k2⟩
  · left
    have hag : Knn.Throw.Agrees centers (fun c => P.dist c data[i]) 0 centers.length (fun c => d' c data[i]) := by
      intro j hj _ _
      obtain ⟨v, hv⟩ := k1 j hj (by omega) hj
      exact hv.trans (congrArg _ (hE.dist _ _ _ hv).symm)
    have k4 := k3 _ hag
    obtain ⟨e, h1, h2⟩ := Kmeans.labelOf_spec hps d' data centers hc hlen i hi
    have h1' := h1
    unfold Kmeans.labelOf at h1
    rw [hx, Res.ok_bind, k4, Res.ok_bind] at h1
    obtain ⟨q, h3, h4⟩ := Res.bind_eq_ok.mp h1
    refine ⟨e, ?_, ?_, h1'⟩
    · unfold labelOf
      rw [hx, Res.ok_bind, k2, Res.ok_bind]
      dsimp only
      rw [h3, Res.ok_bind]
      simp only [Res.pure_eq, Res.ok.injEq] at h4 ⊢
      rw [h4]
    · obtain ⟨g1, g2, g3⟩ := h2
      refine ⟨g1, g2, _, hag _ g2 (by omega) g2, fun j hj => ⟨_, hag j hj (by omega) hj, g3 j hj⟩⟩
  · right
    refine ⟨x, ?_, centers[j], List.getElem_mem _, k1⟩
    unfold labelOf
    rw [hx, Res.ok_bind, k2]
    rfl

/-- One assignment step. -/
theorem assign_spec (P : Args A W D ε) (hE : Extends P d' avg') (hps : LawfulPartialSort P.ps) {data centers : List A} {r : Res (Except ε (List Int))}
    (h : AssignRun P data centers r) (hI : InI64 data.length) (hth : InI64 P.threads) (hc : centers ≠ [])
    (hlen : (centers.length : Int) ≤ 2147483647) :
    (∃ labels, r = .ok (.ok labels) ∧ labels.length = data.length ∧
      (∀ (i : Nat) (h : i < data.length) (h' : i < labels.length), IsNearest P.dist centers data[i] labels[i]) ∧
      ∀ (i : Nat) (h' : i < labels.length), Kmeans.labelOf P.ps d' data centers i = .ok labels[i]) ∨
    ∃ x, r = .ok (.error x) ∧ ∃ c ∈ centers, ∃ y ∈ data, P.dist c y = .error x := by
  have hex : ∀ i : Nat, ∃ w : Except ε Int, i < data.length → labelOf P data centers i = .ok w := by
    intro i
    by_cases hi : i < data.length
    · rcases labelOf_spec P hE hps data centers hc hlen i hi with ⟨l, h1, -⟩ | ⟨x, h1, -⟩
      · exact ⟨_, fun _ => h1⟩
      · exact ⟨_, fun _ => h1⟩
    · exact ⟨.ok 0, fun h => absurd h hi⟩
  choose w hw using hex
  rcases fill_spec h hI hth hw with ⟨l, rfl, h2, h3⟩ | ⟨i, x, h1, h2, rfl⟩
  · left
    have hl : ∀ i (hi : i < data.length) (h' : i < l.length), IsNearest P.dist centers data[i] l[i] ∧
        Kmeans.labelOf P.ps d' data centers i = .ok l[i] := by
      intro i hi h'
      have hwi := hw i hi
      rw [h3 i h'] at hwi
      rcases labelOf_spec P hE hps data centers hc hlen i hi with ⟨q, k1, k2, k3⟩ | ⟨x, k1, -⟩
      · rw [k1] at hwi; cases hwi; exact ⟨k2, k3⟩
      · rw [k1] at hwi; cases hwi
    exact ⟨l, rfl, h2, fun i hi h' => (hl i hi h').1, fun i h' => (hl i (by omega) h').2⟩
  · right
    have hwi := hw i h1
    rw [h2] at hwi
    rcases labelOf_spec P hE hps data centers hc hlen i h1 with ⟨q, k1, -⟩ | ⟨y, k1, c, hc', k2⟩
    · rw [k1] at hwi; cases hwi
    · rw [k1] at hwi; cases hwi
      exact ⟨x, rfl, c, hc', _, List.getElem_mem _, k2⟩

theorem members_length {X : Type} (data : List X) (labels : List Int) (j : Int) (h : labels.length ≤ data.length) :
    (members data labels j).length = (labels.filter (· = j)).length := by
  induction labels generalizing data with
  | nil => simp [members]
  | cons l ls ih =>
    cases data with
    | nil => simp at h
    | cons x xs =>
      rw [members_cons, List.filter_cons]
      have := ih xs (by simpa using h)
      by_cases hl : l = j
      · simp [hl, this]
      · simp [hl, this]

theorem members_mem {X : Type} {data : List X} {labels : List Int} {j : Int} : ∀ x ∈ members data labels j, x ∈ data := by
  intro x hx
  unfold members at hx
  obtain ⟨p, hp, rfl⟩ := List.mem_map.mp hx
  exact (List.of_mem_zip (List.mem_filter.mp hp).1).1

theorem assign_plain (P : Args A W D ε) {data centers : List A} {labels : List Int} (hI : InI64 data.length) (hth : InI64 P.threads)
    (hl : labels.length = data.length)
    (h : ∀ (i : Nat) (h' : i < labels.length), Kmeans.labelOf P.ps d' data centers i = .ok labels[i]) :
    Kmeans.AssignRun P.ps P.b P.threads d' data centers (.ok labels) := by
  obtain ⟨order, ho⟩ := IndexRun.exists P.b P.threads 0 data.length (by decide) hI hth (by simpa using hI) (by omega)
  refine ⟨order, ho, ?_⟩
  have hp := ho.perm (by decide) hI hth (by simpa using hI) (by omega)
  rw [fill_det _ (fun i => labels.getD i.toNat 0) data.length order 0 hp (fun k hk => by
    rw [h k (by omega)]
    simp [List.getD_eq_getElem?_getD, List.getElem?_eq_getElem (show k < labels.length by omega)])]
  congr 1
  refine List.ext_getElem (by simp [hl]) fun i h1 h2 => ?_
  simp [List.getD_eq_getElem?_getD, List.getElem?_eq_getElem h1]

/-- The computation of centres from a labelling. -/
theorem centers_spec (P : Args A W D ε) (hE : Extends P d' avg') {data : List A} {weights : List W} {labels : List Int} {r : Res (Except ε (List A))}
    (h : CentersRun P data weights labels r) (hk0 : 0 ≤ P.k) (hk : InI64 P.k) (hth : InI64 P.threads) (hl : IsLabelling data P.k labels)
    (hw : data.length ≤ weights.length) :
    (∃ cs, r = .ok (.ok cs) ∧ (cs.length : Int) = P.k ∧
      (∀ (j : Nat) (h : j < cs.length), P.avg (members data labels j) (members weights labels j) = .ok cs[j]) ∧
      Kmeans.CentersRun P.b P.threads avg' data weights labels P.k (.ok cs)) ∨
    ∃ x j, r = .ok (.error x) ∧ P.avg (members data labels j) (members weights labels j) = .error x := by
  have hlen := hl.1
  unfold CentersRun at h
  rw [if_neg (by omega), if_neg (by omega)] at h
  obtain ⟨st, hst⟩ := separate_ok weights labels data 0 (List.replicate P.k.toNat [], List.replicate P.k.toNat []) (by omega) (by omega)
    (fun l hl' => by have := hl.2 l hl'; simp only [List.length_replicate]; omega)
  rw [hst] at h
  dsimp only at h
  obtain ⟨e1, e2, e3, e4, e5, _, e7⟩ := separate_inv weights labels data 0 _ st hst (by simp)
  have hq : ∀ j : Nat, j < P.k.toNat → atInt st.1 (j : Int) = .ok (members data labels j) ∧ atInt st.2 (j : Int) = .ok (members weights labels j) := by
    intro j hj
    have g1 := e3 j
    have g2 := e4 j
    simp only [List.getElem?_replicate, List.drop_zero] at g1 g2
    rw [if_pos hj] at g1 g2
    simp only [Option.map_some, List.nil_append] at g1 g2
    rw [members_take weights labels j data.length (by omega)] at g2
    unfold atInt atChecked
    rw [if_neg (by omega), Int.toNat_natCast, g1, if_neg (by omega), g2]
    exact ⟨rfl, rfl⟩
  have hkn : ((P.k.toNat : Nat) : Int) = P.k := Int.toNat_of_nonneg hk0
  rw [← hkn] at h
  rcases fill_spec (w := fun j => P.avg (members data labels j) (members weights labels j)) h (by rw [hkn]; exact hk) hth (fun j hj => by
    obtain ⟨q1, q2⟩ := hq j hj
    unfold centerOf
    rw [q1, Res.ok_bind, q2, Res.ok_bind, Res.pure_eq]) with ⟨cs, rfl, h2, h3⟩ | ⟨j, x, -, h2, rfl⟩
  · left
    refine ⟨cs, rfl, by omega, h3, ?_⟩
    unfold Kmeans.CentersRun
    rw [if_neg (by omega), if_neg (by omega), hst]
    dsimp only
    obtain ⟨order, ho⟩ := IndexRun.exists P.b P.threads 0 P.k (by decide) hk hth (by simpa using hk) hk0
    refine ⟨order, ho, ?_⟩
    have hp := ho.perm (by decide) hk hth (by simpa using hk) hk0
    rw [fill_det _ (fun i => cs.getD i.toNat default) P.k.toNat order default (by rw [hkn]; exact hp) (fun j hj => by
      obtain ⟨q1, q2⟩ := hq j hj
      unfold Kmeans.centerOf
      rw [q1, Res.ok_bind, q2, Res.ok_bind]
      have := h3 j (by omega)
      rw [hE.avg _ _ _ this]
      simp only [Int.toNat_natCast]
      simp [List.getD_eq_getElem?_getD, List.getElem?_eq_getElem (show j < cs.length by omega)])]
    congr 1
    refine List.ext_getElem (by simp [h2]) fun i h1 h2 => ?_
    simp [List.getD_eq_getElem?_getD, List.getElem?_eq_getElem h1]
  · exact .inr ⟨x, j, rfl, h2⟩

theorem nearest_range {dist : A → A → Except ε D} {centers : List A} {x : A} {l : Int} (h : IsNearest dist centers x l) :
    0 ≤ l ∧ l < centers.length := by
  obtain ⟨h1, h2, -⟩ := h
  omega

theorem labelling_of {dist : A → A → Except ε D} {data centers : List A} {k : Int} {labels : List Int} (hc : (centers.length : Int) = k)
    (h1 : labels.length = data.length)
    (h2 : ∀ (i : Nat) (h : i < data.length) (h' : i < labels.length), IsNearest dist centers data[i] labels[i]) : IsLabelling data k labels := by
  refine ⟨h1, fun x hx => ?_⟩
  obtain ⟨i, hi, rfl⟩ := List.getElem_of_mem hx
  have := nearest_range (h2 i (by omega) hi)
  omega

theorem iterate_spec (P : Args A W D ε) (hE : Extends P d' avg') (hps : LawfulPartialSort P.ps) {data : List A} {weights : List W} (hI : InI64 data.length)
    (hth : InI64 P.threads) (hk : 0 < P.k) (hk2 : P.k ≤ 2147483647) (hw : data.length ≤ weights.length) {labels : List Int}
    {r : Res (Except ε (List Int))} (h : Iterate P data weights labels r) (hl : IsLabelling data P.k labels) :
    (∃ out, r = .ok (.ok out) ∧ IsLabelling data P.k out ∧ IsStable P.dist P.avg data weights P.k.toNat out ∧
      Kmeans.Iterate (withFunctions P d' avg') data weights labels (.ok out)) ∨
    ∃ x, r = .ok (.error x) ∧ ThrownBy P.dist P.avg data weights x := by
  have hkI : InI64 P.k := by unfold InI64; omega
  have hlenm : ∀ (labels : List Int) (j : Int), labels.length = data.length →
      (members data labels j).length = (members weights labels j).length := by
    intro labels j hl
    rw [members_length data labels j (by omega), members_length weights labels j (by omega)]
  have hcen : ∀ {labels : List Int} {o : Res (Except ε (List A))}, IsLabelling data P.k labels → CentersRun P data weights labels o →
      (∃ cs, o = .ok (.ok cs) ∧ (cs.length : Int) = P.k ∧
        (∀ (j : Nat) (h : j < cs.length), P.avg (members data labels j) (members weights labels j) = .ok cs[j]) ∧
        Kmeans.CentersRun P.b P.threads avg' data weights labels P.k (.ok cs)) ∨
      ∃ x, o = .ok (.error x) ∧ ThrownBy P.dist P.avg data weights x := by
    intro labels o hl hc
    rcases centers_spec P hE hc (by omega) hkI hth hl hw with h | ⟨x, j, h1, h2⟩
    · exact .inl h
    · exact .inr ⟨x, h1, .average members_mem members_mem (hlenm _ _ hl.1) h2⟩
  have hass : ∀ {labels : List Int} {cs : List A} {o : Res (Except ε (List Int))}, IsLabelling data P.k labels → (cs.length : Int) = P.k →
      (∀ (j : Nat) (h : j < cs.length), P.avg (members data labels j) (members weights labels j) = .ok cs[j]) → AssignRun P data cs o →
      (∃ new, o = .ok (.ok new) ∧ IsLabelling data P.k new ∧
        (∀ (i : Nat) (h : i < data.length) (h' : i < new.length), IsNearest P.dist cs data[i] new[i]) ∧
        Kmeans.AssignRun P.ps P.b P.threads d' data cs (.ok new)) ∨
      ∃ x, o = .ok (.error x) ∧ ThrownBy P.dist P.avg data weights x := by
    intro labels cs o hl hcl hav ha
    rcases assign_spec P hE hps ha hI hth (by rintro rfl; simp at hcl; omega) (by omega) with ⟨new, h1, h2, h3, h4⟩ | ⟨x, h1, c, hc, y, hy, h2⟩
    · exact .inl ⟨new, h1, labelling_of hcl h2 h3, h3, assign_plain P hI hth h2 h4⟩
    · obtain ⟨j, hj, rfl⟩ := List.getElem_of_mem hc
      exact .inr ⟨x, h1, .distFromCentre members_mem members_mem (hlenm _ _ hl.1) (hav j hj) hy h2⟩
  induction h with
  | @stop labels new cs hc ha h =>
    rcases hcen hl hc with ⟨cs', e, c1, c2, c3⟩ | ⟨x, e, -⟩ <;> cases e
    rcases hass hl c1 c2 ha with ⟨new', e, a1, a2, a3⟩ | ⟨x, e, -⟩ <;> cases e
    have := converged_true h
    subst this
    exact .inl ⟨_, rfl, hl, ⟨cs, by omega, c2, a2⟩, .stop c3 a3 h⟩
  | @next labels new cs r hc ha h hr ih =>
    rcases hcen hl hc with ⟨cs', e, c1, c2, c3⟩ | ⟨x, e, -⟩ <;> cases e
    rcases hass hl c1 c2 ha with ⟨new', e, a1, a2, a3⟩ | ⟨x, e, -⟩ <;> cases e
    rcases ih a1 with ⟨out, k1, k2, k3, k4⟩ | h'
    · exact .inl ⟨out, k1, k2, k3, .next c3 a3 h k4⟩
    · exact .inr h'
  | @sizes labels new cs e hc ha h =>
    rcases hcen hl hc with ⟨cs', e, c1, c2, c3⟩ | ⟨x, e, -⟩ <;> cases e
    rcases hass hl c1 c2 ha with ⟨new', e, a1, a2, a3⟩ | ⟨x, e, -⟩ <;> cases e
    unfold converged at h
    rw [if_pos (by rw [hl.1, a1.1])] at h
    cases h
  | @centers labels o r hc hlv =>
    rcases hcen hl hc with ⟨cs', rfl, -⟩ | ⟨x, rfl, hx⟩
    · exact hlv.elim
    · exact .inr ⟨x, hlv, hx⟩
  | @assign labels cs o r hc ha hlv =>
    rcases hcen hl hc with ⟨cs', e, c1, c2, c3⟩ | ⟨x, e, -⟩ <;> cases e
    rcases hass hl c1 c2 ha with ⟨new', rfl, -⟩ | ⟨x, rfl, hx⟩
    · exact hlv.elim
    · exact .inr ⟨x, hlv, hx⟩

/-- Where a list of centres comes from. -/
def Origin (avg : List A → List W → Except ε A) (data : List A) (weights : List W) (c : A) : Prop :=
  c ∈ data ∨ ∃ xs ws, (∀ a ∈ xs, a ∈ data) ∧ (∀ w ∈ ws, w ∈ weights) ∧ xs.length = ws.length ∧ avg xs ws = .ok c

theorem fromCenters_spec (P : Args A W D ε) (hE : Extends P d' avg') (hps : LawfulPartialSort P.ps) {data : List A} {weights : List W} (hI : InI64 data.length)
    (hth : InI64 P.threads) (hk : 0 < P.k) (hk2 : P.k ≤ 2147483647) (hw : data.length ≤ weights.length) {cs : List A}
    {r : Res (Except ε (List Int))} (h : FromCenters P data weights cs r) (hcs : (cs.length : Int) = P.k)
    (ho : ∀ c ∈ cs, Origin P.avg data weights c) :
    (∃ out, r = .ok (.ok out) ∧ IsLabelling data P.k out ∧ IsStable P.dist P.avg data weights P.k.toNat out ∧
      (∀ c ∈ cs, ∀ y ∈ data, Returns (P.dist c y)) ∧ Kmeans.FromCenters (withFunctions P d' avg') data weights cs (.ok out)) ∨
    ∃ x, r = .ok (.error x) ∧ ThrownBy P.dist P.avg data weights x := by
  unfold FromCenters at h
  rw [if_neg (by omega)] at h
  have hass : ∀ {o : Res (Except ε (List Int))}, AssignRun P data cs o →
      (∃ new, o = .ok (.ok new) ∧ IsLabelling data P.k new ∧ (∀ c ∈ cs, ∀ y ∈ data, Returns (P.dist c y)) ∧
        Kmeans.AssignRun P.ps P.b P.threads d' data cs (.ok new)) ∨
      ∃ x, o = .ok (.error x) ∧ ThrownBy P.dist P.avg data weights x := by
    intro o ha
    rcases assign_spec P hE hps ha hI hth (by rintro rfl; simp at hcs; omega) (by omega) with ⟨new, h1, h2, h3, h4⟩ | ⟨x, h1, c, hc, y, hy, h2⟩
    · refine .inl ⟨new, h1, labelling_of hcs h2 h3, fun c hc y hy => ?_, assign_plain P hI hth h2 h4⟩
      obtain ⟨i, hi, rfl⟩ := List.getElem_of_mem hy
      obtain ⟨j, hj, rfl⟩ := List.getElem_of_mem hc
      obtain ⟨-, -, v, -, hv⟩ := h3 i hi (by omega)
      obtain ⟨v', hv', -⟩ := hv j hj
      exact ⟨v', hv'⟩
    · rcases ho c hc with h | ⟨xs, ws, g1, g2, g3, g4⟩
      · exact .inr ⟨x, h1, .distFromDatum h hy h2⟩
      · exact .inr ⟨x, h1, .distFromCentre g1 g2 g3 g4 hy h2⟩
  rcases h with ⟨labels, ha, hr⟩ | ⟨o, ha, hlv⟩
  · rcases hass ha with ⟨new, e, a1, ar, a2⟩ | ⟨x, e, -⟩ <;> cases e
    rcases iterate_spec P hE hps hI hth hk hk2 hw hr a1 with ⟨out, k1, k2, k3, k4⟩ | h
    · exact .inl ⟨out, k1, k2, k3, ar, .run hcs a2 k4⟩
    · exact .inr h
  · rcases hass ha with ⟨new, rfl, -⟩ | ⟨x, rfl, hx⟩
    · exact hlv.elim
    · exact .inr ⟨x, hlv, hx⟩

theorem gather_mem {X : Type} (data : List X) : ∀ (l : List Nat) (cs : List X), gather data l = .ok cs → ∀ c ∈ cs, c ∈ data
  | [], cs, h => by cases h; simp
  | i :: is, cs, h => by
    simp only [gather] at h
    obtain ⟨x, hx, h⟩ := Res.bind_eq_ok.mp h
    obtain ⟨rest, hr, h⟩ := Res.bind_eq_ok.mp h
    cases h
    intro c hc
    rcases List.mem_cons.mp hc with rfl | hc
    · unfold atRaw at hx
      split at hx
      · rename_i y hy; cases hx; exact List.mem_of_getElem? hy
      · cases hx
    · exact gather_mem data is rest hr c hc

theorem gatherChecked_mem {X : Type} (data : List X) : ∀ (l : List Nat) (cs : List X), gatherChecked data l = .ok cs → ∀ c ∈ cs, c ∈ data
  | [], cs, h => by cases h; simp
  | i :: is, cs, h => by
    simp only [gatherChecked] at h
    obtain ⟨x, hx, h⟩ := Res.bind_eq_ok.mp h
    obtain ⟨rest, hr, h⟩ := Res.bind_eq_ok.mp h
    cases h
    intro c hc
    rcases List.mem_cons.mp hc with rfl | hc
    · obtain ⟨hi, rfl⟩ := atChecked_inv hx
      exact List.getElem_mem _
    · exact gatherChecked_mem data is rest hr c hc

theorem plain_spec (P : Args A W D ε) (hE : Extends P d' avg') (hps : LawfulPartialSort P.ps) {data : List A} {weights : List W} (hI : InI64 data.length)
    (hth : InI64 P.threads) (hk : 0 < P.k) (hk2 : P.k ≤ 2147483647) (hw : data.length ≤ weights.length)
    {r : Res (Except ε (List Int))} (h : PlainRun P data weights r) :
    (∃ out, r = .ok (.ok out) ∧ IsLabelling data P.k out ∧
      (data ≠ [] → P.k ≠ 1 → IsStable P.dist P.avg data weights P.k.toNat out ∧ Started P data data) ∧ Kmeans.PlainRun (withFunctions P d' avg') data weights (.ok out)) ∨
    ∃ x, r = .ok (.error x) ∧ ThrownBy P.dist P.avg data weights x := by
  unfold PlainRun at h
  split at h
  · rename_i h0
    have : data = [] := List.length_eq_zero_iff.mp h0
    subst this
    exact .inl ⟨_, h, ⟨rfl, by simp⟩, fun h => absurd rfl h, .empty rfl⟩
  rename_i h0
  have hne : data ≠ [] := fun e => h0 (by rw [e]; rfl)
  split at h
  · rename_i h1
    refine .inl ⟨_, h, ⟨by simp, fun l hl => ?_⟩, fun _ h => absurd h1 h, .one hne h1⟩
    have := (List.mem_replicate.mp hl).2
    omega
  rename_i h1
  rw [if_neg (by omega), if_neg (by omega)] at h
  obtain ⟨picked, cs, hp, hg, hr⟩ := h
  have hcl := gather_length _ _ _ hg
  rcases fromCenters_spec P hE hps hI hth hk hk2 hw hr (by have := hp.2.2; omega) (fun c hc => .inl (gather_mem _ _ _ hg c hc)) with
    ⟨out, k1, k2, k3, kr, k4⟩ | h
  · refine .inl ⟨out, k1, k2, fun _ _ => ⟨k3, ?_⟩, .run hne (show 1 < P.k by omega) hp hg k4⟩
    cases cs with
    | nil => have := hp.2.2; simp at hcl; omega
    | cons c cs => exact ⟨c, gather_mem _ _ _ hg c (by simp), fun y hy => kr c (by simp) y hy⟩
  · exact .inr h

theorem ThrownBy.mono {dist : A → A → Except ε D} {avg : List A → List W → Except ε A} {data data' : List A} {weights weights' : List W} {x : ε}
    (h : ThrownBy dist avg data weights x) (hd : ∀ a ∈ data, a ∈ data') (hw : ∀ w ∈ weights, w ∈ weights') :
    ThrownBy dist avg data' weights' x := by
  cases h with
  | distFromDatum hc hy h => exact .distFromDatum (hd _ hc) (hd _ hy) h
  | distFromCentre hxs hws hl hc hy h => exact .distFromCentre (fun a ha => hd _ (hxs a ha)) (fun a ha => hw _ (hws a ha)) hl hc (hd _ hy) h
  | average hxs hws hl h => exact .average (fun a ha => hd _ (hxs a ha)) (fun a ha => hw _ (hws a ha)) hl h

theorem cluster_spec (P : Args A W D ε) (hE : Extends P d' avg') (hps : LawfulPartialSort P.ps) (data : List A) (weights : List W) (prelim : Bool)
    (hI : InI64 data.length) (hth : InI64 P.threads) (hk : 0 < P.k) (hk2 : P.k ≤ 2147483647) (hk5 : prelim = true → P.k * 5 ≤ 2147483647)
    (hw : data.length ≤ weights.length) (r : Res (Except ε (List Int))) (h : ClusterRun P data weights prelim r) :
    (∃ out, r = .ok (.ok out) ∧ IsLabelling data P.k out ∧
      (data ≠ [] → P.k ≠ 1 → IsStable P.dist P.avg data weights P.k.toNat out ∧
        ∃ sub, (∀ y ∈ sub, y ∈ data) ∧ (prelim = false → sub = data) ∧ Started P data sub) ∧ Kmeans.ClusterRun (withFunctions P d' avg') data weights prelim (.ok out)) ∨
    ∃ x, r = .ok (.error x) ∧ ThrownBy P.dist P.avg data weights x := by
  unfold ClusterRun at h
  split at h
  · rename_i hc
    rcases plain_spec P hE hps hI hth hk hk2 hw h with ⟨out, k1, k2, k3, k4⟩ | h
    · refine .inl ⟨out, k1, k2, fun h1 h2 => ⟨(k3 h1 h2).1, data, fun _ h => h, fun _ => rfl, (k3 h1 h2).2⟩, ?_⟩
      rcases hc with hc | hc | hc | hc
      · exact .early (.inl (List.length_eq_zero_iff.mp hc)) k4
      · exact .early (.inr (.inl hc)) k4
      · exact .early (.inr (.inr hc)) k4
      · exact .plain (.inl hc) k4
    · exact .inr h
  rename_i hc
  have hpt : prelim = true := by
    cases hp : prelim with
    | true => rfl
    | false => exact absurd (.inr (.inr (.inr hp))) hc
  have h0 : data ≠ [] ∧ P.k ≠ 1 ∧ P.k ≠ 0 :=
    ⟨fun e => hc (.inl (by rw [e]; rfl)), fun e => hc (.inr (.inl e)), fun e => hc (.inr (.inr (.inl e)))⟩
  have hen : prelimEnabled data.length P.k = .ok (decide ((subsetSize data.length : Int) ≥ P.k * 5)) := by
    unfold prelimEnabled
    rw [if_pos ⟨by omega, hk5 hpt⟩]
  by_cases hb : (subsetSize data.length : Int) ≥ P.k * 5
  · rw [decide_eq_true hb] at hen
    rw [hen] at h
    dsimp only at h
    obtain ⟨picked, hp, h⟩ := h
    obtain ⟨sub, e1, l1⟩ := gatherChecked_ok data picked hp.2.1
    obtain ⟨subW, e2, l2⟩ := gatherChecked_ok weights picked (fun i hi => lt_of_lt_of_le (hp.2.1 i hi) hw)
    rw [e1, e2] at h
    dsimp only at h
    have m1 := gatherChecked_mem _ _ _ e1
    have m2 := gatherChecked_mem _ _ _ e2
    have hIs : InI64 sub.length := by
      have h3 := hp.2.2
      have : subsetSize data.length ≤ data.length := by unfold subsetSize; rcases data with _ | _ <;> simp; omega
      unfold InI64 at *
      omega
    have hkI : InI64 P.k := by unfold InI64; omega
    rcases h with ⟨l, hs, h⟩ | ⟨o, hs, hlv⟩
    · rcases plain_spec P hE hps hIs hth hk hk2 (by omega) hs with ⟨out, k1, k2, k3, k4⟩ | ⟨x, e, -⟩
      rotate_left
      · cases e
      cases k1
      have hst : Started P data sub := by
        obtain ⟨c, hc, h⟩ := (k3 (fun e => by rw [e] at l1; have := hp.2.2; simp at l1; omega) h0.2.1).2
        exact ⟨c, m1 c hc, h⟩
      rcases h with ⟨cs, hcs, hr⟩ | ⟨o, hcs, hlv⟩
      · rcases centers_spec P hE hcs (by omega) hkI hth k2 (by omega) with ⟨cs', e, c1, c2, c3⟩ | ⟨x, j, e, -⟩ <;> cases e
        rcases fromCenters_spec P hE hps hI hth hk hk2 hw hr c1 (fun c hc => by
          obtain ⟨j, hj, rfl⟩ := List.getElem_of_mem hc
          exact .inr ⟨_, _, fun a ha => m1 a (members_mem a ha), fun a ha => m2 a (members_mem a ha), by
            rw [members_length sub l j (by rw [k2.1]), members_length subW l j (by rw [k2.1]; omega)], c2 j hj⟩) with ⟨out, f1, f2, f3, -, f4⟩ | h
        · exact .inl ⟨out, f1, f2, fun _ _ => ⟨f3, sub, m1, fun h => by rw [hpt] at h; (cases h), hst⟩, .prelim hpt h0 hen hp e1 e2 k4 c3 f4⟩
        · exact .inr h
      · rcases centers_spec P hE hcs (by omega) hkI hth k2 (by omega) with ⟨cs', rfl, -⟩ | ⟨x, j, rfl, hx⟩
        · exact hlv.elim
        · exact .inr ⟨x, hlv, .average (fun a ha => m1 a (members_mem a ha)) (fun a ha => m2 a (members_mem a ha)) (by
            rw [members_length sub l j (by rw [k2.1]), members_length subW l j (by rw [k2.1]; omega)]) hx⟩
    · rcases plain_spec P hE hps hIs hth hk hk2 (by omega) hs with ⟨out, rfl, -⟩ | ⟨x, rfl, hx⟩
      · exact hlv.elim
      · exact .inr ⟨x, hlv, hx.mono m1 m2⟩
  · rw [decide_eq_false hb] at hen
    rw [hen] at h
    dsimp only at h
    rcases plain_spec P hE hps hI hth hk hk2 hw h with ⟨out, k1, k2, k3, k4⟩ | h
    · exact .inl ⟨out, k1, k2, fun h1 h2 => ⟨(k3 h1 h2).1, data, fun _ h => h, fun _ => rfl, (k3 h1 h2).2⟩, .plain (.inr hen) k4⟩
    · exact .inr h

/-! ### Theorems -/

/-- C112: the outcomes of a call with valid arguments (a positive number of clusters, below 2^31 / 5 with preliminary clustering, and a weight per
datum), whatever the draws, threads and schedules: labels, or an exception that one of the two functions threw in the course of the call. -/
theorem C112_outcomes (P : Args A W D ε) [Zero D] (hps : LawfulPartialSort P.ps) (data : List A) (weights : List W) (prelim : Bool)
    (hI : InI64 data.length) (hth : InI64 P.threads) (hk : 0 < P.k) (hk2 : P.k ≤ 2147483647) (hk5 : prelim = true → P.k * 5 ≤ 2147483647)
    (hw : data.length ≤ weights.length) (r : Res (Except ε (List Int))) (h : ClusterRun P data weights prelim r) :
    (∃ out, r = .ok (.ok out)) ∨ ∃ x, r = .ok (.error x) ∧ ThrownBy P.dist P.avg data weights x := by
  have hE : Extends P (total P.dist) (fun xs ws => match P.avg xs ws with | .ok c => .ok c | .error _ => .throw .runtimeError) :=
    ⟨fun a b v hv => by simp only [total, hv], fun xs ws c hc => by simp only [hc]⟩
  rcases cluster_spec P hE hps data weights prelim hI hth hk hk2 hk5 hw r h with ⟨out, h, -⟩ | h
  · exact .inl ⟨out, h⟩
  · exact .inr h

/-- C112: labels that are returned are a labelling, and for more than one cluster a stable one: the averaging function answered for each of the
clusters, the distance function answered for each of these centres and each datum, and every label is that of a nearest centre. Neither were
exceptions swallowed at the start: the distance function answered for one of the first centres and all data (for all data of a subset, with
preliminary clustering). -/
theorem C112_labels (P : Args A W D ε) [Zero D] (hps : LawfulPartialSort P.ps) (data : List A) (weights : List W) (prelim : Bool)
    (hI : InI64 data.length) (hth : InI64 P.threads) (hk : 0 < P.k) (hk2 : P.k ≤ 2147483647) (hk5 : prelim = true → P.k * 5 ≤ 2147483647)
    (hw : data.length ≤ weights.length) (out : List Int) (h : ClusterRun P data weights prelim (.ok (.ok out))) :
    IsLabelling data P.k out ∧ (data ≠ [] → P.k ≠ 1 → IsStable P.dist P.avg data weights P.k.toNat out ∧
      ∃ sub, (∀ y ∈ sub, y ∈ data) ∧ (prelim = false → sub = data) ∧ Started P data sub) := by
  have hE : Extends P (total P.dist) (fun xs ws => match P.avg xs ws with | .ok c => .ok c | .error _ => .throw .runtimeError) :=
    ⟨fun a b v hv => by simp only [total, hv], fun xs ws c hc => by simp only [hc]⟩
  rcases cluster_spec P hE hps data weights prelim hI hth hk hk2 hk5 hw _ h with ⟨out', h1, h2, h3, -⟩ | ⟨x, h1, -⟩ <;> cases h1
  exact ⟨h2, h3⟩

/-- C112: labels that are returned are labels that the call returns (in the model of C32) with any other functions that give the same answers where
these give one: what the functions would have answered where they throw has no influence. -/
theorem C112_as_without (P : Args A W D ε) (hps : LawfulPartialSort P.ps) (data : List A) (weights : List W) (prelim : Bool)
    (hI : InI64 data.length) (hth : InI64 P.threads) (hk : 0 < P.k) (hk2 : P.k ≤ 2147483647) (hk5 : prelim = true → P.k * 5 ≤ 2147483647)
    (hw : data.length ≤ weights.length) (out : List Int) (h : ClusterRun P data weights prelim (.ok (.ok out)))
    (d' : A → A → D) (avg' : List A → List W → Res A) (hE : Extends P d' avg') :
    Kmeans.ClusterRun (withFunctions P d' avg') data weights prelim (.ok out) := by
  rcases cluster_spec P hE hps data weights prelim hI hth hk hk2 hk5 hw _ h with ⟨out', h1, -, -, h4⟩ | ⟨x, h1, -⟩ <;> cases h1
  exact h4

/-- C112: functions that never throw. -/
theorem C112_nothing_thrown (P : Args A W D ε) [Zero D] (hps : LawfulPartialSort P.ps) (data : List A) (weights : List W) (prelim : Bool)
    (hI : InI64 data.length) (hth : InI64 P.threads) (hk : 0 < P.k) (hk2 : P.k ≤ 2147483647) (hk5 : prelim = true → P.k * 5 ≤ 2147483647)
    (hw : data.length ≤ weights.length) (hd : ∀ c y, ∃ v, P.dist c y = .ok v) (ha : ∀ xs ws, ∃ c, P.avg xs ws = .ok c)
    (r : Res (Except ε (List Int))) (h : ClusterRun P data weights prelim r) : ∃ out, r = .ok (.ok out) := by
  rcases C112_outcomes P hps data weights prelim hI hth hk hk2 hk5 hw r h with h | ⟨x, -, h⟩
  · exact h
  · exfalso
    cases h with
    | @distFromDatum c y _ _ h => obtain ⟨v, hv⟩ := hd c y; rw [hv] at h; cases h
    | @distFromCentre c y _ _ _ _ _ _ _ h => obtain ⟨v, hv⟩ := hd c y; rw [hv] at h; cases h
    | @average xs ws _ _ _ h => obtain ⟨v, hv⟩ := ha xs ws; rw [hv] at h; cases h

end Order

section Ends
variable {K : Type} [Field K] [LinearOrder K] [IsStrictOrderedRing K] [Inhabited A]

/-- One pass of the loop that does not end it. -/
def Pass (P : Args A K K ε) (data : List A) (weights : List K) (cs : List A) (labels new : List Int) : Prop :=
  CentersRun P data weights labels (.ok (.ok cs)) ∧ AssignRun P data cs (.ok (.ok new)) ∧ converged labels new = .ok false

theorem centers_exists (P : Args A W D ε) (data : List A) (weights : List W) (labels : List Int) (hk : InI64 P.k) (hth : InI64 P.threads) :
    ∃ r, CentersRun P data weights labels r := by
  unfold CentersRun
  split
  · exact ⟨_, rfl⟩
  · split
    · exact ⟨_, rfl⟩
    · split
      · exact ⟨_, rfl⟩
      · exact ⟨_, rfl⟩
      · exact fill_exists _ _ _ _ _ (by omega) hk hth

/-- C112: exceptions do not make the loop run for ever: if the answers of the functions are those of a distance and a strict mean, there is no
infinite sequence of passes from a labelling, and the call has an outcome. -/
theorem C112_ends (P : Args A K K ε) (hps : LawfulPartialSort P.ps) (data : List A) (weights : List K) (d' : A → A → K)
    (avg' : List A → List K → Res A) (hE : Extends P d' avg') (hm : IsMean d' avg') (hwl : weights.length = data.length) (hw : ∀ w ∈ weights, 0 < w)
    (hI : InI64 data.length) (hth : InI64 P.threads) (hk : 0 < P.k) (hk2 : P.k ≤ 2147483647) :
    (¬ ∃ (labels : Nat → List Int) (cs : Nat → List A), IsLabelling data P.k (labels 0) ∧
      ∀ t, Pass P data weights (cs t) (labels t) (labels (t + 1))) ∧
    (P.k ≤ data.length → ∃ r, ClusterRun P data weights false r) := by
  have hkI : InI64 P.k := by unfold InI64; omega
  have hpass : ∀ {cs : List A} {l new : List Int}, IsLabelling data P.k l → Pass P data weights cs l new → IsLabelling data P.k new ∧
      Kmeans.Pass (withFunctions P d' avg') data weights cs l new := by
    rintro cs l new hl ⟨hc, ha, hcv⟩
    rcases centers_spec P hE hc (by omega) hkI hth hl (by omega) with ⟨cs', e, c1, c2, c3⟩ | ⟨x, j, e, -⟩ <;> cases e
    rcases assign_spec P hE hps ha hI hth (by rintro rfl; simp at c1; omega) (by omega) with ⟨new', e, h2, h3, h4⟩ | ⟨x, e, -⟩ <;> cases e
    exact ⟨labelling_of c1 h2 h3, c3, assign_plain P hI hth h2 h4, hcv⟩
  have hterm : ¬ ∃ (labels : Nat → List Int) (cs : Nat → List A), IsLabelling data P.k (labels 0) ∧
      ∀ t, Pass P data weights (cs t) (labels t) (labels (t + 1)) := by
    rintro ⟨f, cs, h0, hf⟩
    have hall : ∀ t, IsLabelling data P.k (f t) := by
      intro t
      induction t with
      | zero => exact h0
      | succ t ih => exact (hpass ih (hf t)).1
    exact C32_terminates (withFunctions P d' avg') hps data weights hm hwl hw hI hth hk hk2 ⟨f, cs, fun t => (hpass (hall t) (hf t)).2⟩
  refine ⟨hterm, fun hkn => ?_⟩
  have hit : ∀ labels, IsLabelling data P.k labels → ∃ r, Iterate P data weights labels r := by
    by_contra hno
    push Not at hno
    obtain ⟨l0, hl0, h0⟩ := hno
    have hnext : ∀ l : {l : List Int // IsLabelling data P.k l ∧ ∀ r, ¬ Iterate P data weights l r}, ∃ (cs : List A)
        (l' : {l : List Int // IsLabelling data P.k l ∧ ∀ r, ¬ Iterate P data weights l r}), Pass P data weights cs l.1 l'.1 := by
      rintro ⟨l, hlab, hl⟩
      obtain ⟨rc, hc⟩ := centers_exists P data weights l hkI hth
      match rc, hc with
      | .throw e, hc => exact absurd (Iterate.centers (r := .throw e) hc rfl) (hl _)
      | .ub, hc => exact absurd (Iterate.centers (r := .ub) hc rfl) (hl _)
      | .ok (.error x), hc => exact absurd (Iterate.centers (r := .ok (.error x)) hc rfl) (hl _)
      | .ok (.ok cs), hc =>
        obtain ⟨ra, ha⟩ : ∃ r, AssignRun P data cs r := fill_exists _ _ _ _ _ (by omega) hI hth
        match ra, ha with
        | .throw e, ha => exact absurd (Iterate.assign (r := .throw e) hc ha rfl) (hl _)
        | .ub, ha => exact absurd (Iterate.assign (r := .ub) hc ha rfl) (hl _)
        | .ok (.error x), ha => exact absurd (Iterate.assign (r := .ok (.error x)) hc ha rfl) (hl _)
        | .ok (.ok new), ha =>
          match hcv : converged l new with
          | .throw e => exact absurd (Iterate.sizes hc ha hcv) (hl _)
          | .ub => unfold converged at hcv; split at hcv <;> cases hcv
          | .ok true => exact absurd (Iterate.stop hc ha hcv) (hl _)
          | .ok false => exact ⟨cs, ⟨new, (hpass hlab ⟨hc, ha, hcv⟩).1, fun r hr => hl r (Iterate.next hc ha hcv hr)⟩, hc, ha, hcv⟩
    choose cs nx hnx using hnext
    let seq : Nat → {l : List Int // IsLabelling data P.k l ∧ ∀ r, ¬ Iterate P data weights l r} := fun t => Nat.rec ⟨l0, hl0, h0⟩ (fun _ l => nx l) t
    exact hterm ⟨fun t => (seq t).1, fun t => cs (seq t), hl0, fun t => hnx (seq t)⟩
  have hg : ∀ l : List Nat, (∀ i ∈ l, i < data.length) → ∃ cs, gather data l = .ok cs ∧ cs.length = l.length := by
    intro l
    induction l with
    | nil => intro _; exact ⟨[], rfl, rfl⟩
    | cons i is ih =>
      intro h
      obtain ⟨cs, e, el⟩ := ih (fun j hj => h j (by simp [hj]))
      refine ⟨data[i]'(h i (by simp)) :: cs, ?_, by simp [el]⟩
      simp only [gather, atRaw, List.getElem?_eq_getElem (h i (by simp)), Res.ok_bind, e, Res.pure_eq]
  suffices h : ∃ r, PlainRun P data weights r by
    obtain ⟨r, hr⟩ := h
    refine ⟨r, ?_⟩
    unfold ClusterRun
    rw [if_pos (.inr (.inr (.inr rfl)))]
    exact hr
  unfold PlainRun
  by_cases h1 : P.k = 1
  · simp only [if_neg (show ¬ data.length = 0 by omega), if_pos h1]
    exact ⟨_, rfl⟩
  simp only [if_neg (show ¬ data.length = 0 by omega), if_neg h1, if_neg (show ¬ P.k = 0 by omega), if_neg (show ¬ P.k < 0 by omega)]
  obtain ⟨cs, hg, hcl⟩ := hg (List.range P.k.toNat) (fun i hi => by have := List.mem_range.mp hi; omega)
  rw [List.length_range] at hcl
  have hfc : ∃ r, FromCenters P data weights cs r := by
    unfold FromCenters
    simp only [if_neg (show ¬ (cs.length : Int) ≠ P.k by omega)]
    obtain ⟨ra, ha⟩ : ∃ r, AssignRun P data cs r := fill_exists _ _ _ _ _ (by omega) hI hth
    rcases assign_spec P hE hps ha hI hth (by rintro rfl; simp at hcl; omega) (by omega) with ⟨new, rfl, h2, h3, h4⟩ | ⟨x, rfl, -⟩
    · obtain ⟨r, hr⟩ := hit new (labelling_of (by omega) h2 h3)
      exact ⟨r, .inl ⟨new, ha, hr⟩⟩
    · exact ⟨.ok (.error x), .inr ⟨_, ha, rfl⟩⟩
  obtain ⟨r, hr⟩ := hfc
  refine ⟨r, List.range P.k.toNat, cs, ⟨List.nodup_range, fun i hi => by have := List.mem_range.mp hi; omega, ?_⟩, hg, hr⟩
  simp only [List.length_range]; omega

end Ends

/-! ### Non-vacuity -/

/-- Squared distance, thrown where the datum is 7. -/
def demoDist (c x : ℚ) : Except String ℚ := if x = 7 then .error "seven" else .ok (sqDist c x)

/-- Weighted mean, throws for an empty cluster. -/
def demoMean (xs ws : List ℚ) : Except String ℚ :=
  match ratMean xs ws with
  | .ok c => .ok c
  | _ => .error "empty"

def demoArgs : Args ℚ ℚ ℚ String := ⟨psSort, .async, 3, demoDist, demoMean, 2⟩

theorem demo_extends : Extends demoArgs sqDist ratMean where
  dist a b v h := by
    simp only [demoArgs, demoDist] at h
    split at h
    · cases h
    · cases h; rfl
  avg xs ws c h := by
    simp only [demoArgs, demoMean] at h
    split at h
    · rename_i h'; cases h; exact h'
    · cases h

/-- A datum is 7: every run throws. -/
example : (∃ r, ClusterRun demoArgs [1, 7, 9, 10] [1, 1, 2, 1] false r) ∧
    ∀ r, ClusterRun demoArgs [1, 7, 9, 10] [1, 1, 2, 1] false r → r = .ok (.error "seven") ∨ r = .ok (.error "empty") := by
  refine ⟨(C112_ends demoArgs psSort_lawful [1, 7, 9, 10] [1, 1, 2, 1] sqDist ratMean demo_extends ratMean_isMean rfl (by simp) (by decide) (by decide) (by decide)
    (by decide)).2 (by decide), fun r hr => ?_⟩
  rcases C112_outcomes demoArgs psSort_lawful _ _ _ (by decide) (by decide) (by decide) (by decide) (by simp) (by simp) r hr with ⟨out, rfl⟩ | ⟨x, rfl, hx⟩
  · exfalso
    obtain ⟨-, h⟩ := C112_labels demoArgs psSort_lawful _ _ _ (by decide) (by decide) (by decide) (by decide) (by simp) (by simp) out hr
    obtain ⟨-, sub, -, hs, c, -, hc⟩ := h (by simp) (by decide)
    obtain ⟨v, hv⟩ := hc 7 (by rw [hs rfl]; simp)
    simp [demoArgs, demoDist] at hv
  · have h1 : ∀ c y, demoDist c y = .error x → x = "seven" := by
      intro c y h
      unfold demoDist at h
      split at h
      · cases h; rfl
      · cases h
    have h2 : ∀ xs ws, demoMean xs ws = .error x → x = "empty" := by
      intro xs ws h
      unfold demoMean at h
      split at h
      · cases h
      · cases h; rfl
    cases hx with
    | distFromDatum _ _ h => left; rw [h1 _ _ h]
    | distFromCentre _ _ _ _ _ h => left; rw [h1 _ _ h]
    | average _ _ _ h => right; rw [h2 _ _ h]

/-- No datum is 7. -/
example : ∃ r, ClusterRun demoArgs [1, 2, 9, 10] [1, 1, 2, 1] false r :=
  (C112_ends demoArgs psSort_lawful [1, 2, 9, 10] [1, 1, 2, 1] sqDist ratMean demo_extends ratMean_isMean rfl (by simp) (by decide) (by decide) (by decide)
    (by decide)).2 (by decide)

end CRU.Kmeans.Throw
