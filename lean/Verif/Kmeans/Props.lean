import Verif.Kmeans.Lemmas
import Mathlib.Algebra.Order.Field.Basic
import Mathlib.Algebra.Order.BigOperators.Group.List
import Mathlib.Data.Set.Finite.List
import Mathlib.Tactic.Ring
import Mathlib.Tactic.Linarith
import Mathlib.Data.Rat.Floor
/-
  C32: K-means clustering.
-/
namespace CRU.Kmeans
open CRU.Parallel CRU.Knn

set_option linter.unusedSectionVars false

variable {A W D : Type} [LinearOrder D] [Inhabited A]

theorem converged_true {old new : List Int} (h : converged old new = .ok true) : old = new := by
  unfold converged at h
  split at h
  · simpa using h
  · cases h

theorem converged_false {old new : List Int} (h : converged old new = .ok false) : old ≠ new := by
  unfold converged at h
  split at h
  · simpa using h
  · cases h

theorem areCenters_ne {avg : List A → List W → Res A} {data : List A} {weights : List W} {labels : List Int} {k : Nat}
    {cs : List A} (h : AreCenters avg data weights labels k cs) (hk : 0 < k) : cs ≠ [] := by
  intro e
  have := h.1
  rw [e] at this
  simp at this
  omega

/-- Outcomes of the loop. -/
theorem iterate_spec (P : Args A W D) (hps : LawfulPartialSort P.ps) {data : List A} {weights : List W} (hI : InI64 data.length)
    (hth : InI64 P.threads) (hk : 0 < P.k) (hk2 : P.k ≤ 2147483647) {labels : List Int} {r : Res (List Int)}
    (h : Iterate P data weights labels r) {out : List Int} (hr : r = .ok out) :
    IsLabelling data P.k out ∧ IsStable P.dist P.avg data weights P.k.toNat out := by
  induction h with
  | @stop labels new cs hc ha hcv =>
    cases hr
    have hkI : InI64 P.k := by unfold InI64; omega
    obtain ⟨h1, h2, _, h4, _⟩ := centers_spec hc hkI hth
    obtain ⟨l, e, h5, h6, _⟩ := assign_spec hps ha hI hth (areCenters_ne h1 (by omega)) (by have := h1.1; omega)
    cases e
    have := converged_true hcv
    subst this
    exact ⟨⟨by omega, h4⟩, cs, h1, h6⟩
  | next _ _ _ _ ih => exact ih hr
  | sizes => cases hr
  | centersThrow => cases hr
  | centersUb => cases hr
  | assignThrow => cases hr
  | assignUb => cases hr

theorem fromCenters_spec (P : Args A W D) (hps : LawfulPartialSort P.ps) {data : List A} {weights : List W}
    (hI : InI64 data.length) (hth : InI64 P.threads) (hk : 0 < P.k) (hk2 : P.k ≤ 2147483647) {cs : List A} {out : List Int}
    (h : FromCenters P data weights cs (.ok out)) :
    IsLabelling data P.k out ∧ IsStable P.dist P.avg data weights P.k.toNat out := by
  cases h with
  | run _ _ hr => exact iterate_spec P hps hI hth hk hk2 hr rfl

theorem plain_spec (P : Args A W D) (hps : LawfulPartialSort P.ps) {data : List A} {weights : List W}
    (hI : InI64 data.length) (hth : InI64 P.threads) (hk2 : P.k ≤ 2147483647) {out : List Int}
    (h : PlainRun P data weights (.ok out)) :
    IsLabelling data P.k out ∧ (data ≠ [] → P.k ≠ 1 → IsStable P.dist P.avg data weights P.k.toNat out) := by
  cases h with
  | empty h => exact ⟨by simp [IsLabelling, h], fun h' => absurd h h'⟩
  | one h hk =>
    refine ⟨⟨by simp, fun l hl => ?_⟩, fun _ h' => absurd hk h'⟩
    have := (List.mem_replicate.mp hl).2
    omega
  | run h hk hp hg hr =>
    obtain ⟨h1, h2⟩ := fromCenters_spec P hps hI hth (by omega) hk2 hr
    exact ⟨h1, fun _ _ => h2⟩

/-- C32: whatever the random draws, the number of threads, the backend and the schedule, a labelling that is returned has one
label in `[0, num_clusters)` per datum, and for more than one cluster it is stable. -/
theorem C32_labels (P : Args A W D) (hps : LawfulPartialSort P.ps) (data : List A) (weights : List W) (prelim : Bool)
    (hI : InI64 data.length) (hth : InI64 P.threads) (hk : P.k ≤ 2147483647) (out : List Int)
    (h : ClusterRun P data weights prelim (.ok out)) :
    IsLabelling data P.k out ∧ (data ≠ [] → P.k ≠ 1 → IsStable P.dist P.avg data weights P.k.toNat out) := by
  cases h with
  | early _ hr => exact plain_spec P hps hI hth hk hr
  | plain _ hr => exact plain_spec P hps hI hth hk hr
  | prelim hp hn he hpk hg hw hs hc hr =>
    have hk0 : 0 < P.k := by
      by_contra hc0
      unfold CentersRun at hc
      split at hc
      · cases hc
      · split at hc
        · cases hc
        · exact hn.2.2 (by omega)
    obtain ⟨h1, h2⟩ := fromCenters_spec P hps hI hth hk0 hk hr
    exact ⟨h1, fun _ _ => h2⟩

/-- C32: for non-empty data, no clusters throw `invalid_argument`, a negative number never returns, and with more clusters than data
the call does not end (there is no outcome). -/
theorem C32_bad_cluster_counts (P : Args A W D) (data : List A) (weights : List W) (prelim : Bool)
    (hne : data ≠ []) (r : Res (List Int)) (h : ClusterRun P data weights prelim r) :
    (P.k = 0 → r = .throw .invalidArgument) ∧ (P.k < 0 → ∀ out, r ≠ .ok out) ∧
      ((data.length : Int) < P.k → P.k ≠ 1 → P.k * 5 ≤ 2147483647 → False) := by
  have hpl : ∀ {d : List A} {w : List W} {r : Res (List Int)}, d ≠ [] → PlainRun P d w r →
      (P.k = 0 → r = .throw .invalidArgument) ∧ (P.k < 0 → ∀ out, r ≠ .ok out) ∧ ((d.length : Int) < P.k → P.k = 1) := by
    intro d w r hd h
    cases h with
    | empty h => exact absurd h hd
    | one h hk => exact ⟨by omega, by omega, fun _ => hk⟩
    | zero h hk => exact ⟨fun _ => rfl, by omega, by omega⟩
    | negative h hk => exact ⟨by omega, fun _ _ e => by (cases e), by omega⟩
    | @run picked cs r h hk hp hg hr =>
      refine ⟨by omega, by omega, fun hlt => ?_⟩
      exfalso
      have hsub : picked ⊆ List.range d.length := fun i hi => List.mem_range.mpr (hp.2.1 i hi)
      have := (List.Nodup.subperm hp.1 hsub).length_le
      have := hp.2.2
      simp only [List.length_range] at *
      omega
  have hlen : 0 < data.length := List.length_pos_iff.mpr hne
  have hen : prelimEnabled data.length P.k = .ok true → (data.length : Int) < P.k → False := by
    intro he hlt
    unfold prelimEnabled at he
    split at he
    · simp only [Res.ok.injEq, decide_eq_true_eq] at he
      unfold subsetSize at he
      omega
    · cases he
  cases h with
  | early _ hr =>
    obtain ⟨h1, h2, h3⟩ := hpl hne hr
    exact ⟨h1, h2, fun h4 h5 _ => h5 (h3 h4)⟩
  | plain _ hr =>
    obtain ⟨h1, h2, h3⟩ := hpl hne hr
    exact ⟨h1, h2, fun h4 h5 _ => h5 (h3 h4)⟩
  | overflow _ hn he =>
    refine ⟨fun h => absurd h hn.2.2, fun _ _ e => by (cases e), fun h1 _ h3 => ?_⟩
    unfold prelimEnabled at he
    rw [if_pos (by omega)] at he
    cases he
  | weightsThrow _ hn he => exact ⟨fun h => absurd h hn.2.2, fun _ _ e => by (cases e), fun h _ _ => hen he h⟩
  | subThrow _ hn he => exact ⟨fun h => absurd h hn.2.2, fun _ _ e => by (cases e), fun h _ _ => hen he h⟩
  | centersThrow _ hn he => exact ⟨fun h => absurd h hn.2.2, fun _ _ e => by (cases e), fun h _ _ => hen he h⟩
  | subUb _ hn he => exact ⟨fun h => absurd h hn.2.2, fun _ _ e => by (cases e), fun h _ _ => hen he h⟩
  | prelim hp hn he hpk hg hw hs hc hr =>
    refine ⟨fun h => absurd h hn.2.2, fun hneg _ e => ?_, fun h _ _ => hen he h⟩
    unfold CentersRun at hc
    split at hc
    · cases hc
    · cases hc

/-- C32: one assignment step has the same result under every backend, thread count and schedule. -/
theorem C32_schedule_independent {ps : Nat → List (Entry D) → List (Entry D)} (hps : LawfulPartialSort ps) (b b' : Backend)
    (threads threads' : Int) (dist : A → A → D) (data centers : List A) (r r' : Res (List Int)) (hI : InI64 data.length)
    (hth : InI64 threads) (hth' : InI64 threads') (hc : centers ≠ []) (hlen : (centers.length : Int) ≤ 2147483647)
    (h : AssignRun ps b threads dist data centers r) (h' : AssignRun ps b' threads' dist data centers r') : r = r' := by
  obtain ⟨l, rfl, h1, _, h2⟩ := assign_spec hps h hI hth hc hlen
  obtain ⟨l', rfl, h1', _, h2'⟩ := assign_spec hps h' hI hth' hc hlen
  congr 1
  apply List.ext_getElem (by omega)
  intro i h3 h4
  have := (h2 i h3).symm.trans (h2' i h4)
  simpa using this

/-! ### Termination -/

section Termination
variable {K : Type} [Field K] [LinearOrder K] [IsStrictOrderedRing K]

/-- Weighted sum of the distances from `c` to the elements `xs`. -/
def objective (dist : A → A → K) (xs : List A) (ws : List K) (c : A) : K :=
  ((xs.zip ws).map fun p => p.2 * dist c p.1).sum

/-- The averaging function returns, for non-empty collections with positive weights, the unique minimiser of the weighted sum of
distances (the weighted mean, for squared Euclidean distances), and does not return for empty ones. -/
structure IsMean (dist : A → A → K) (avg : List A → List K → Res A) : Prop where
  empty : ∀ c, avg [] [] ≠ .ok c
  minimal : ∀ xs ws c, xs ≠ [] → xs.length = ws.length → (∀ w ∈ ws, 0 < w) → avg xs ws = .ok c →
    ∀ c', c' ≠ c → objective dist xs ws c < objective dist xs ws c'

/-- Cost of a labelling with given centres, over the list of (datum, weight, label). -/
def cost (dist : A → A → K) (T : List (A × K × Int)) (c : Int → A) : K :=
  (T.map fun t => t.2.1 * dist (c t.2.2) t.1).sum

theorem cost_nil (dist : A → A → K) (c : Int → A) : cost dist [] c = 0 := rfl

theorem cost_cons (dist : A → A → K) (t : A × K × Int) (T : List (A × K × Int)) (c : Int → A) :
    cost dist (t :: T) c = t.2.1 * dist (c t.2.2) t.1 + cost dist T c := by simp [cost]

/-- The part of the cost due to cluster `j`. -/
theorem cost_filter (dist : A → A → K) : ∀ (data : List A) (weights : List K) (labels : List Int) (c : Int → A) (j : Int),
    data.length = labels.length → weights.length = labels.length →
    cost dist ((data.zip (weights.zip labels)).filter fun t => t.2.2 = j) c =
      objective dist (members data labels j) (members weights labels j) (c j)
  | [], _, labels, c, j, h, h' => by
    have : labels = [] := List.length_eq_zero_iff.mp (by simpa using h.symm)
    subst this
    simp [cost, objective, members]
  | x :: xs, [], labels, c, j, h, h' => by simp only [List.length_cons, List.length_nil] at h h'; omega
  | x :: xs, w :: ws, [], c, j, h, h' => by simp at h
  | x :: xs, w :: ws, l :: ls, c, j, h, h' => by
    have ih := cost_filter dist xs ws ls c j (by simpa using h) (by simpa using h')
    rw [List.zip_cons_cons, List.zip_cons_cons, List.filter_cons, members_cons, members_cons]
    by_cases e : l = j
    · subst e
      rw [if_pos (by simp), if_pos rfl, if_pos rfl, cost_cons, ih]
      simp [objective]
    · rw [if_neg (by simpa using e), if_neg e, if_neg e, ih]

/-- Splitting the cost by clusters. -/
theorem cost_split (dist : A → A → K) (c : Int → A) (k : Nat) : ∀ (T : List (A × K × Int)),
    (∀ t ∈ T, 0 ≤ t.2.2 ∧ t.2.2 < k) →
    cost dist T c = ((List.range k).map fun j : Nat => cost dist (T.filter fun t => t.2.2 = (j : Int)) c).sum
  | [], _ => by simp [cost]
  | t :: T, h => by
    have ih := cost_split dist c k T (fun u hu => h u (by simp [hu]))
    have ht := h t (by simp)
    have key : ∀ n : Nat, ((List.range n).map fun j : Nat => cost dist ((t :: T).filter fun u => u.2.2 = (j : Int)) c).sum =
        (if t.2.2 < n then t.2.1 * dist (c t.2.2) t.1 else 0) +
          ((List.range n).map fun j : Nat => cost dist (T.filter fun u => u.2.2 = (j : Int)) c).sum := by
      intro n
      induction n with
      | zero => rw [if_neg (by omega)]; simp
      | succ n ihn =>
        rw [List.range_succ, List.map_append, List.sum_append, List.map_append, List.sum_append, ihn]
        simp only [List.map_cons, List.map_nil, List.sum_cons, List.sum_nil, add_zero, List.filter_cons]
        by_cases e : t.2.2 = (n : Int)
        · rw [if_neg (show ¬ t.2.2 < (n : Int) by omega), if_pos (show decide (t.2.2 = (n : Int)) = true by simpa using e),
            if_pos (show t.2.2 < ((n + 1 : Nat) : Int) by push_cast; omega), cost_cons]
          ring
        · rw [if_neg (show ¬ decide (t.2.2 = (n : Int)) = true by simpa using e)]
          by_cases e2 : t.2.2 < (n : Int)
          · rw [if_pos e2, if_pos (by push_cast; omega)]; ring
          · rw [if_neg e2, if_neg (by push_cast; omega)]; ring
    rw [cost_cons, key k, if_pos ht.2, ih]

theorem sum_le {f g : Nat → K} (n : Nat) (h : ∀ j, j < n → f j ≤ g j) :
    ((List.range n).map f).sum ≤ ((List.range n).map g).sum :=
  List.sum_le_sum fun j hj => h j (List.mem_range.mp hj)

theorem sum_lt {f g : Nat → K} (n : Nat) (h : ∀ j, j < n → f j ≤ g j) (h' : ∃ j, j < n ∧ f j < g j) :
    ((List.range n).map f).sum < ((List.range n).map g).sum := by
  obtain ⟨j, hj, hlt⟩ := h'
  exact List.sum_lt_sum _ _ (fun j hj => h j (List.mem_range.mp hj)) ⟨j, List.mem_range.mpr hj, hlt⟩

/-- The centre with a given number. -/
def centreAt (cs : List A) (l : Int) : A := cs.getD l.toNat default

theorem members_ne {X : Type} (data : List X) (labels : List Int) (j : Int) : data.length = labels.length →
    (members data labels j).length = (labels.filter (· = j)).length := by
  induction data generalizing labels with
  | nil => intro h; have : labels = [] := List.length_eq_zero_iff.mp (by simpa using h.symm); subst this; simp [members]
  | cons x xs ih =>
    intro h
    cases labels with
    | nil => simp at h
    | cons l ls =>
      rw [members_cons, List.filter_cons]
      by_cases e : l = j
      · rw [if_pos e, if_pos (by simpa using e), List.length_cons, List.length_cons, ih ls (by simpa using h)]
      · rw [if_neg e, if_neg (by simpa using e), ih ls (by simpa using h)]

theorem members_subset {X : Type} (data : List X) (labels : List Int) (j : Int) : ∀ x ∈ members data labels j, x ∈ data := by
  intro x hx
  unfold members at hx
  obtain ⟨p, hp, rfl⟩ := List.mem_map.mp hx
  exact (List.of_mem_zip (List.mem_of_mem_filter hp)).1

/-- Recentring does not increase the cost, and decreases it if a centre moves. -/
theorem recentre {dist : A → A → K} {avg : List A → List K → Res A} (hm : IsMean dist avg) {data : List A} {weights : List K}
    {labels : List Int} {k : Nat} {cs : List A} (hc : AreCenters avg data weights labels k cs)
    (h1 : data.length = labels.length) (h2 : weights.length = labels.length) (hw : ∀ w ∈ weights, 0 < w)
    (hl : ∀ l ∈ labels, 0 ≤ l ∧ l < k) (cs0 : List A) (h0 : cs0.length = k) :
    cs0 = cs ∨ cost dist (data.zip (weights.zip labels)) (centreAt cs) < cost dist (data.zip (weights.zip labels)) (centreAt cs0) := by
  by_cases he : cs0 = cs
  · exact .inl he
  right
  have hlab : ∀ t ∈ data.zip (weights.zip labels), 0 ≤ t.2.2 ∧ t.2.2 < k := fun t ht =>
    hl _ (List.of_mem_zip (List.of_mem_zip ht).2).2
  rw [cost_split dist _ k _ hlab, cost_split dist _ k _ hlab]
  have hj : ∀ j : Nat, j < k →
      (cs0[j]? = cs[j]? ∧ cost dist ((data.zip (weights.zip labels)).filter fun t => t.2.2 = (j : Int)) (centreAt cs) =
        cost dist ((data.zip (weights.zip labels)).filter fun t => t.2.2 = (j : Int)) (centreAt cs0)) ∨
      cost dist ((data.zip (weights.zip labels)).filter fun t => t.2.2 = (j : Int)) (centreAt cs) <
        cost dist ((data.zip (weights.zip labels)).filter fun t => t.2.2 = (j : Int)) (centreAt cs0) := by
    intro j hj
    have hjc : j < cs.length := by have := hc.1; omega
    rw [cost_filter dist data weights labels _ _ h1 h2, cost_filter dist data weights labels _ _ h1 h2]
    have e1 : centreAt cs (j : Int) = cs[j] := by simp [centreAt, List.getD_eq_getElem?_getD, List.getElem?_eq_getElem hjc]
    have e2 : centreAt cs0 (j : Int) = cs0[j] := by
      simp [centreAt, List.getD_eq_getElem?_getD, List.getElem?_eq_getElem (show j < cs0.length by omega)]
    rw [e1, e2]
    by_cases e : cs0[j] = cs[j]
    · exact .inl ⟨by rw [List.getElem?_eq_getElem hjc, List.getElem?_eq_getElem (by omega), e], by rw [e]⟩
    · right
      have hav := hc.2 j hjc
      have hlen : (members data labels (j : Int)).length = (members weights labels (j : Int)).length := by
        rw [members_ne data labels _ h1, members_ne weights labels _ h2]
      refine hm.minimal _ _ _ ?_ hlen (fun w hw' => hw w (members_subset _ _ _ w hw')) hav _ e
      intro hnil
      rw [hnil] at hav hlen
      have : members weights labels (j : Int) = [] := List.length_eq_zero_iff.mp (by simpa using hlen.symm)
      rw [this] at hav
      exact hm.empty _ hav
  apply sum_lt
  · intro j hjk
    rcases hj j hjk with h | h
    · exact le_of_eq h.2
    · exact le_of_lt h
  · by_contra hno
    push Not at hno
    apply he
    apply List.ext_getElem?
    intro j
    by_cases hjk : j < k
    · rcases hj j hjk with h | h
      · exact h.1
      · exact absurd h (not_lt.mpr (hno j hjk))
    · rw [List.getElem?_eq_none (by omega), List.getElem?_eq_none (by have := hc.1; omega)]

/-- Reassigning to nearest centres does not increase the cost. -/
theorem reassign (dist : A → A → K) (cs : List A) : ∀ (data : List A) (weights : List K) (labels new : List Int),
    data.length = labels.length → weights.length = labels.length → new.length = labels.length → (∀ w ∈ weights, 0 < w) →
    (∀ l ∈ labels, 0 ≤ l ∧ l < cs.length) →
    (∀ (i : Nat) (h : i < data.length) (h' : i < new.length), IsNearest dist cs data[i] new[i]) →
    cost dist (data.zip (weights.zip new)) (centreAt cs) ≤ cost dist (data.zip (weights.zip labels)) (centreAt cs)
  | [], weights, labels, new, _, _, _, _, _, _ => by simp [cost]
  | x :: xs, [], l :: ls, new, h1, h2, _, _, _, _ => by simp at h2
  | x :: xs, w :: ws, [], new, h1, _, _, _, _, _ => by simp at h1
  | x :: xs, [], [], new, h1, _, _, _, _, _ => by simp at h1
  | x :: xs, w :: ws, l :: ls, [], _, _, h3, _, _, _ => by simp at h3
  | x :: xs, w :: ws, l :: ls, n :: ns, h1, h2, h3, hw, hl, hn => by
    have ih := reassign dist cs xs ws ls ns (by simpa using h1) (by simpa using h2) (by simpa using h3)
      (fun w' hw' => hw w' (by simp [hw'])) (fun l' hl' => hl l' (by simp [hl']))
      (fun i h h' => by
        have := hn (i + 1) (by simp; omega) (by simp; omega)
        simpa using this)
    simp only [List.zip_cons_cons, cost_cons]
    obtain ⟨h0, hlt, hne⟩ := hn 0 (by simp) (by simp)
    simp only [List.getElem_cons_zero] at h0 hlt hne
    have hl0 := hl l (by simp)
    have e1 : centreAt cs n = cs[n.toNat] := by simp [centreAt, List.getD_eq_getElem?_getD, List.getElem?_eq_getElem hlt]
    have e2 : centreAt cs l = cs[l.toNat]'(by omega) := by
      simp [centreAt, List.getD_eq_getElem?_getD, List.getElem?_eq_getElem (show l.toNat < cs.length by omega)]
    rw [e1, e2]
    have := mul_le_mul_of_nonneg_left (hne l.toNat (by omega)) (le_of_lt (hw w (by simp)))
    linarith

/-- One pass of the loop that does not end it. -/
def Pass (P : Args A K K) (data : List A) (weights : List K) (cs : List A) (labels new : List Int) : Prop :=
  CentersRun P.b P.threads P.avg data weights labels P.k (.ok cs) ∧
    AssignRun P.ps P.b P.threads P.dist data cs (.ok new) ∧ converged labels new = .ok false

theorem labellings_finite (n : Nat) (k : Int) : {l : List Int | l.length = n ∧ ∀ x ∈ l, 0 ≤ x ∧ x < k}.Finite := by
  have h := (List.finite_length_eq (Fin k.toNat) n).image (fun l => l.map fun x => (x.val : Int))
  apply h.subset
  rintro l ⟨h1, h2⟩
  refine ⟨l.attach.map fun x => ⟨x.1.toNat, by have := h2 x.1 x.2; omega⟩, by simpa using h1, ?_⟩
  simp only [List.map_map]
  conv_rhs => rw [← List.attach_map_subtype_val l]
  apply List.map_congr_left
  intro x _
  have := h2 x.1 x.2
  simp only [Function.comp_apply]
  omega

/-- C32: the loop ends: with exact arithmetic, positive weights and a strict mean there is no infinite sequence of passes, whatever
the schedules. -/
theorem C32_terminates (P : Args A K K) (hps : LawfulPartialSort P.ps) (data : List A) (weights : List K)
    (hm : IsMean P.dist P.avg) (hwl : weights.length = data.length) (hw : ∀ w ∈ weights, 0 < w) (hI : InI64 data.length)
    (hth : InI64 P.threads) (hk : 0 < P.k) (hk2 : P.k ≤ 2147483647) :
    ¬ ∃ (labels : Nat → List Int) (cs : Nat → List A), ∀ t, Pass P data weights (cs t) (labels t) (labels (t + 1)) := by
  rintro ⟨f, cs, hf⟩
  have hkI : InI64 P.k := by unfold InI64; omega
  have hc := fun t => centers_spec (hf t).1 hkI hth
  have ha := fun t => assign_spec hps (hf t).2.1 hI hth (areCenters_ne (hc t).1 (by omega)) (by have := (hc t).1.1; omega)
  have hlen : ∀ t, (cs t).length = P.k.toNat := fun t => (hc t).1.1
  let Φ : Nat → K := fun t => cost P.dist (data.zip (weights.zip (f t))) (centreAt (cs t))
  have hdec : ∀ t, Φ (t + 1) < Φ t := by
    intro t
    obtain ⟨l, e, h5, h6, h7⟩ := ha t
    cases e
    have h2 := (hc t).2.1
    have h2' := (hc (t + 1)).2.1
    have hle := reassign P.dist (cs t) data weights (f t) (f (t + 1)) h2 (by omega) (by omega) hw
      (fun l hl => by have := (hc t).2.2.2.1 l hl; rw [hlen t]; omega) h6
    rcases recentre hm (hc (t + 1)).1 h2' (by omega) hw (fun l hl => by have := (hc (t + 1)).2.2.2.1 l hl; omega)
      (cs t) (hlen t) with heq | hlt
    · exfalso
      have hb := (hf (t + 1)).2.1
      rw [← heq] at hb
      have := C32_schedule_independent hps P.b P.b P.threads P.threads P.dist data (cs t) _ _ hI hth hth
        (areCenters_ne (hc t).1 (by omega)) (by have := hlen t; omega) (hf t).2.1 hb
      have h9 := converged_false (hf (t + 1)).2.2
      exact h9 (by simpa using this)
    · exact lt_of_lt_of_le hlt hle
  have hanti : StrictAnti Φ := strictAnti_nat_of_succ_lt hdec
  have hinj : Function.Injective f := by
    intro s t hst
    apply hanti.injective
    have hcc : cs s = cs t := by
      apply List.ext_getElem (by rw [hlen, hlen])
      intro j h1 h2
      have e1 := (hc s).1.2 j h1
      have e2 := (hc t).1.2 j h2
      rw [hst] at e1
      rw [e1] at e2
      simpa using e2
    show cost _ _ _ = cost _ _ _
    rw [hst, hcc]
  have hmem : ∀ t, f t ∈ {l : List Int | l.length = data.length ∧ ∀ x ∈ l, 0 ≤ x ∧ x < P.k} :=
    fun t => ⟨(hc t).2.1.symm, (hc t).2.2.2.1⟩
  exact (Set.infinite_of_injective_forall_mem hinj hmem) (labellings_finite data.length P.k)

theorem assign_exists (ps : Nat → List (Entry D) → List (Entry D)) (b : Backend) (threads : Int) (dist : A → A → D)
    (data centers : List A) (hI : InI64 data.length) (hth : InI64 threads) : ∃ r, AssignRun ps b threads dist data centers r := by
  obtain ⟨o, ho⟩ := IndexRun.exists b threads 0 data.length (by decide) hI hth (by simpa using hI) (by omega)
  exact ⟨_, o, ho, rfl⟩

theorem centers_exists (b : Backend) (threads : Int) (avg : List A → List W → Res A) (data : List A) (weights : List W)
    (labels : List Int) (k : Int) (hk : InI64 k) (hth : InI64 threads) :
    ∃ r, CentersRun b threads avg data weights labels k r := by
  unfold CentersRun
  split
  · exact ⟨_, rfl⟩
  · split
    · exact ⟨_, rfl⟩
    · split
      · exact ⟨_, rfl⟩
      · exact ⟨_, rfl⟩
      · obtain ⟨o, ho⟩ := IndexRun.exists b threads 0 k (by decide) hk hth (by simpa using hk) (by omega)
        exact ⟨_, o, ho, rfl⟩

/-- C32: from every labelling, hence for `2 ≤ num_clusters ≤ data.size()`, the call has an outcome. -/
theorem C32_outcome_exists (P : Args A K K) (hps : LawfulPartialSort P.ps) (data : List A) (weights : List K)
    (hm : IsMean P.dist P.avg) (hwl : weights.length = data.length) (hw : ∀ w ∈ weights, 0 < w) (hI : InI64 data.length)
    (hth : InI64 P.threads) (hk : 2 ≤ P.k) (hk2 : P.k ≤ 2147483647) (hkn : P.k ≤ data.length) :
    ∃ r, ClusterRun P data weights false r := by
  have hkI : InI64 P.k := by unfold InI64; omega
  have hit : ∀ labels, ∃ r, Iterate P data weights labels r := by
    by_contra hno
    push Not at hno
    obtain ⟨l0, h0⟩ := hno
    have hnext : ∀ l : {l : List Int // ∀ r, ¬ Iterate P data weights l r}, ∃ (cs : List A)
        (l' : {l : List Int // ∀ r, ¬ Iterate P data weights l r}), Pass P data weights cs l.1 l'.1 := by
      rintro ⟨l, hl⟩
      obtain ⟨rc, hc⟩ := centers_exists P.b P.threads P.avg data weights l P.k hkI hth
      match rc, hc with
      | .throw e, hc => exact absurd (Iterate.centersThrow hc) (hl _)
      | .ub, hc => exact absurd (Iterate.centersUb hc) (hl _)
      | .ok cs, hc =>
        obtain ⟨ra, ha⟩ := assign_exists P.ps P.b P.threads P.dist data cs hI hth
        match ra, ha with
        | .throw e, ha => exact absurd (Iterate.assignThrow hc ha) (hl _)
        | .ub, ha => exact absurd (Iterate.assignUb hc ha) (hl _)
        | .ok new, ha =>
          match hcv : converged l new with
          | .throw e => exact absurd (Iterate.sizes hc ha hcv) (hl _)
          | .ub => unfold converged at hcv; split at hcv <;> cases hcv
          | .ok true => exact absurd (Iterate.stop hc ha hcv) (hl _)
          | .ok false => exact ⟨cs, ⟨new, fun r hr => hl r (Iterate.next hc ha hcv hr)⟩, hc, ha, hcv⟩
    choose cs nx hnx using hnext
    let seq : Nat → {l : List Int // ∀ r, ¬ Iterate P data weights l r} := fun t => Nat.rec ⟨l0, h0⟩ (fun _ l => nx l) t
    exact C32_terminates P hps data weights hm hwl hw hI hth (by omega) hk2
      ⟨fun t => (seq t).1, fun t => cs (seq t), fun t => hnx (seq t)⟩
  have hg : ∃ cs, gather data (List.range P.k.toNat) = .ok cs ∧ cs.length = P.k.toNat := by
    have : ∀ l : List Nat, (∀ i ∈ l, i < data.length) → ∃ cs, gather data l = .ok cs ∧ cs.length = l.length := by
      intro l
      induction l with
      | nil => intro _; exact ⟨[], rfl, rfl⟩
      | cons i is ih =>
        intro h
        obtain ⟨cs, e, el⟩ := ih (fun j hj => h j (by simp [hj]))
        refine ⟨data[i]'(h i (by simp)) :: cs, ?_, by simp [el]⟩
        simp only [gather, atRaw, List.getElem?_eq_getElem (h i (by simp)), Res.ok_bind, e, Res.pure_eq]
    obtain ⟨cs, e, el⟩ := this (List.range P.k.toNat) (fun i hi => by have := List.mem_range.mp hi; omega)
    exact ⟨cs, e, by simpa using el⟩
  obtain ⟨cs, hg, hcl⟩ := hg
  have hfc : ∃ r, FromCenters P data weights cs r := by
    obtain ⟨ra, ha⟩ := assign_exists P.ps P.b P.threads P.dist data cs hI hth
    match ra, ha with
    | .throw e, ha => exact ⟨_, .assignThrow (by omega) ha⟩
    | .ub, ha => exact ⟨_, .assignUb (by omega) ha⟩
    | .ok l, ha =>
      obtain ⟨r, hr⟩ := hit l
      exact ⟨r, .run (by omega) ha hr⟩
  obtain ⟨r, hr⟩ := hfc
  refine ⟨r, .plain (.inl rfl) (.run ?_ (by omega) ⟨List.nodup_range, fun i hi => by have := List.mem_range.mp hi; omega, ?_⟩ hg hr)⟩
  · intro e; rw [e] at hkn; simp at hkn; omega
  · simp only [List.length_range]; omega

end Termination

/-! ### The averaging function is called on empty clusters -/

/-- A returned labelling was computed by an assignment step. -/
theorem iterate_assigned (P : Args A W D) (hth : InI64 P.threads) (hk : 0 < P.k) (hk2 : P.k ≤ 2147483647) {data : List A}
    {weights : List W} {labels : List Int} {r : Res (List Int)} (h : Iterate P data weights labels r) {out : List Int}
    (hr : r = .ok out) : ∃ cs, AssignRun P.ps P.b P.threads P.dist data cs (.ok out) ∧ cs ≠ [] ∧
      (cs.length : Int) ≤ 2147483647 := by
  induction h with
  | stop hc ha _ =>
    cases hr
    obtain ⟨h1, _⟩ := centers_spec hc (by unfold InI64; omega) hth
    exact ⟨_, ha, areCenters_ne h1 (by omega), by have := h1.1; omega⟩
  | next _ _ _ _ ih => exact ih hr
  | sizes => cases hr
  | centersThrow => cases hr
  | centersUb => cases hr
  | assignThrow => cases hr
  | assignUb => cases hr

/-- C32 (finding): two equal data, two clusters: both data go to one cluster, the average of the other, empty, one is asked for, and
if that throws (as the averaging functions of this library do) no run returns. -/
theorem C32_duplicates_average_nothing (P : Args A W D) (hps : LawfulPartialSort P.ps) (hk : P.k = 2) (a : A) (w w' : W) (e : Exc)
    (hth : InI64 P.threads) (hempty : P.avg [] [] = .throw e) (out : List Int) :
    ¬ ClusterRun P [a, a] [w, w'] false (.ok out) := by
  intro h
  have h2I : InI64 ([a, a] : List A).length := by show InI64 2; decide
  obtain ⟨⟨hl, hrange⟩, hst⟩ := C32_labels P hps _ _ _ h2I hth (by omega) out h
  obtain ⟨centers, hc, _⟩ := hst (by simp) (by omega)
  have hpl : PlainRun P [a, a] [w, w'] (.ok out) := by
    cases h with
    | early _ hr => exact hr
    | plain _ hr => exact hr
    | prelim hp => cases hp
  have has : ∃ cs, AssignRun P.ps P.b P.threads P.dist [a, a] cs (.ok out) ∧ cs ≠ [] ∧ (cs.length : Int) ≤ 2147483647 := by
    cases hpl with
    | empty he => simp at he
    | one _ h1 => omega
    | run _ _ _ _ hr =>
      cases hr with
      | run _ _ hit => exact iterate_assigned P hth (by omega) (by omega) hit rfl
  obtain ⟨cs, ha, hne, hle⟩ := has
  obtain ⟨l, e1, _, _, e3⟩ := assign_spec hps ha h2I hth hne hle
  cases e1
  match out, hl with
  | [x, y], _ =>
    have q0 := e3 0 (by simp)
    have q1 := e3 1 (by simp)
    have hxy : x = y := by
      have : labelOf P.ps P.dist [a, a] cs ((0 : Nat) : Int) = labelOf P.ps P.dist [a, a] cs ((1 : Nat) : Int) := rfl
      rw [q0, q1] at this
      simpa using this
    subst hxy
    have hx := hrange x (by simp)
    have hlen := hc.1
    have hx2 : x = 0 ∨ x = 1 := by omega
    rcases hx2 with rfl | rfl
    · have := hc.2 1 (by omega)
      simp [members, hempty] at this
    · have := hc.2 0 (by omega)
      simp [members, hempty] at this

/-! ### Non-vacuity -/

/-- Weighted mean of rationals, throwing on empty input. -/
def ratMean (xs ws : List ℚ) : Res ℚ :=
  if xs = [] then .throw .invalidArgument else .ok ((xs.zipWith (· * ·) ws).sum / ws.sum)

def sqDist (c x : ℚ) : ℚ := (x - c) * (x - c)

/-- With squared distances the weighted mean is a strict mean. -/
theorem ratMean_isMean : IsMean sqDist ratMean where
  empty c := by simp [ratMean]
  minimal xs ws c hne hlen hw hc c' hcc := by
    unfold ratMean at hc
    rw [if_neg hne] at hc
    simp only [Res.ok.injEq] at hc
    have hpos : 0 < ws.sum := by
      apply List.sum_pos _ hw
      intro hnil
      rw [hnil] at hlen
      exact hne (List.length_eq_zero_iff.mp (by simpa using hlen))
    have hS : (xs.zipWith (· * ·) ws).sum = c * ws.sum := by rw [← hc]; field_simp
    have hexp : ∀ (xs ws : List ℚ) (c' : ℚ), xs.length = ws.length → objective sqDist xs ws c' =
        objective sqDist xs ws c + (c * c - c' * c') * (-ws.sum) + 2 * (c - c') * (xs.zipWith (· * ·) ws).sum := by
      intro xs
      induction xs with
      | nil => intro ws c' h; have : ws = [] := List.length_eq_zero_iff.mp (by simpa using h.symm); subst this; simp [objective]
      | cons x xs ih =>
        intro ws c' h
        cases ws with
        | nil => simp at h
        | cons w ws =>
          have := ih ws c' (by simpa using h)
          simp only [objective, List.zip_cons_cons, List.map_cons, List.sum_cons, List.zipWith_cons_cons, sqDist] at this ⊢
          linarith
    rw [hexp xs ws c' hlen, hS]
    have h1 : (0 : ℚ) < (c - c') * (c - c') := by
      have : c - c' ≠ 0 := fun h => hcc (by linarith)
      exact mul_self_pos.mpr this
    nlinarith [mul_pos h1 hpos]

/-- A concrete clustering problem. -/
def demo : Args ℚ ℚ ℚ := ⟨psSort, .async, 3, sqDist, ratMean, 2⟩

example : ¬ ∃ (labels : Nat → List Int) (cs : Nat → List ℚ), ∀ t,
    Pass demo [1, 2, 9, 10] [1, 1, 2, 1] (cs t) (labels t) (labels (t + 1)) :=
  C32_terminates demo psSort_lawful _ _ ratMean_isMean rfl (by simp) (by decide) (by decide) (by decide) (by decide)

example : ∃ r, ClusterRun demo [1, 2, 9, 10] [1, 1, 2, 1] false r ∧ ∀ out, r = .ok out →
    IsLabelling [1, 2, 9, 10] 2 out ∧ IsStable sqDist ratMean [1, 2, 9, 10] [1, 1, 2, 1] 2 out := by
  obtain ⟨r, hr⟩ := C32_outcome_exists demo psSort_lawful [1, 2, 9, 10] [1, 1, 2, 1] ratMean_isMean rfl (by simp) (by decide)
    (by decide) (by decide) (by decide) (by decide)
  refine ⟨r, hr, fun out he => ?_⟩
  subst he
  obtain ⟨h1, h2⟩ := C32_labels demo psSort_lawful _ _ _ (by decide) (by decide) (by decide) out hr
  exact ⟨h1, h2 (by simp) (by decide)⟩

/-- A stable labelling. -/
example : IsStable sqDist ratMean [1, 2, 9, 10] [1, 1, 2, 1] 2 [0, 0, 1, 1] := by
  refine ⟨[3 / 2, 28 / 3], ⟨rfl, fun j h => ?_⟩, fun i h h' => ?_⟩
  · match j, h with
    | 0, _ => simp [members, ratMean]; norm_num
    | 1, _ => simp [members, ratMean]; norm_num
  · match i, h with
    | 0, _ => exact ⟨by simp, by simp, fun j hj => by match j, hj with | 0, _ => norm_num [sqDist] | 1, _ => norm_num [sqDist]⟩
    | 1, _ => exact ⟨by simp, by simp, fun j hj => by match j, hj with | 0, _ => norm_num [sqDist] | 1, _ => norm_num [sqDist]⟩
    | 2, _ => exact ⟨by simp, by simp, fun j hj => by match j, hj with | 0, _ => norm_num [sqDist] | 1, _ => norm_num [sqDist]⟩
    | 3, _ => exact ⟨by simp, by simp, fun j hj => by match j, hj with | 0, _ => norm_num [sqDist] | 1, _ => norm_num [sqDist]⟩

end CRU.Kmeans
