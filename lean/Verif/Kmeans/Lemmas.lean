import Verif.Kmeans.Model
import Verif.Knn.Props
/-
  Lemmas on one K-means iteration.
-/
namespace CRU.Kmeans
open CRU.Parallel CRU.Knn

set_option linter.unusedSectionVars false

variable {A W D : Type} [LinearOrder D] [Inhabited A]

/-- If a loop of independent bodies succeeds, every body did, and the results are where they belong. -/
theorem fill_ok_inv {α} (h : Int → Res α) : ∀ (is : List Int) (v v' : List α), is.Nodup →
    modifyAll (fun i _ => h i) is v = .ok v' →
    v'.length = v.length ∧ (∀ i ∈ is, 0 ≤ i ∧ ∃ hi : i.toNat < v'.length, h i = .ok v'[i.toNat]) ∧
      ∀ k : Nat, (k : Int) ∉ is → v'[k]? = v[k]?
  | [], v, v', _, e => by
    simp only [modifyAll, Res.ok.injEq] at e
    subst e
    simp
  | i :: is, v, v', hnd, e => by
    simp only [modifyAll] at e
    obtain ⟨x, hx, e⟩ := Res.bind_eq_ok.mp e
    obtain ⟨y, hy, e⟩ := Res.bind_eq_ok.mp e
    have hin : 0 ≤ i ∧ i.toNat < v.length := by
      by_contra hc
      rw [atInt_none v i hc] at hx
      cases hx
    obtain ⟨h1, h2, h3⟩ := fill_ok_inv h is _ v' (List.nodup_cons.mp hnd).2 e
    rw [List.length_set] at h1
    refine ⟨h1, fun k hk => ?_, fun k hk => ?_⟩
    · rcases List.mem_cons.mp hk with rfl | hk
      · refine ⟨hin.1, by omega, ?_⟩
        have := h3 k.toNat (by rw [Int.toNat_of_nonneg hin.1]; exact (List.nodup_cons.mp hnd).1)
        rw [List.getElem?_set_self hin.2, List.getElem?_eq_getElem (by omega), Option.some.injEq] at this
        rw [hy, this]
      · exact h2 k hk
    · rw [h3 k (fun hm => hk (by simp [hm])), List.getElem?_set_ne]
      intro he
      exact hk (by simp [← he, Int.toNat_of_nonneg hin.1])

/-- The result of a loop of independent bodies over all indices does not depend on the order, if every body succeeds. -/
theorem fill_det {α} (h : Int → Res α) (g : Int → α) (n : Nat) (order : List Int) (z : α) (hp : order.Perm (irange 0 n))
    (hg : ∀ k : Nat, k < n → h k = .ok (g k)) :
    modifyAll (fun i _ => h i) order (List.replicate n z) = .ok ((List.range n).map fun k => g (k : Nat)) := by
  rw [modifyAll_perm (fun i _ => h i) (fun i _ => g i) order (List.replicate n z) (by simpa using hp)
    (fun k x hx => hg k (by
      have := (List.getElem?_eq_some_iff.mp hx).1
      simpa using this))]
  congr 1
  apply List.ext_getElem
  · simp
  · intro k h1 h2
    simp

theorem atInt_mem {α} {l : List α} {i : Int} {x : α} (h : atInt l i = .ok x) : 0 ≤ i ∧ ∃ hi : i.toNat < l.length, x = l[i.toNat] := by
  by_cases hc : 0 ≤ i ∧ i.toNat < l.length
  · rw [atInt_ok l i hc.1 hc.2] at h
    cases h
    exact ⟨hc.1, hc.2, rfl⟩
  · rw [atInt_none l i hc] at h; cases h

theorem narrow32_id {i : Int} (h0 : 0 ≤ i) (h1 : i < 2147483648) : narrow32 i = i := by unfold narrow32; omega

/-- The label of a datum is the number of a nearest centre. -/
theorem labelOf_spec {ps : Nat → List (Entry D) → List (Entry D)} (hps : LawfulPartialSort ps) (dist : A → A → D)
    (data centers : List A) (hc : centers ≠ []) (hlen : (centers.length : Int) ≤ 2147483647) (i : Nat) (hi : i < data.length) :
    ∃ l, labelOf ps dist data centers i = .ok l ∧ IsNearest dist centers data[i] l := by
  have hpos : 0 < centers.length := List.length_pos_iff.mpr hc
  let x := data[i]
  let dd : Int → D := fun j => dist (centers[j.toNat]?.getD centers[0]) x
  have hdd : ∀ j (h : j < centers.length), dd (j : Int) = dist centers[j] x := fun j h => by
    simp only [dd, Int.toNat_natCast, List.getElem?_eq_getElem h, Option.getD_some]
  obtain ⟨r, h1, h2, _⟩ := C08_serial_knn_correct ps hps centers (fun c => dist c x) dd hdd 0 centers.length 1 (by omega)
    (by omega) (by omega)
  have hrl : r.length = 1 := by
    have := h2.length
    omega
  obtain ⟨e, rfl⟩ := List.length_eq_one_iff.mp hrl
  have hin := h2.inRange e (by simp)
  refine ⟨e.index, ?_, ?_⟩
  · unfold labelOf
    rw [atInt_ok data i (by omega) (by simpa using hi), Res.ok_bind]
    simp only [Int.toNat_natCast]
    have h1' : knnSerial ps centers (fun c => dist c data[i]) 0 centers.length 1 = .ok [e] := h1
    rw [h1', Res.ok_bind]
    simp only [atChecked, List.getElem?_cons_zero, Res.ok_bind, Res.pure_eq]
    rw [narrow32_id (by omega) (by omega)]
  · refine ⟨by omega, by omega, fun j hj => ?_⟩
    by_cases hje : (j : Int) = e.index
    · have : e.index.toNat = j := by omega
      simp only [this]; exact le_refl _
    · have h3 := h2.nearest e (by simp) j (by omega) (by omega) (by simpa using hje)
      have h4 := h2.trueDist e (by simp)
      have h5 := hdd e.index.toNat (by omega)
      rw [Int.toNat_of_nonneg (by omega)] at h5
      rw [h4, h5, hdd j hj] at h3
      exact h3

/-- One assignment step: one nearest centre per datum, whatever the schedule. -/
theorem assign_spec {ps : Nat → List (Entry D) → List (Entry D)} (hps : LawfulPartialSort ps) {b : Backend} {threads : Int}
    {dist : A → A → D} {data centers : List A} {r : Res (List Int)} (h : AssignRun ps b threads dist data centers r)
    (hI : InI64 data.length) (hth : InI64 threads) (hc : centers ≠ []) (hlen : (centers.length : Int) ≤ 2147483647) :
    ∃ labels, r = .ok labels ∧ labels.length = data.length ∧
      (∀ (i : Nat) (h : i < data.length) (h' : i < labels.length), IsNearest dist centers data[i] labels[i]) ∧
      ∀ (i : Nat) (h' : i < labels.length), labelOf ps dist data centers i = .ok labels[i] := by
  obtain ⟨order, ho, rfl⟩ := h
  have hp := ho.perm (by decide) hI hth (by simpa using hI) (by omega)
  choose g hg hg' using fun (i : Nat) (hi : i < data.length) => labelOf_spec hps dist data centers hc hlen i hi
  refine ⟨_, fill_det _ (fun i => if h : i.toNat < data.length then g i.toNat h else 0) data.length order 0 hp (fun k hk => ?_),
    by simp, fun i h h' => ?_, fun i h' => ?_⟩
  · rw [dif_pos (by simpa using hk)]
    exact hg k hk
  · simp only [List.getElem_map, List.getElem_range, Int.toNat_natCast]
    rw [dif_pos h]
    exact hg' i h
  · have hi : i < data.length := by simpa using h'
    simp only [List.getElem_map, List.getElem_range, Int.toNat_natCast]
    rw [dif_pos hi]
    exact hg i hi

theorem pushAt_inv {X : Type} {v v' : List (List X)} {label : Int} {x : X} (h : pushAt v label x = .ok v') :
    0 ≤ label ∧ ∃ hl : label.toNat < v.length, v' = v.set label.toNat (v[label.toNat] ++ [x]) := by
  unfold pushAt at h
  obtain ⟨l, h1, h2⟩ := Res.bind_eq_ok.mp h
  obtain ⟨h0, hl, rfl⟩ := atInt_mem h1
  simp only [Res.pure_eq, Res.ok.injEq] at h2
  exact ⟨h0, hl, h2.symm⟩

theorem members_cons {X : Type} (x : X) (xs : List X) (l : Int) (ls : List Int) (j : Int) :
    members (x :: xs) (l :: ls) j = if l = j then x :: members xs ls j else members xs ls j := by
  unfold members
  simp only [List.zip_cons_cons, List.filter_cons]
  split <;> simp_all

theorem atChecked_inv {α} {l : List α} {i : Nat} {x : α} (h : atChecked l i = .ok x) : ∃ hi : i < l.length, x = l[i] := by
  unfold atChecked at h
  split at h
  · rename_i y hy
    cases h
    obtain ⟨hi, e⟩ := List.getElem?_eq_some_iff.mp hy
    exact ⟨hi, e.symm⟩
  · cases h

theorem pushed_get {X : Type} (v : List (List X)) (label : Int) (h0 : 0 ≤ label) (hl : label.toNat < v.length) (x : X) (j : Nat) :
    (v.set label.toNat (v[label.toNat] ++ [x]))[j]? = v[j]?.map fun l => if label = (j : Int) then l ++ [x] else l := by
  rw [List.getElem?_set]
  by_cases e : label.toNat = j
  · subst e
    rw [if_pos rfl, if_pos hl, List.getElem?_eq_getElem hl, Option.map_some, if_pos (by omega)]
  · rw [if_neg e]
    have : ¬ label = (j : Int) := by omega
    simp [this]

/-- `separate` puts every datum, with its weight, into the list of its label. -/
theorem separate_inv (weights : List W) (labels : List Int) : ∀ (xs : List A) (idx : Nat)
    (st st' : List (List A) × List (List W)), separate weights labels xs idx st = .ok st' → st.1.length = st.2.length →
    st'.1.length = st.1.length ∧ st'.2.length = st.2.length ∧
    (∀ j : Nat, st'.1[j]? = st.1[j]?.map (· ++ members xs (labels.drop idx) j)) ∧
    (∀ j : Nat, st'.2[j]? = st.2[j]?.map (· ++ members ((weights.drop idx).take xs.length) (labels.drop idx) j)) ∧
    (∀ l ∈ (labels.drop idx).take xs.length, 0 ≤ l ∧ l.toNat < st.1.length) ∧ idx + xs.length ≤ max idx labels.length ∧
    idx + xs.length ≤ max idx weights.length
  | [], idx, st, st', h, _ => by
    simp only [separate, Res.ok.injEq] at h
    subst h
    simp only [true_and, List.length_nil, List.take_zero]
    refine ⟨fun j => ?_, fun j => ?_, by simp, by omega, by omega⟩ <;> simp [members]
  | x :: xs, idx, st, st', h, hlen => by
    simp only [separate] at h
    obtain ⟨label, h1, h⟩ := Res.bind_eq_ok.mp h
    obtain ⟨a, h2, h⟩ := Res.bind_eq_ok.mp h
    obtain ⟨w, h3, h⟩ := Res.bind_eq_ok.mp h
    obtain ⟨b, h4, h⟩ := Res.bind_eq_ok.mp h
    obtain ⟨hi, rfl⟩ := atChecked_inv h1
    obtain ⟨hiw, rfl⟩ := atChecked_inv h3
    obtain ⟨h0, hl, rfl⟩ := pushAt_inv h2
    obtain ⟨_, hl2, rfl⟩ := pushAt_inv h4
    obtain ⟨e1, e2, e3, e4, e5, e6, e7⟩ := separate_inv weights labels xs (idx + 1) _ st' h (by simpa using hlen)
    rw [List.length_set] at e1 e2 e5
    refine ⟨e1, e2, fun j => ?_, fun j => ?_, ?_, ?_, ?_⟩
    · rw [e3, pushed_get _ _ h0 hl, Option.map_map, List.drop_eq_getElem_cons hi]
      congr 1
      funext l
      simp only [Function.comp_apply, members_cons]
      split <;> simp
    · rw [e4, pushed_get _ _ h0 hl2, Option.map_map, List.drop_eq_getElem_cons hi, List.drop_eq_getElem_cons hiw]
      congr 1
      funext l
      simp only [Function.comp_apply, List.length_cons, List.take_succ_cons, members_cons]
      split <;> simp
    · intro l hl'
      rw [List.drop_eq_getElem_cons hi, List.length_cons, List.take_succ_cons] at hl'
      rcases List.mem_cons.mp hl' with rfl | hl'
      · exact ⟨h0, hl⟩
      · exact e5 l hl'
    · simp only [List.length_cons]; omega
    · simp only [List.length_cons]; omega

/-- A label list shorter than the data does not see the rest. -/
theorem members_take {X : Type} (data : List X) (labels : List Int) (j : Int) (n : Nat) (h : labels.length ≤ n) :
    members (data.take n) labels j = members data labels j := by
  induction data generalizing labels n with
  | nil => simp
  | cons x xs ih =>
    cases labels with
    | nil => simp [members]
    | cons l ls =>
      cases n with
      | zero => simp at h
      | succ n =>
        rw [List.take_succ_cons, members_cons, members_cons, ih ls n (by simpa using h)]

/-- Successful centre computation: the centres of the labelling. -/
theorem centers_spec {b : Backend} {threads : Int} {avg : List A → List W → Res A} {data : List A} {weights : List W}
    {labels : List Int} {k : Int} {cs : List A} (h : CentersRun b threads avg data weights labels k (.ok cs))
    (hk : InI64 k) (hth : InI64 threads) :
    AreCenters avg data weights labels k.toNat cs ∧ data.length = labels.length ∧ 0 ≤ k ∧ (∀ l ∈ labels, 0 ≤ l ∧ l < k) ∧
      data.length ≤ weights.length := by
  unfold CentersRun at h
  split at h
  · cases h
  rename_i hl
  split at h
  · cases h
  rename_i hk0
  have hl' : data.length = labels.length := by omega
  split at h
  · cases h
  · cases h
  · rename_i st hst
    obtain ⟨order, ho, he⟩ := h
    have hp := ho.perm (by decide) hk hth (by simpa using hk) (by omega)
    obtain ⟨e1, e2, e3, e4, e5, _, e7⟩ := separate_inv weights labels data 0 _ st hst (by simp)
    obtain ⟨f1, f2, f3⟩ := fill_ok_inv _ order _ cs (hp.nodup_iff.mpr (irange_nodup _ _)) he.symm
    rw [List.length_replicate] at f1
    refine ⟨⟨f1, fun j hj => ?_⟩, hl', by omega, fun l hl2 => ?_, by omega⟩
    · have hjo : (j : Int) ∈ order := hp.symm.subset (mem_irange.mpr (by omega))
      obtain ⟨_, _, f⟩ := f2 j hjo
      simp only [Int.toNat_natCast] at f
      unfold centerOf at f
      have g1 := e3 j
      have g2 := e4 j
      simp only [List.getElem?_replicate, List.drop_zero] at g1 g2
      rw [if_pos (by omega)] at g1 g2
      simp only [Option.map_some, List.nil_append] at g1 g2
      rw [members_take weights labels j data.length (by omega)] at g2
      have q1 : atInt st.1 (j : Int) = .ok (members data labels j) := by
        unfold atInt atChecked
        rw [if_neg (by omega), Int.toNat_natCast, g1]
      have q2 : atInt st.2 (j : Int) = .ok (members weights labels j) := by
        unfold atInt atChecked
        rw [if_neg (by omega), Int.toNat_natCast, g2]
      rw [q1, Res.ok_bind, q2, Res.ok_bind] at f
      exact f
    · have := e5 l (by rw [List.drop_zero, hl', List.take_length]; exact hl2)
      simp only [List.length_replicate] at this
      omega

end CRU.Kmeans
