import Verif.Kmeans.Props
/-
  C32: with an averaging function that does not fail, clustering does not fail.
-/
namespace CRU.Kmeans
open CRU.Parallel CRU.Knn

set_option linter.unusedSectionVars false

variable {A W D : Type} [LinearOrder D] [Inhabited A]

theorem pushAt_ok {X : Type} (v : List (List X)) {label : Int} (h0 : 0 ≤ label) (hl : label.toNat < v.length) (x : X) :
    ∃ v', pushAt v label x = .ok v' ∧ v'.length = v.length := by
  unfold pushAt atInt atChecked
  rw [if_neg (by omega), List.getElem?_eq_getElem hl]
  exact ⟨_, rfl, by simp⟩

theorem separate_ok (weights : List W) (labels : List Int) : ∀ (xs : List A) (idx : Nat) (st : List (List A) × List (List W)),
    idx + xs.length ≤ labels.length → idx + xs.length ≤ weights.length →
    (∀ l ∈ labels, 0 ≤ l ∧ l.toNat < st.1.length ∧ l.toNat < st.2.length) → ∃ st', separate weights labels xs idx st = .ok st'
  | [], _, st, _, _, _ => ⟨st, rfl⟩
  | x :: xs, idx, st, h1, h2, h3 => by
    simp only [List.length_cons] at h1 h2
    have hm := h3 labels[idx] (List.getElem_mem (by omega))
    obtain ⟨a, ha, hal⟩ := pushAt_ok st.1 hm.1 hm.2.1 x
    obtain ⟨b, hb, hbl⟩ := pushAt_ok st.2 hm.1 hm.2.2 (weights[idx]'(by omega))
    simp only [separate]
    have e1 : atChecked labels idx = .ok labels[idx] := by unfold atChecked; rw [List.getElem?_eq_getElem (by omega)]
    have e2 : atChecked weights idx = .ok (weights[idx]'(by omega)) := by unfold atChecked; rw [List.getElem?_eq_getElem (by omega)]
    rw [e1, Res.ok_bind, ha, Res.ok_bind, e2, Res.ok_bind, hb, Res.ok_bind]
    exact separate_ok weights labels xs (idx + 1) (a, b) (by omega) (by omega) (by rw [hal, hbl]; exact h3)

theorem modifyAll_total {X : Type} (f : Int → X → Res X) (n : Nat) (hf : ∀ (i : Int) x, 0 ≤ i → i.toNat < n → ∃ y, f i x = .ok y) :
    ∀ (is : List Int) (v : List X), v.length = n → (∀ i ∈ is, 0 ≤ i ∧ i.toNat < n) → ∃ v', modifyAll f is v = .ok v' ∧ v'.length = n := by
  intro is
  induction is with
  | nil => exact fun v hv _ => ⟨v, rfl, hv⟩
  | cons i is ih =>
    intro v hv hi
    obtain ⟨h0, h1⟩ := hi i (by simp)
    obtain ⟨y, hy⟩ := hf i (v[i.toNat]'(by omega)) h0 h1
    simp only [modifyAll]
    rw [atInt_ok v i h0 (by omega), Res.ok_bind, hy, Res.ok_bind]
    exact ih _ (by simpa using hv) (fun j hj => hi j (List.mem_cons_of_mem _ hj))

/-- The centres can be computed when the averaging function does not fail. -/
theorem centers_ok {b : Backend} {threads : Int} {avg : List A → List W → Res A} {data : List A} {weights : List W}
    {labels : List Int} {k : Int} {r : Res (List A)} (h : CentersRun b threads avg data weights labels k r)
    (havg : ∀ xs ws, ∃ c, avg xs ws = .ok c) (hk : InI64 k) (hk0 : 0 ≤ k) (hth : InI64 threads) (hl : labels.length = data.length)
    (hlab : ∀ l ∈ labels, 0 ≤ l ∧ l < k) (hw : data.length ≤ weights.length) : ∃ cs, r = .ok cs ∧ (cs.length : Int) = k := by
  unfold CentersRun at h
  rw [if_neg (by omega), if_neg (by omega)] at h
  obtain ⟨st, hst⟩ := separate_ok weights labels data 0 (List.replicate k.toNat [], List.replicate k.toNat []) (by omega) (by omega)
    (fun l hl' => by have := hlab l hl'; simp only [List.length_replicate]; omega)
  rw [hst] at h
  obtain ⟨order, ho, rfl⟩ := h
  have hp := ho.perm (by decide) hk hth (by simpa using hk) (by omega)
  obtain ⟨e1, e2, _⟩ := separate_inv weights labels data 0 _ st hst (by simp)
  simp only [List.length_replicate] at e1 e2
  obtain ⟨v, hv, hvl⟩ := modifyAll_total (fun c _ => centerOf avg st c) k.toNat (fun i x h0 h1 => by
    unfold centerOf
    rw [atInt_ok _ i h0 (by omega), Res.ok_bind, atInt_ok _ i h0 (by omega), Res.ok_bind]
    exact havg _ _) order (List.replicate k.toNat default) (by simp)
    (fun i hi => by have := mem_irange.mp (hp.subset hi); omega)
  exact ⟨v, hv, by omega⟩

theorem nearest_range {dist : A → A → D} {centers : List A} {x : A} {l : Int} (h : IsNearest dist centers x l) :
    0 ≤ l ∧ l < centers.length := by
  obtain ⟨h0, h1, _⟩ := h
  omega

theorem iterate_ok (P : Args A W D) (hps : LawfulPartialSort P.ps) {data : List A} {weights : List W} (hI : InI64 data.length)
    (havg : ∀ xs ws, ∃ c, P.avg xs ws = .ok c) (hth : InI64 P.threads) (hk : 0 < P.k) (hk2 : P.k ≤ 2147483647)
    (hw : data.length ≤ weights.length) {labels : List Int} {r : Res (List Int)} (h : Iterate P data weights labels r)
    (hl : IsLabelling data P.k labels) : ∃ out, r = .ok out := by
  have hkI : InI64 P.k := by unfold InI64; omega
  have hcen : ∀ {labels : List Int} {rc : Res (List A)}, IsLabelling data P.k labels →
      CentersRun P.b P.threads P.avg data weights labels P.k rc → ∃ cs, rc = .ok cs ∧ (cs.length : Int) = P.k :=
    fun hl hc => centers_ok hc havg hkI (by omega) hth hl.1 hl.2 hw
  have hass : ∀ {cs : List A} {ra : Res (List Int)}, (cs.length : Int) = P.k → AssignRun P.ps P.b P.threads P.dist data cs ra →
      ∃ new, ra = .ok new ∧ IsLabelling data P.k new := by
    intro cs ra hcs ha
    obtain ⟨l, rfl, h1, h2, _⟩ := assign_spec hps ha hI hth (by rintro rfl; simp at hcs; omega) (by omega)
    refine ⟨l, rfl, h1, fun x hx => ?_⟩
    obtain ⟨i, hi, rfl⟩ := List.getElem_of_mem hx
    have := nearest_range (h2 i (by omega) hi)
    omega
  induction h with
  | stop => exact ⟨_, rfl⟩
  | next hc ha _ _ ih =>
    obtain ⟨cs, e, hcs⟩ := hcen hl hc
    cases e
    obtain ⟨new, e, hn⟩ := hass hcs ha
    cases e
    exact ih hn
  | sizes hc ha hcv =>
    obtain ⟨cs, e, hcs⟩ := hcen hl hc
    cases e
    obtain ⟨new, e, hn⟩ := hass hcs ha
    cases e
    unfold converged at hcv
    rw [if_pos (by rw [hl.1, hn.1])] at hcv
    cases hcv
  | centersThrow hc => obtain ⟨cs, e, _⟩ := hcen hl hc; cases e
  | centersUb hc => obtain ⟨cs, e, _⟩ := hcen hl hc; cases e
  | assignThrow hc ha =>
    obtain ⟨cs, e, hcs⟩ := hcen hl hc
    cases e
    obtain ⟨new, e, _⟩ := hass hcs ha
    cases e
  | assignUb hc ha =>
    obtain ⟨cs, e, hcs⟩ := hcen hl hc
    cases e
    obtain ⟨new, e, _⟩ := hass hcs ha
    cases e

theorem fromCenters_ok (P : Args A W D) (hps : LawfulPartialSort P.ps) {data : List A} {weights : List W} (hI : InI64 data.length)
    (havg : ∀ xs ws, ∃ c, P.avg xs ws = .ok c) (hth : InI64 P.threads) (hk : 0 < P.k) (hk2 : P.k ≤ 2147483647)
    (hw : data.length ≤ weights.length) {cs : List A} {r : Res (List Int)} (h : FromCenters P data weights cs r)
    (hcs : (cs.length : Int) = P.k) : ∃ out, r = .ok out := by
  have hass : ∀ {ra : Res (List Int)}, AssignRun P.ps P.b P.threads P.dist data cs ra → ∃ new, ra = .ok new ∧ IsLabelling data P.k new := by
    intro ra ha
    obtain ⟨l, rfl, h1, h2, _⟩ := assign_spec hps ha hI hth (by rintro rfl; simp at hcs; omega) (by omega)
    refine ⟨l, rfl, h1, fun x hx => ?_⟩
    obtain ⟨i, hi, rfl⟩ := List.getElem_of_mem hx
    have := nearest_range (h2 i (by omega) hi)
    omega
  cases h with
  | count h => exact absurd hcs h
  | run _ ha hr =>
    obtain ⟨new, e, hn⟩ := hass ha
    cases e
    exact iterate_ok P hps hI havg hth hk hk2 hw hr hn
  | assignThrow _ ha => obtain ⟨_, e, _⟩ := hass ha; cases e
  | assignUb _ ha => obtain ⟨_, e, _⟩ := hass ha; cases e

theorem gather_length {X : Type} (data : List X) : ∀ (l : List Nat) (cs : List X), gather data l = .ok cs → cs.length = l.length
  | [], cs, h => by cases h; rfl
  | i :: is, cs, h => by
    simp only [gather] at h
    obtain ⟨x, _, h⟩ := Res.bind_eq_ok.mp h
    obtain ⟨rest, hr, h⟩ := Res.bind_eq_ok.mp h
    cases h
    simp [gather_length data is rest hr]

theorem gatherChecked_ok {X : Type} (v : List X) : ∀ (l : List Nat), (∀ i ∈ l, i < v.length) → ∃ cs, gatherChecked v l = .ok cs ∧ cs.length = l.length
  | [], _ => ⟨[], rfl, rfl⟩
  | i :: is, h => by
    obtain ⟨cs, e, el⟩ := gatherChecked_ok v is (fun j hj => h j (by simp [hj]))
    have e1 : atChecked v i = .ok (v[i]'(h i (by simp))) := by unfold atChecked; rw [List.getElem?_eq_getElem]
    exact ⟨v[i]'(h i (by simp)) :: cs, by simp only [gatherChecked, e1, Res.ok_bind, e, Res.pure_eq], by simp [el]⟩

theorem plain_ok (P : Args A W D) (hps : LawfulPartialSort P.ps) {data : List A} {weights : List W} (hI : InI64 data.length)
    (havg : ∀ xs ws, ∃ c, P.avg xs ws = .ok c) (hth : InI64 P.threads) (hk : 0 < P.k) (hk2 : P.k ≤ 2147483647)
    (hw : data.length ≤ weights.length) {r : Res (List Int)} (h : PlainRun P data weights r) : ∃ out, r = .ok out := by
  cases h with
  | empty => exact ⟨_, rfl⟩
  | one => exact ⟨_, rfl⟩
  | zero _ h => omega
  | negative _ h => omega
  | run h h1 hp hg hr =>
    have := gather_length _ _ _ hg
    exact fromCenters_ok P hps hI havg hth hk hk2 hw hr (by have := hp.2.2; omega)

/-- C32: with an averaging function that does not throw, at least one weight per datum and a positive number of clusters (below 2^31 / 5
with preliminary clustering), whatever is drawn and however the threads run, a call that ends returns labels: it does not throw and has no
undefined behaviour. -/
theorem C32_never_fails (P : Args A W D) (hps : LawfulPartialSort P.ps) (data : List A) (weights : List W) (prelim : Bool)
    (hI : InI64 data.length) (havg : ∀ xs ws, ∃ c, P.avg xs ws = .ok c) (hth : InI64 P.threads) (hk : 0 < P.k)
    (hk2 : P.k ≤ 2147483647) (hk5 : prelim = true → P.k * 5 ≤ 2147483647) (hw : data.length ≤ weights.length) (r : Res (List Int))
    (h : ClusterRun P data weights prelim r) : ∃ out, r = .ok out := by
  have hkI : InI64 P.k := by unfold InI64; omega
  have sub : ∀ {picked : List Nat} {sub : List A} {subW : List W}, Picked data.length (subsetSize data.length) picked →
      gatherChecked data picked = .ok sub → gatherChecked weights picked = .ok subW → sub.length = picked.length ∧
      subW.length = picked.length ∧ InI64 sub.length := by
    intro picked sub subW hp h1 h2
    obtain ⟨_, e1, l1⟩ := gatherChecked_ok data picked hp.2.1
    obtain ⟨_, e2, l2⟩ := gatherChecked_ok weights picked (fun i hi => lt_of_lt_of_le (hp.2.1 i hi) hw)
    rw [e1] at h1; rw [e2] at h2
    cases h1; cases h2
    refine ⟨l1, l2, ?_⟩
    have h3 := hp.2.2
    have : subsetSize data.length ≤ data.length := by unfold subsetSize; rcases data with _ | _ <;> simp; omega
    unfold InI64 at *
    omega
  cases h with
  | early _ hr => exact plain_ok P hps hI havg hth hk hk2 hw hr
  | plain _ hr => exact plain_ok P hps hI havg hth hk hk2 hw hr
  | overflow hp _ he =>
    unfold prelimEnabled at he
    rw [if_pos ⟨by omega, hk5 hp⟩] at he
    cases he
  | weightsThrow hp _ _ hpk _ hwt =>
    obtain ⟨_, e, _⟩ := gatherChecked_ok weights _ (fun i hi => lt_of_lt_of_le (hpk.2.1 i hi) hw)
    rw [e] at hwt; cases hwt
  | subThrow _ _ _ hpk hg hwt hs =>
    obtain ⟨l1, l2, hi⟩ := sub hpk hg hwt
    obtain ⟨_, e⟩ := plain_ok P hps hi havg hth hk hk2 (by omega) hs
    cases e
  | centersThrow _ _ _ hpk hg hwt hs hc =>
    obtain ⟨l1, l2, hi⟩ := sub hpk hg hwt
    have hl := (plain_spec P hps hi hth hk2 hs).1
    obtain ⟨_, e, _⟩ := centers_ok hc havg hkI (by omega) hth hl.1 hl.2 (by omega)
    cases e
  | subUb _ _ _ hpk hg hwt hs =>
    obtain ⟨l1, l2, hi⟩ := sub hpk hg hwt
    rcases hs with hs | ⟨l, hs, hc⟩
    · obtain ⟨_, e⟩ := plain_ok P hps hi havg hth hk hk2 (by omega) hs
      cases e
    · have hl := (plain_spec P hps hi hth hk2 hs).1
      obtain ⟨_, e, _⟩ := centers_ok hc havg hkI (by omega) hth hl.1 hl.2 (by omega)
      cases e
  | prelim _ _ _ hpk hg hwt hs hc hr =>
    obtain ⟨l1, l2, hi⟩ := sub hpk hg hwt
    have hl := (plain_spec P hps hi hth hk2 hs).1
    obtain ⟨cs, e, hcl⟩ := centers_ok hc havg hkI (by omega) hth hl.1 hl.2 (by omega)
    cases e
    exact fromCenters_ok P hps hI havg hth hk hk2 hw hr hcl

/-- Non-vacuity: an averaging function that never fails. -/
example : ∀ (xs : List Int) (ws : List Int), ∃ c, (fun xs _ => Res.ok (xs.headD 0) : List Int → List Int → Res Int) xs ws = .ok c :=
  fun _ _ => ⟨_, rfl⟩

end CRU.Kmeans
