import Verif.Hier.Merge
import Mathlib.Data.ENat.Basic
/-
  C33: hierarchical clustering.
-/
namespace CRU.Hier
open CRU.Parallel CRU.Distances
set_option linter.unusedSectionVars false

variable {D : Type} [LinearOrder D] [OrderTop D] [Zero D]

/-- The matrix is symmetric. -/
def Symm (n : Nat) (m : Nat → Nat → D) : Prop := ∀ i j, i < n → j < n → m i j = m j i

/-- What is assumed of a call: a square, symmetric matrix without negative entries whose size and number of threads fit `int64_t`,
and thread numbers that exist. -/
structure Call.Good (n : Nat) (P : Args D) : Prop where
  pos : 0 < n
  mat : GoodMat n P.m
  symm : Symm n P.m.val
  size : InI64 n
  threads : InI64 P.threads
  tid : GoodTid P.b P.threads

theorem couldMerge_symm {n : Nat} {s : Strategy} {m : Nat → Nat → D} (hs : Symm n m) {bound : D} {a b : List Nat}
    (ha : ∀ x ∈ a, x < n) (hb : ∀ x ∈ b, x < n) (h : CouldMerge s m bound a b) : CouldMerge s m bound b a := by
  cases s with
  | completeLink =>
    intro i hi j hj
    have := h j hj i hi
    unfold Within at *
    rwa [hs i j (hb i hi) (ha j hj)]
  | singleLink =>
    obtain ⟨i, hi, j, hj, hw⟩ := h
    refine ⟨j, hj, i, hi, ?_⟩
    unfold Within at *
    rwa [hs j i (hb j hj) (ha i hi)]

theorem allVal_attained (m : Nat → Nat → D) (ys : List Nat) : ∀ (xs : List Nat) (acc : D × D),
    (allVal m ys xs acc).2 = acc.2 ∨ ∃ x ∈ xs, ∃ y ∈ ys, m x y = (allVal m ys xs acc).2 := by
  have row : ∀ (x : Nat) (ys : List Nat) (acc : D × D), (rowVal m x ys acc).2 = acc.2 ∨ ∃ y ∈ ys, m x y = (rowVal m x ys acc).2 := by
    intro x ys
    induction ys with
    | nil => intro acc; exact .inl rfl
    | cons y ys ih =>
      intro acc
      rw [show rowVal m x (y :: ys) acc = rowVal m x ys (min acc.1 (m x y), max acc.2 (m x y)) from rfl]
      rcases ih (min acc.1 (m x y), max acc.2 (m x y)) with h | ⟨z, hz, h⟩
      · rw [h]
        rcases le_total acc.2 (m x y) with hle | hle
        · right; exact ⟨y, by simp, (max_eq_right hle).symm⟩
        · left; exact max_eq_left hle
      · right; exact ⟨z, by simp [hz], h⟩
  intro xs
  induction xs with
  | nil => intro acc; exact .inl rfl
  | cons x xs ih =>
    intro acc
    rw [show allVal m ys (x :: xs) acc = allVal m ys xs (rowVal m x ys acc) from rfl]
    rcases ih (rowVal m x ys acc) with h | ⟨z, hz, h⟩
    · rw [h]
      rcases row x ys acc with h' | ⟨y, hy, h'⟩
      · exact .inl h'
      · exact .inr ⟨x, by simp, y, hy, h'⟩
    · exact .inr ⟨z, by simp [hz], h⟩

theorem linkVal_attained (s : Strategy) (m : Nat → Nat → D) (xs ys : List Nat) (hx : xs ≠ []) (hy : ys ≠ [])
    (h0 : ∀ x ∈ xs, ∀ y ∈ ys, 0 ≤ m x y) (hlt : linkVal s m xs ys < ⊤) : ∃ x ∈ xs, ∃ y ∈ ys, m x y = linkVal s m xs ys := by
  have hspec := linkVal_spec s m xs ys hx hy h0
  have hc := (hspec.2 _).mp ⟨le_refl _, hlt⟩
  cases s with
  | singleLink =>
    obtain ⟨x, hx, y, hy, h1, h2⟩ := hc
    exact ⟨x, hx, y, hy, le_antisymm h1 ((hspec.2 (m x y)).mpr ⟨x, hx, y, hy, le_refl _, h2⟩).1⟩
  | completeLink =>
    have hv : linkVal .completeLink m xs ys = (allVal m ys xs (⊤, 0)).2 := by simp [linkVal]
    rw [hv] at *
    rcases allVal_attained m ys xs (⊤, 0) with h | h
    · obtain ⟨x, xs', rfl⟩ := List.exists_cons_of_ne_nil hx
      obtain ⟨y, ys', rfl⟩ := List.exists_cons_of_ne_nil hy
      refine ⟨x, by simp, y, by simp, ?_⟩
      exact le_antisymm (hc x (by simp) y (by simp)).1 (by rw [h]; exact h0 x (by simp) y (by simp))
    · exact h

/-! ### One step -/

/-- What one merge of the loop does, in terms of the clusters and the recorded distance. -/
structure StepH (n : Nat) (s : Strategy) (m : Nat → Nat → D) (bound : D) (cs : List (List Nat)) (cs' : List (List Nat)) (d' : D) : Prop where
  merge : ∃ a b, Merges a b cs cs' ∧ CouldMerge s m d' a b ∧ ∃ i ∈ a, ∃ j ∈ b, m i j = d'
  le : d' ≤ bound
  lt : d' < ⊤
  min : Symm n m → ∀ x, x < d' → cs.Pairwise fun a b => ¬ CouldMerge s m x a b

theorem wf_part {n : Nat} {st : St D} (h : WF n st) : IsPartition n (finish st) := by
  refine ⟨by rw [finish_flatten]; exact h.perm, ?_⟩
  intro c hc
  rw [finish_items, List.mem_map] at hc
  obtain ⟨it, hit, rfl⟩ := hc
  exact live_ne (mem_items.mp hit)

theorem pairwise_finish {n : Nat} {st : St D} {s : Strategy} {m : Nat → Nat → D} (h : WF n st) (h0 : ∀ i j, i < n → j < n → 0 ≤ m i j)
    (hs : Symm n m) (x : D) (hc : ∀ p, Cand s m st p → ¬ (p.dist ≤ x ∧ p.dist < ⊤)) :
    (finish st).Pairwise fun a b => ¬ CouldMerge s m x a b := by
  rw [finish_items, List.pairwise_map]
  refine (items_nodup st).imp_of_mem ?_
  intro f g hf hg hne hcm
  rw [mem_items] at hf hg
  have ltf := live_index h hf
  have ltg := live_index h hg
  rcases live_cand s m hf hg hne with hc' | hc'
  · refine hc _ hc' (((linkVal_spec s m _ _ (live_ne hf) (live_ne hg) ?_).2 x).mpr hcm)
    exact fun i hi j hj => h0 i j (ltf i hi) (ltg j hj)
  · refine hc _ hc' (((linkVal_spec s m _ _ (live_ne hg) (live_ne hf) ?_).2 x).mpr (couldMerge_symm hs ltf ltg hcm))
    exact fun i hi j hj => h0 i j (ltg i hi) (ltf j hj)

theorem best_step {n : Nat} {st st' : St D} {s : Strategy} {m : Nat → Nat → D} {bound : D} {p : Pair D} (h : WF n st)
    (h0 : ∀ i j, i < n → j < n → 0 ≤ m i j)
    (hb : Best (Cand s m st) (some p)) (hle : p.dist ≤ bound) (hm : mergePair st p = .ok st') :
    WF n st' ∧ StepH n s m bound (finish st) (finish st') st'.closest := by
  obtain ⟨hc, hlt, hmin⟩ := hb
  obtain ⟨hf, hg, hne, hp⟩ := cand_live hc
  obtain ⟨st2, e, hwf, hcl, hmg⟩ := merge_ok h p.first p.second p.dist hf hg hne
  rw [show (⟨p.first, p.second, p.dist⟩ : Pair D) = p from rfl, hm] at e
  cases e
  have ltf := live_index h hf
  have ltg := live_index h hg
  have hd : p.dist = linkVal s m (elems st p.first) (elems st p.second) := congrArg Pair.dist hp
  have hnn : ∀ i ∈ elems st p.first, ∀ j ∈ elems st p.second, 0 ≤ m i j := fun i hi j hj => h0 i j (ltf i hi) (ltg j hj)
  have hspec := linkVal_spec s m _ _ (live_ne hf) (live_ne hg) hnn
  refine ⟨hwf, ?_⟩
  rw [hcl]
  refine ⟨⟨_, _, hmg, ?_, ?_⟩, hle, hlt, ?_⟩
  · exact (hspec.2 _).mp (by rw [← hd]; exact ⟨le_refl _, hlt⟩)
  · rw [hd] at hlt ⊢
    exact linkVal_attained s m _ _ (live_ne hf) (live_ne hg) hnn hlt
  · intro hs x hx
    refine pairwise_finish h h0 hs x ?_
    rintro q hq ⟨h1, _⟩
    exact absurd (lt_of_le_of_lt h1 hx) (not_lt.mpr (hmin q hq))

/-- The loop ends in a state that has every property kept by the merges, and where no candidate is within the bound. -/
theorem loop_spec {n : Nat} {P : Args D} (hm : GoodMat n P.m) (hI : InI64 n) (hth : InI64 P.threads) (htid : GoodTid P.b P.threads)
    (J : List (List Nat) → D → Prop)
    (hJ : ∀ cs d cs' d', IsPartition n cs → J cs d → StepH n P.s P.m.val P.bound cs cs' d' → IsPartition n cs' → J cs' d')
    {st : St D} {r : Res (St D)} (hr : LoopRun P st r) (h : WF n st) (hj : J (finish st) st.closest) :
    ∃ st', r = .ok st' ∧ WF n st' ∧ J (finish st') st'.closest ∧
      ∀ p, Cand P.s P.m.val st' p → ¬ (p.dist ≤ P.bound ∧ p.dist < ⊤) := by
  induction hr with
  | none hp =>
    obtain ⟨c, e, hb⟩ := pair_best h hm hI hth htid hp
    cases e
    exact ⟨_, rfl, h, hj, fun p hp => by rw [hb p hp]; simp⟩
  | far hp hf =>
    obtain ⟨c, e, hb⟩ := pair_best h hm hI hth htid hp
    cases e
    exact ⟨_, rfl, h, hj, fun p hp hle => hf (le_trans (hb.2.2 p hp) hle.1)⟩
  | step hp hle hmg _ ih =>
    obtain ⟨c, e, hb⟩ := pair_best h hm hI hth htid hp
    cases e
    obtain ⟨h1, h2⟩ := best_step h hm.nonneg hb hle hmg
    exact ih h1 (hJ _ _ _ _ (wf_part h) hj h2 (wf_part h1))
  | mergeThrow hp hle hmg =>
    obtain ⟨c, e, hb⟩ := pair_best h hm hI hth htid hp
    cases e
    obtain ⟨hf, hg, hne, _⟩ := cand_live hb.1
    obtain ⟨st2, e, _⟩ := merge_ok h _ _ (Pair.dist _) hf hg hne
    rw [e] at hmg
    cases hmg
  | mergeUb hp hle hmg =>
    obtain ⟨c, e, hb⟩ := pair_best h hm hI hth htid hp
    cases e
    obtain ⟨hf, hg, hne, _⟩ := cand_live hb.1
    obtain ⟨st2, e, _⟩ := merge_ok h _ _ (Pair.dist _) hf hg hne
    rw [e] at hmg
    cases hmg
  | pairThrow hp =>
    obtain ⟨c, e, _⟩ := pair_best h hm hI hth htid hp
    cases e
  | pairUb hp =>
    obtain ⟨c, e, _⟩ := pair_best h hm hI hth htid hp
    cases e

theorem init_wf (n : Nat) : WF n (initSt n : St D) := by
  have hu : unmasked (initSt n : St D).mask = List.range n := by
    simp only [unmasked, initSt, List.length_replicate]
    rw [List.filter_eq_self]
    intro i hi
    rw [List.mem_range] at hi
    simp [List.getElem?_replicate, hi]
  exact ⟨by simp [initSt], by rw [hu]; simp [initSt], by rw [hu]; simp [initSt]⟩

theorem init_finish (n : Nat) : finish (initSt n : St D) = (List.range n).map fun v => [v] := by
  have hu : unmasked (initSt n : St D).mask = List.range n := by
    simp only [unmasked, initSt, List.length_replicate]
    rw [List.filter_eq_self]
    intro i hi
    rw [List.mem_range] at hi
    simp [List.getElem?_replicate, hi]
  unfold finish
  rw [hu]
  simp [initSt]

theorem index_spec {n : Nat} {P : Args D} (hn : 0 < n) (hm : GoodMat n P.m) (hI : InI64 n) (hth : InI64 P.threads)
    (htid : GoodTid P.b P.threads) (J : List (List Nat) → D → Prop) (hinit : J ((List.range n).map fun v => [v]) 0)
    (hJ : ∀ cs d cs' d', IsPartition n cs → J cs d → StepH n P.s P.m.val P.bound cs cs' d' → IsPartition n cs' → J cs' d')
    {r : Res (List (List Nat) × D)} (hr : IndexClusterRun P r) :
    ∃ cs d, r = .ok (cs, d) ∧ IsPartition n cs ∧ J cs d ∧ (Symm n P.m.val → Maximal P.s P.m.val P.bound cs) := by
  unfold IndexClusterRun at hr
  rw [if_neg (by rw [hm.rows, hm.cols]; simp), if_neg (by rw [hm.rows]; omega)] at hr
  obtain ⟨rl, hl, rfl⟩ := hr
  rw [hm.rows] at hl
  obtain ⟨st', e, hwf, hj, hstop⟩ := loop_spec hm hI hth htid J hJ hl (init_wf n) (by rw [init_finish]; exact hinit)
  subst e
  exact ⟨_, _, rfl, wf_part hwf, hj, fun hs => pairwise_finish hwf hm.nonneg hs P.bound hstop⟩

/-! ### The theorems -/

/-- C33: whatever the matrix (square, entries at least zero, not even symmetric), bound, strategy and schedule, the clusters
returned contain every index exactly once and none is empty. -/
theorem C33_partition (n : Nat) (P : Args D) (hn : 0 < n) (hm : GoodMat n P.m) (hI : InI64 n) (hth : InI64 P.threads)
    (htid : GoodTid P.b P.threads) (r : Res (List (List Nat) × D)) (hr : IndexClusterRun P r) :
    ∃ cs d, r = .ok (cs, d) ∧ IsPartition n cs := by
  obtain ⟨cs, d, h1, h2, _⟩ := index_spec hn hm hI hth htid (fun _ _ => True) trivial (fun _ _ _ _ _ _ _ _ => trivial) hr
  exact ⟨cs, d, h1, h2⟩

theorem part_nodup {n : Nat} {cs : List (List Nat)} (h : IsPartition n cs) : cs.flatten.Nodup := h.1.nodup_iff.mpr List.nodup_range

theorem part_lt {n : Nat} {cs : List (List Nat)} (h : IsPartition n cs) {c : List Nat} (hc : c ∈ cs) {x : Nat} (hx : x ∈ c) : x < n := by
  have : x ∈ List.range n := h.1.subset (List.mem_flatten.mpr ⟨c, hc, hx⟩)
  simpa using this

theorem merges_facts {n : Nat} {a b : List Nat} {cs cs' : List (List Nat)} (hp : IsPartition n cs) (h : Merges a b cs cs') :
    a ∈ cs ∧ b ∈ cs ∧ (∀ i ∈ a, ∀ j ∈ b, i ≠ j) ∧
    ∃ c, c ∈ cs' ∧ (∀ x, x ∈ c ↔ x ∈ a ∨ x ∈ b) ∧ (∀ c' ∈ cs', c' = c ∨ c' ∈ cs) ∧ (∀ c' ∈ cs, c' = a ∨ c' = b ∨ c' ∈ cs') := by
  obtain ⟨c, rest, h1, h2, h3⟩ := h
  have ha : a ∈ cs := h2.symm.subset (by simp)
  have hb : b ∈ cs := h2.symm.subset (by simp)
  refine ⟨ha, hb, ?_, c, h3.symm.subset (by simp), ?_, ?_, ?_⟩
  · have hnd := part_nodup hp
    rw [h2.flatten.nodup_iff, List.flatten_cons, List.flatten_cons, List.nodup_append] at hnd
    intro i hi j hj
    exact hnd.2.2 i hi j (by simp [hj])
  · intro x
    rw [h1.mem_iff, List.mem_append]
  · intro c' hc'
    have := h3.subset hc'
    rcases List.mem_cons.mp this with h | h
    · exact .inl h
    · exact .inr (h2.symm.subset (by simp [h]))
  · intro c' hc'
    have := h2.subset hc'
    simp only [List.mem_cons] at this
    rcases this with h | h | h
    · exact .inl h
    · exact .inr (.inl h)
    · exact .inr (.inr (h3.symm.subset (by simp [h])))

/-- Merging never makes clusters that could have been merged earlier. -/
theorem mono_step {n : Nat} {s : Strategy} {m : Nat → Nat → D} (hs : Symm n m) {a b : List Nat} {cs cs' : List (List Nat)} {x : D}
    (hp : IsPartition n cs) (hp' : IsPartition n cs') (h : Merges a b cs cs')
    (hc : cs.Pairwise fun a b => ¬ CouldMerge s m x a b) : cs'.Pairwise fun a b => ¬ CouldMerge s m x a b := by
  obtain ⟨c, rest, h1, h2, h3⟩ := h
  have ha : a ≠ [] := hp.2 a (h2.symm.subset (by simp))
  have hb : b ≠ [] := hp.2 b (h2.symm.subset (by simp))
  have lt : ∀ c ∈ a :: b :: rest, ∀ x ∈ c, x < n := fun c hc x hx => part_lt hp (h2.symm.subset hc) hx
  have lt' : ∀ d ∈ c :: rest, ∀ x ∈ d, x < n := fun d hd x hx => part_lt hp' (h3.symm.subset hd) hx
  -- the same with "both below n" built in, which is a symmetric relation
  let R : List Nat → List Nat → Prop := fun u v => ((∀ x ∈ u, x < n) ∧ ∀ x ∈ v, x < n) → ¬ CouldMerge s m x u v
  have hsym : ∀ {u v}, R u v → R v u := by
    intro u v h hlt hcm
    exact h ⟨hlt.2, hlt.1⟩ (couldMerge_symm hs hlt.1 hlt.2 hcm)
  have q1 : cs.Pairwise R := List.Pairwise.imp (fun {u v} (h : ¬ CouldMerge s m x u v) (_ : (∀ x ∈ u, x < n) ∧ ∀ x ∈ v, x < n) => h) hc
  have q2 : (a :: b :: rest).Pairwise R := (h2.pairwise_iff hsym).mp q1
  rw [List.pairwise_cons, List.pairwise_cons] at q2
  obtain ⟨qa, qb, qr⟩ := q2
  have q3 : (c :: rest).Pairwise R := by
    rw [List.pairwise_cons]
    refine ⟨?_, qr⟩
    intro e he hlt hcm
    have la := lt a (by simp)
    have lb := lt b (by simp)
    have le := lt e (by simp [he])
    cases s with
    | completeLink =>
      exact qa e (by simp [he]) ⟨la, le⟩ fun i hi j hj => hcm i (h1.symm.subset (by simp [hi])) j hj
    | singleLink =>
      obtain ⟨i, hi, j, hj, hw⟩ := hcm
      have hi' := h1.subset hi
      rw [List.mem_append] at hi'
      rcases hi' with hi' | hi'
      · exact qa e (by simp [he]) ⟨la, le⟩ ⟨i, hi', j, hj, hw⟩
      · exact qb e he ⟨lb, le⟩ ⟨i, hi', j, hj, hw⟩
  have q4 : cs'.Pairwise R := (h3.pairwise_iff hsym).mpr q3
  refine q4.imp_of_mem ?_
  intro u v hu hv hr
  exact hr ⟨lt' u (h3.subset hu), lt' v (h3.subset hv)⟩

/-- The final distance: no clusters are closer, it is zero or at most the bound, and it is the distance of two elements of a cluster
unless nothing was merged. -/
structure Final (n : Nat) (s : Strategy) (m : Nat → Nat → D) (bound : D) (cs : List (List Nat)) (d : D) : Prop where
  mono : ∀ x, x < d → cs.Pairwise fun a b => ¬ CouldMerge s m x a b
  range : ((∀ c ∈ cs, ∃ v, c = [v]) ∧ d = 0) ∨ (d ≤ bound ∧ d < ⊤ ∧ ∃ c ∈ cs, ∃ i ∈ c, ∃ j ∈ c, i ≠ j ∧ m i j = d)

theorem final_step {n : Nat} {s : Strategy} {m : Nat → Nat → D} (hs : Symm n m) {bound : D} {cs cs' : List (List Nat)} {d d' : D}
    (hp : IsPartition n cs) (hp' : IsPartition n cs') (_h : Final n s m bound cs d) (hst : StepH n s m bound cs cs' d') :
    Final n s m bound cs' d' := by
  obtain ⟨a, b, hmg, _, i, hi, j, hj, hij⟩ := hst.merge
  obtain ⟨_, _, hdis, c, hc, hcx, _, _⟩ := merges_facts hp hmg
  refine ⟨fun x hx => mono_step hs hp hp' hmg (hst.min hs x hx), .inr ⟨hst.le, hst.lt, c, hc, i, (hcx i).mpr (.inl hi), j, (hcx j).mpr (.inr hj),
    hdis i hi j hj, hij⟩⟩

theorem final_init {n : Nat} {s : Strategy} {m : Nat → Nat → D} (h0 : ∀ i j, i < n → j < n → 0 ≤ m i j) {bound : D} :
    Final n s m bound ((List.range n).map fun v => [v]) 0 := by
  refine ⟨?_, .inl ⟨by simp, rfl⟩⟩
  intro x hx
  rw [List.pairwise_map]
  refine List.nodup_range.imp_of_mem ?_
  intro i j hi hj _ hcm
  rw [List.mem_range] at hi hj
  have hw : Within m x i j := by
    cases s with
    | completeLink => exact hcm i (by simp) j (by simp)
    | singleLink => obtain ⟨i', hi', j', hj', h⟩ := hcm; simp at hi' hj'; subst hi' hj'; exact h
  exact absurd (lt_of_le_of_lt hw.1 hx) (not_lt.mpr (h0 i j hi hj))

/-- The distance does not decrease along a merge. -/
theorem le_of_step {n : Nat} {s : Strategy} {m : Nat → Nat → D} {bound : D} {cs cs' : List (List Nat)} {d d' : D} (hs : Symm n m)
    (hp : IsPartition n cs) (h : Final n s m bound cs d) (hst : StepH n s m bound cs cs' d') : d ≤ d' := by
  by_contra hc
  obtain ⟨a, b, ⟨c, rest, _, h2, _⟩, hcm, _⟩ := hst.merge
  let R : List Nat → List Nat → Prop := fun u v => ((∀ x ∈ u, x < n) ∧ ∀ x ∈ v, x < n) → ¬ CouldMerge s m d' u v
  have hsym : ∀ {u v}, R u v → R v u := by
    intro u v h hlt hcm
    exact h ⟨hlt.2, hlt.1⟩ (couldMerge_symm hs hlt.1 hlt.2 hcm)
  have q1 : cs.Pairwise R := List.Pairwise.imp (fun {u v} (h : ¬ CouldMerge s m d' u v) (_ : (∀ x ∈ u, x < n) ∧ ∀ x ∈ v, x < n) => h) (h.mono d' (not_le.mp hc))
  have q2 : (a :: b :: rest).Pairwise R := (h2.pairwise_iff hsym).mp q1
  rw [List.pairwise_cons] at q2
  exact q2.1 b (by simp) ⟨fun x hx => part_lt hp (h2.symm.subset (by simp)) hx, fun x hx => part_lt hp (h2.symm.subset (by simp)) hx⟩ hcm

/-- C33: no two of the clusters returned could still be merged within the bound. -/
theorem C33_maximal (n : Nat) (P : Args D) (h : Call.Good n P) (r : Res (List (List Nat) × D)) (hr : IndexClusterRun P r) :
    ∃ cs d, r = .ok (cs, d) ∧ Maximal P.s P.m.val P.bound cs := by
  obtain ⟨cs, d, h1, _, _, h4⟩ := index_spec h.pos h.mat h.size h.threads h.tid (fun _ _ => True) trivial
    (fun _ _ _ _ _ _ _ _ => trivial) hr
  exact ⟨cs, d, h1, h4 h.symm⟩

/-- C33: with complete link every two elements of a cluster are within the bound, even within the final distance reported, and that
distance is attained by two elements of one cluster (or is 0 if nothing was merged): it is the largest cluster diameter. -/
theorem C33_complete_link_diameter (n : Nat) (P : Args D) (h : Call.Good n P) (hs : P.s = .completeLink)
    (r : Res (List (List Nat) × D)) (hr : IndexClusterRun P r) :
    ∃ cs d, r = .ok (cs, d) ∧ BoundedDiameter P.m.val P.bound cs ∧ BoundedDiameter P.m.val d cs ∧
      (((∀ c ∈ cs, ∃ v, c = [v]) ∧ d = 0) ∨ ∃ c ∈ cs, ∃ i ∈ c, ∃ j ∈ c, i ≠ j ∧ P.m.val i j = d) := by
  obtain ⟨cs, d, h1, _, ⟨h3, h4⟩, _⟩ := index_spec h.pos h.mat h.size h.threads h.tid
    (fun cs d => Final n P.s P.m.val P.bound cs d ∧ BoundedDiameter P.m.val d cs)
    ⟨final_init h.mat.nonneg, by
      intro c hc i hi j hj hij
      rw [List.mem_map] at hc
      obtain ⟨v, _, rfl⟩ := hc
      simp at hi hj
      omega⟩
    (by
      rintro cs d cs' d' hp ⟨hF, hB⟩ hst hp'
      refine ⟨final_step h.symm hp hp' hF hst, ?_⟩
      have hdd := le_of_step h.symm hp hF hst
      obtain ⟨a, b, hmg, hcm, _⟩ := hst.merge
      obtain ⟨ha, hb, _, c, _, hcx, hall, _⟩ := merges_facts hp hmg
      rw [hs] at hcm
      have up : ∀ {i j}, Within P.m.val d i j → Within P.m.val d' i j := fun h => ⟨le_trans h.1 hdd, h.2⟩
      intro e he i hi j hj hij
      rcases hall e he with rfl | he'
      · rcases (hcx i).mp hi with hi | hi <;> rcases (hcx j).mp hj with hj | hj
        · exact up (hB a ha i hi j hj hij)
        · exact hcm i hi j hj
        · have := hcm j hj i hi
          unfold Within at *
          rwa [h.symm i j (part_lt hp hb hi) (part_lt hp ha hj)]
        · exact up (hB b hb i hi j hj hij)
      · exact up (hB e he' i hi j hj hij)) hr
  refine ⟨cs, d, h1, ?_, h4, ?_⟩
  · rcases h3.range with ⟨hsg, _⟩ | ⟨hle, _, _⟩
    · intro c hc i hi j hj hij
      obtain ⟨v, rfl⟩ := hsg c hc
      simp at hi hj
      omega
    · intro c hc i hi j hj hij
      obtain ⟨q1, q2⟩ := h4 c hc i hi j hj hij
      exact ⟨le_trans q1 hle, q2⟩
  · rcases h3.range with hsg | ⟨_, _, hex⟩
    · exact .inl hsg
    · exact .inr hex

theorem pw_forall {X : Type} {R : X → X → Prop} (hs : ∀ {a b}, R a b → R b a) {l : List X} (h : l.Pairwise R) {a b : X} (ha : a ∈ l)
    (hb : b ∈ l) (hne : a ≠ b) : R a b :=
  haveI : Std.Symm R := ⟨fun _ _ h => hs h⟩
  h.forall ha hb hne

theorem linked_mono {n : Nat} {m : Nat → Nat → D} {d d' : D} (h : d ≤ d') {i j : Nat} (hl : Linked n m d i j) : Linked n m d' i j := by
  induction hl with
  | refl => exact Relation.ReflTransGen.refl
  | tail _ hxy ih => exact ih.tail ⟨hxy.1, hxy.2.1, le_trans hxy.2.2.1 h, hxy.2.2.2⟩

theorem part_same {n : Nat} {cs : List (List Nat)} (h : IsPartition n cs) {c c' : List Nat} (hc : c ∈ cs) (hc' : c' ∈ cs) {x : Nat}
    (hx : x ∈ c) (hx' : x ∈ c') : c = c' := by
  have hnd := part_nodup h
  rw [List.nodup_flatten] at hnd
  by_contra hne
  have := pw_forall (fun {_ _} (h : List.Disjoint _ _) => fun _ hx hx' => h hx' hx) hnd.2 hc hc' hne
  exact this hx hx'

/-- C33: with single link two elements are in one cluster exactly if a chain of elements links them whose steps are within the bound;
and the steps can even be chosen within the final distance reported. -/
theorem C33_single_link_components (n : Nat) (P : Args D) (h : Call.Good n P) (hs : P.s = .singleLink)
    (r : Res (List (List Nat) × D)) (hr : IndexClusterRun P r) :
    ∃ cs d, r = .ok (cs, d) ∧ (∀ i j, i < n → j < n → (Together cs i j ↔ Linked n P.m.val P.bound i j)) ∧
      (∀ i j, Together cs i j → Linked n P.m.val d i j) := by
  obtain ⟨cs, d, h1, hpart, ⟨h3, h4⟩, hmax⟩ := index_spec h.pos h.mat h.size h.threads h.tid
    (fun cs d => Final n P.s P.m.val P.bound cs d ∧ ∀ i j, Together cs i j → Linked n P.m.val d i j)
    ⟨final_init h.mat.nonneg, by
      rintro i j ⟨c, hc, hi, hj⟩
      rw [List.mem_map] at hc
      obtain ⟨v, _, rfl⟩ := hc
      simp at hi hj
      subst hi hj
      exact Relation.ReflTransGen.refl⟩
    (by
      rintro cs d cs' d' hp ⟨hF, hT⟩ hst hp'
      refine ⟨final_step h.symm hp hp' hF hst, ?_⟩
      have hdd := le_of_step h.symm hp hF hst
      obtain ⟨a, b, hmg, hcm, _⟩ := hst.merge
      obtain ⟨ha, hb, _, c, _, hcx, hall, _⟩ := merges_facts hp hmg
      rw [hs] at hcm
      obtain ⟨u, hu, v, hv, huv⟩ := hcm
      have lu := part_lt hp ha hu
      have lv := part_lt hp hb hv
      have up : ∀ {i j}, Linked n P.m.val d i j → Linked n P.m.val d' i j := fun h => linked_mono hdd h
      have s1 : Linked n P.m.val d' u v := Relation.ReflTransGen.single ⟨lu, lv, huv⟩
      have s2 : Linked n P.m.val d' v u := Relation.ReflTransGen.single ⟨lv, lu, by
        unfold Within at *; rwa [h.symm v u lv lu]⟩
      rintro i j ⟨e, he, hi, hj⟩
      rcases hall e he with rfl | he'
      · rcases (hcx i).mp hi with hi | hi <;> rcases (hcx j).mp hj with hj | hj
        · exact up (hT i j ⟨a, ha, hi, hj⟩)
        · exact ((up (hT i u ⟨a, ha, hi, hu⟩)).trans s1).trans (up (hT v j ⟨b, hb, hv, hj⟩))
        · exact ((up (hT i v ⟨b, hb, hi, hv⟩)).trans s2).trans (up (hT u j ⟨a, ha, hu, hj⟩))
        · exact up (hT i j ⟨b, hb, hi, hj⟩)
      · exact up (hT i j ⟨e, he', hi, hj⟩)) hr
  have hmax := hmax h.symm
  refine ⟨cs, d, h1, ?_, h4⟩
  intro i j hi hj
  constructor
  · intro ht
    rcases h3.range with ⟨hsg, _⟩ | ⟨hle, _, _⟩
    · obtain ⟨c, hc, hic, hjc⟩ := ht
      obtain ⟨v, rfl⟩ := hsg c hc
      simp at hic hjc
      subst hic hjc
      exact Relation.ReflTransGen.refl
    · exact linked_mono hle (h4 i j ht)
  · intro hl
    have cover : ∀ x, x < n → ∃ c ∈ cs, x ∈ c := by
      intro x hx
      have : x ∈ cs.flatten := hpart.1.symm.subset (by simpa using hx)
      exact List.mem_flatten.mp this
    have sym : ∀ {u v : List Nat}, (((∀ x ∈ u, x < n) ∧ ∀ x ∈ v, x < n) → ¬ CouldMerge P.s P.m.val P.bound u v) →
        (((∀ x ∈ v, x < n) ∧ ∀ x ∈ u, x < n) → ¬ CouldMerge P.s P.m.val P.bound v u) := by
      intro u v h' hlt hcm
      exact h' ⟨hlt.2, hlt.1⟩ (couldMerge_symm h.symm hlt.1 hlt.2 hcm)
    have hmax' : cs.Pairwise fun u v => ((∀ x ∈ u, x < n) ∧ ∀ x ∈ v, x < n) → ¬ CouldMerge P.s P.m.val P.bound u v := 
      List.Pairwise.imp (fun {u v} (h : ¬ CouldMerge P.s P.m.val P.bound u v) (_ : (∀ x ∈ u, x < n) ∧ ∀ x ∈ v, x < n) => h) hmax
    induction hl with
    | refl => obtain ⟨c, hc, hx⟩ := cover i hi; exact ⟨c, hc, hx, hx⟩
    | @tail y z _ hstep ih =>
      obtain ⟨c, hc, hic, hyc⟩ := ih hstep.1
      obtain ⟨c', hc', hzc⟩ := cover z hstep.2.1
      by_cases hcc : c = c'
      · exact ⟨c, hc, hic, hcc ▸ hzc⟩
      · exfalso
        refine pw_forall (fun {_ _} h => sym h) hmax' hc hc' hcc ⟨fun x hx => part_lt hpart hc hx, fun x hx => part_lt hpart hc' hx⟩ ?_
        rw [hs]
        exact ⟨y, hyc, z, hzc, hstep.2.2⟩

/-- One pass of the loop that merges. -/
def MergeStep (P : Args D) (st st' : St D) : Prop :=
  ∃ p, PairRun P st (.ok (some p)) ∧ p.dist ≤ P.bound ∧ mergePair st p = .ok st'

/-- C33: the loop cannot go on for ever, every run returns (with a value), and there is a run: for every matrix, bound, strategy,
backend and number of threads. -/
theorem C33_terminates (n : Nat) (P : Args D) (hn : 0 < n) (hm : GoodMat n P.m) (hI : InI64 n) (hth : InI64 P.threads)
    (htid : GoodTid P.b P.threads) :
    (¬ ∃ f : Nat → St D, f 0 = initSt n ∧ ∀ k, MergeStep P (f k) (f (k + 1))) ∧ ∃ cs d, IndexClusterRun P (.ok (cs, d)) := by
  have step : ∀ st st' : St D, WF n st → MergeStep P st st' → WF n st' ∧ (finish st').length + 1 = (finish st).length := by
    rintro st st' h ⟨p, hp, hle, hmg⟩
    obtain ⟨c, e, hb⟩ := pair_best h hm hI hth htid hp
    cases e
    obtain ⟨h1, h2⟩ := best_step h hm.nonneg hb hle hmg
    refine ⟨h1, ?_⟩
    obtain ⟨a, b, ⟨c, rest, _, q2, q3⟩, _⟩ := h2.merge
    have e2 := q2.length_eq
    have e3 := q3.length_eq
    simp only [List.length_cons] at e2 e3
    omega
  constructor
  · rintro ⟨f, hf0, hf⟩
    have : ∀ k, WF n (f k) ∧ (finish (f k)).length + k = (finish (f 0)).length := by
      intro k
      induction k with
      | zero => exact ⟨by rw [hf0]; exact init_wf n, rfl⟩
      | succ k ih =>
        obtain ⟨h1, h2⟩ := step _ _ ih.1 (hf k)
        exact ⟨h1, by omega⟩
    have h2 := (this ((finish (f 0)).length + 1)).2
    omega
  · have loop : ∀ k (st : St D), (finish st).length = k → WF n st → ∃ r, LoopRun P st r := by
      intro k
      induction k using Nat.strongRecOn with
      | _ k ih =>
        intro st hk h
        obtain ⟨r, hr⟩ := pair_exists h hI hth htid (P := P)
        obtain ⟨c, e, hb⟩ := pair_best h hm hI hth htid hr
        subst e
        cases c with
        | none => exact ⟨_, .none hr⟩
        | some p =>
          by_cases hle : p.dist ≤ P.bound
          · obtain ⟨hf, hg, hne, _⟩ := cand_live hb.1
            obtain ⟨st2, e, _⟩ := merge_ok h p.first p.second p.dist hf hg hne
            obtain ⟨h1, h2⟩ := step st st2 h ⟨p, hr, hle, e⟩
            obtain ⟨r', hr'⟩ := ih _ (by omega) st2 rfl h1
            exact ⟨r', .step hr hle e hr'⟩
          · exact ⟨_, .far hr hle⟩
    obtain ⟨rl, hl⟩ := loop _ (initSt n) rfl (init_wf n)
    obtain ⟨st', e, _⟩ := loop_spec hm hI hth htid (fun _ _ => True) (fun _ _ _ _ _ _ _ _ => trivial) hl (init_wf n) trivial
    subst e
    refine ⟨finish st', st'.closest, ?_⟩
    unfold IndexClusterRun
    rw [if_neg (by rw [hm.rows, hm.cols]; simp), if_neg (by rw [hm.rows]; omega), hm.rows]
    exact ⟨_, hl, rfl⟩

theorem pair_det {n : Nat} {P : Args D} {st : St D} (h : WF n st) (hm : GoodMat n P.m) (hI : InI64 n) (hth : InI64 P.threads)
    (hid : ∀ t, P.b.tid t = t) {r : Res (Option (Pair D))} (hr : PairRun P st r) :
    r = .ok (choose (scan none ((List.range st.mask.length).flatMap (valueCands P.s P.m.val st)))
      (scan none ((List.range st.clusters.length).flatMap (clusterCands P.s P.m.val st)))) := by
  obtain ⟨rv, rc, hv, hc, rfl⟩ := hr
  have hIc : InI64 st.clusters.length := by have := h.room; unfold InI64 at *; omega
  rw [search_eq (value_scans P.s h hm) (by rw [h.len]; exact hI) hth hid hv,
    search_eq (cluster_scans P.s h hm) hIc hth hid hc]
  rfl

/-- C33: serial and parallel clustering return the same clusters in the same order and the same final distance, whatever the number
of threads and the schedule, provided worker t runs as thread t (always so for the async backend). -/
theorem C33_parallel_agrees (n : Nat) (P P' : Args D) (hP : P'.m = P.m ∧ P'.s = P.s ∧ P'.bound = P.bound) (hn : 0 < n)
    (hm : GoodMat n P.m) (hI : InI64 n) (hth : InI64 P.threads) (hth' : InI64 P'.threads)
    (hid : ∀ t, P.b.tid t = t) (hid' : ∀ t, P'.b.tid t = t) (r r' : Res (List (List Nat) × D))
    (hr : IndexClusterRun P r) (hr' : IndexClusterRun P' r') : r = r' := by
  obtain ⟨b, th, s, m, bound⟩ := P
  obtain ⟨b', th', s', m', bound'⟩ := P'
  obtain ⟨h1, h2, h3⟩ := hP
  dsimp only at h1 h2 h3 hm hth hth' hid hid'
  subst h1 h2 h3
  have htid : GoodTid b th := by intro k t ht; rw [hid]; exact ht
  have loop : ∀ (st : St D) (rl : Res (St D)), LoopRun ⟨b, th, s', m', bound'⟩ st rl → WF n st → ∀ rl',
      LoopRun ⟨b', th', s', m', bound'⟩ st rl' → rl = rl' := by
    intro st rl hl
    have det : ∀ {st : St D} {c c' : Res (Option (Pair D))}, WF n st → PairRun ⟨b, th, s', m', bound'⟩ st c →
        PairRun ⟨b', th', s', m', bound'⟩ st c' → c = c' := by
      intro st c c' h hc hc'
      rw [pair_det (P := ⟨b, th, s', m', bound'⟩) h hm hI hth hid hc, pair_det (P := ⟨b', th', s', m', bound'⟩) h hm hI hth' hid' hc']
    induction hl with
    | none hp =>
      intro h rl' hl'
      cases hl' with
      | none hp' => rfl
      | far hp' _ => cases det h hp hp'
      | step hp' _ _ _ => cases det h hp hp'
      | mergeThrow hp' _ _ => cases det h hp hp'
      | mergeUb hp' _ _ => cases det h hp hp'
      | pairThrow hp' => cases det h hp hp'
      | pairUb hp' => cases det h hp hp'
    | far hp hf =>
      intro h rl' hl'
      cases hl' with
      | none hp' => rfl
      | far hp' _ => rfl
      | step hp' hle _ _ => cases det h hp hp'; exact absurd hle hf
      | mergeThrow hp' hle _ => cases det h hp hp'; exact absurd hle hf
      | mergeUb hp' hle _ => cases det h hp hp'; exact absurd hle hf
      | pairThrow hp' => cases det h hp hp'
      | pairUb hp' => cases det h hp hp'
    | step hp hle hmg _ ih =>
      intro h rl' hl'
      obtain ⟨c, e, hb⟩ := pair_best (P := ⟨b, th, s', m', bound'⟩) h hm hI hth htid hp
      cases e
      obtain ⟨hw, _⟩ := best_step h hm.nonneg hb hle hmg
      cases hl' with
      | none hp' => cases det h hp hp'
      | far hp' hf' => cases det h hp hp'; exact absurd hle hf'
      | step hp' _ hmg' hr' =>
        cases det h hp hp'
        rw [hmg] at hmg'
        cases hmg'
        exact ih hw _ hr'
      | mergeThrow hp' _ hmg' => cases det h hp hp'; rw [hmg] at hmg'; cases hmg'
      | mergeUb hp' _ hmg' => cases det h hp hp'; rw [hmg] at hmg'; cases hmg'
      | pairThrow hp' => cases det h hp hp'
      | pairUb hp' => cases det h hp hp'
    | mergeThrow hp hle hmg =>
      intro h rl' hl'
      obtain ⟨c, e, hb⟩ := pair_best (P := ⟨b, th, s', m', bound'⟩) h hm hI hth htid hp
      cases e
      obtain ⟨hf, hg, hne, _⟩ := cand_live hb.1
      obtain ⟨st2, e, _⟩ := merge_ok h _ _ (Pair.dist _) hf hg hne
      rw [e] at hmg
      cases hmg
    | mergeUb hp hle hmg =>
      intro h rl' hl'
      obtain ⟨c, e, hb⟩ := pair_best (P := ⟨b, th, s', m', bound'⟩) h hm hI hth htid hp
      cases e
      obtain ⟨hf, hg, hne, _⟩ := cand_live hb.1
      obtain ⟨st2, e, _⟩ := merge_ok h _ _ (Pair.dist _) hf hg hne
      rw [e] at hmg
      cases hmg
    | pairThrow hp =>
      intro h rl' _
      obtain ⟨c, e, _⟩ := pair_best (P := ⟨b, th, s', m', bound'⟩) h hm hI hth htid hp
      cases e
    | pairUb hp =>
      intro h rl' _
      obtain ⟨c, e, _⟩ := pair_best (P := ⟨b, th, s', m', bound'⟩) h hm hI hth htid hp
      cases e
  unfold IndexClusterRun at hr hr'
  rw [if_neg (by rw [hm.rows, hm.cols]; simp), if_neg (by rw [hm.rows]; omega), hm.rows] at hr hr'
  obtain ⟨rl, hl, rfl⟩ := hr
  obtain ⟨rl', hl', rfl⟩ := hr'
  rw [loop _ _ hl (init_wf n) _ hl']

/-- C33: an empty or non-square matrix is refused. -/
theorem C33_bad_matrix_throws (P : Args D) (h : P.m.rows ≠ P.m.cols ∨ P.m.rows = 0) (r : Res (List (List Nat) × D))
    (hr : IndexClusterRun P r) : r = .throw .invalidArgument := by
  unfold IndexClusterRun at hr
  by_cases h1 : P.m.rows ≠ P.m.cols
  · rwa [if_pos h1] at hr
  · rw [if_neg h1, if_pos (by rcases h with h | h; exacts [absurd h h1, h])] at hr
    exact hr

/-- C33: `ClusterWithDistanceMatrix` refuses a matrix whose size is not that of the data, and refuses no data. -/
theorem C33_wrong_size_throws {A : Type} (data : List A) (P : Args D) (r : Res (List (List A) × D))
    (h : data = [] ∨ P.m.rows ≠ data.length ∨ P.m.cols ≠ data.length) (hr : ClusterMatrixRun data P r) : r = .throw .invalidArgument := by
  unfold ClusterMatrixRun at hr
  by_cases h1 : data = []
  · rwa [if_pos h1] at hr
  · rw [if_neg h1, if_pos (h.resolve_left h1)] at hr
    exact hr

/-! ### Negative distances -/

theorem consider_neg (f g : Item) (d : D) (cur : Option (Pair D)) (hc : 0 ≤ distOf cur) (hne : f ≠ g) :
    (0 ≤ d ∧ ∃ c, consider f g d cur = .ok c ∧ 0 ≤ distOf c) ∨ (d < 0 ∧ consider f g d cur = .throw .invalidArgument) := by
  by_cases h0 : d < 0
  · right
    refine ⟨h0, ?_⟩
    unfold consider mkPair
    rw [if_pos (lt_of_lt_of_le h0 hc), if_pos h0]
  · left
    have h0' := not_lt.mp h0
    refine ⟨h0', _, consider_ok f g d cur h0' hne, ?_⟩
    unfold better
    split
    · exact h0'
    · exact hc

theorem valueLoop_neg {n : Nat} (m : Mat D) (hm : m.rows = n ∧ m.cols = n) (v : Nat) (hv : v < n) :
    ∀ (us : List Nat) (cur : Option (Pair D)), 0 ≤ distOf cur → (∀ u ∈ us, v < u ∧ u < n) →
    ((∀ u ∈ us, 0 ≤ m.val v u) ∧ ∃ c, valueLoop (List.replicate n false) m v us cur = .ok c ∧ 0 ≤ distOf c) ∨
    valueLoop (List.replicate n false) m v us cur = .throw .invalidArgument := by
  intro us
  induction us with
  | nil => intro cur hc _; exact .inl ⟨by simp, cur, rfl, hc⟩
  | cons u us ih =>
    intro cur hc hu
    obtain ⟨h1, h2⟩ := hu u (by simp)
    have hget : atChecked (List.replicate n false) u = .ok false := by
      unfold atChecked; rw [List.getElem?_replicate, if_pos h2]
    rw [valueLoop, hget, Res.ok_bind, if_neg (by simp), Mat.get, if_pos ⟨by rw [hm.1]; exact hv, by rw [hm.2]; exact h2⟩, Res.ok_bind]
    rcases consider_neg ⟨false, v⟩ ⟨false, u⟩ (m.val v u) cur hc (by simp; omega) with ⟨h0, c, e, hc'⟩ | ⟨_, e⟩
    · rw [e, Res.ok_bind]
      rcases ih c hc' (fun q hq => hu q (by simp [hq])) with ⟨hall, h⟩ | h
      · left
        refine ⟨?_, h⟩
        intro q hq
        rcases List.mem_cons.mp hq with rfl | hq
        exacts [h0, hall q hq]
      · exact .inr h
    · right
      rw [e]
      rfl

/-- C33: a negative distance above the diagonal makes the serial version throw `invalid_argument` (and not return a wrong answer). -/
theorem C33_negative_distance_throws (n : Nat) (P : Args D) (hm : P.m.rows = n ∧ P.m.cols = n) (hth : ¬ P.threads > 1) (i j : Nat)
    (hij : i < j) (hj : j < n) (hneg : P.m.val i j < 0) (r : Res (List (List Nat) × D)) (hr : IndexClusterRun P r) :
    r = .throw .invalidArgument := by
  have body : ∀ v, v < n → ∀ cur, 0 ≤ distOf cur →
      ((∀ u, v < u → u < n → 0 ≤ P.m.val v u) ∧ ∃ c, valueBody P.s (List.replicate n false) P.m [] v cur = .ok c ∧ 0 ≤ distOf c) ∨
      valueBody P.s (List.replicate n false) P.m [] v cur = .throw .invalidArgument := by
    intro v hv cur hc
    have hget : atChecked (List.replicate n false) v = .ok false := by
      unfold atChecked; rw [List.getElem?_replicate, if_pos hv]
    rw [valueBody, hget, Res.ok_bind, if_neg (by simp)]
    rcases valueLoop_neg P.m hm v hv (List.range' (v + 1) ((List.replicate n false).length - (v + 1))) cur hc (by
      intro u hu; rw [List.mem_range'_1, List.length_replicate] at hu; omega) with ⟨hall, c, e, hc'⟩ | e
    · left
      refine ⟨?_, c, ?_, hc'⟩
      · intro u h1 h2
        exact hall u (by rw [List.mem_range'_1, List.length_replicate]; omega)
      · rw [e]; rfl
    · right; rw [e]; rfl
  have search : ∀ (is : List Nat) (cur : Option (Pair D)), 0 ≤ distOf cur → (∀ v ∈ is, v < n) →
      ((∀ v ∈ is, ∀ u, v < u → u < n → 0 ≤ P.m.val v u) ∧
        ∃ c, serialSearch (valueBody P.s (List.replicate n false) P.m []) is cur = .ok c ∧ 0 ≤ distOf c) ∨
      serialSearch (valueBody P.s (List.replicate n false) P.m []) is cur = .throw .invalidArgument := by
    intro is
    induction is with
    | nil => intro cur hc _; exact .inl ⟨by simp, cur, rfl, hc⟩
    | cons v is ih =>
      intro cur hc hv
      rw [serialSearch]
      rcases body v (hv v (by simp)) cur hc with ⟨hall, c, e, hc'⟩ | e
      · rw [e, Res.ok_bind]
        rcases ih c hc' (fun q hq => hv q (by simp [hq])) with ⟨hall', h⟩ | h
        · left
          refine ⟨?_, h⟩
          intro q hq
          rcases List.mem_cons.mp hq with rfl | hq
          exacts [hall, hall' q hq]
        · exact .inr h
      · right; rw [e]; rfl
  have hpair : ∀ c, PairRun P (initSt n) c → c = .throw .invalidArgument := by
    rintro c ⟨rv, rc, hv, hc, rfl⟩
    unfold SearchRun at hv
    rw [if_neg hth] at hv
    rw [show (initSt n : St D).mask = List.replicate n false from rfl, show (initSt n : St D).clusters = [] from rfl,
      List.length_replicate] at hv
    rcases search (List.range n) none (show (0 : D) ≤ ⊤ from le_top) (by simp) with ⟨hall, _⟩ | h
    · exact absurd hneg (not_lt.mpr (hall i (by rw [List.mem_range]; omega) j hij hj))
    · rw [hv, h]; rfl
  unfold IndexClusterRun at hr
  rw [if_neg (by rw [hm.1, hm.2]; simp), if_neg (by rw [hm.1]; omega), hm.1] at hr
  obtain ⟨rl, hl, rfl⟩ := hr
  cases hl with
  | none hp => cases hpair _ hp
  | far hp _ => cases hpair _ hp
  | step hp _ _ _ => cases hpair _ hp
  | mergeThrow hp _ _ => cases hpair _ hp
  | mergeUb hp _ _ => cases hpair _ hp
  | pairThrow hp => cases hpair _ hp; rfl
  | pairUb hp => cases hpair _ hp

/-! ### From data to clusters of data -/

/-- The data of the clusters of indices. -/
def dataOf {A : Type} (data : List A) (cs : List (List Nat)) : List (List A) := cs.map fun c => c.filterMap fun i => data[i]?

theorem elements_ok {A : Type} (data : List A) : ∀ is : List Nat, (∀ i ∈ is, i < data.length) →
    elements data is = .ok (is.filterMap fun i => data[i]?) := by
  intro is
  induction is with
  | nil => intro _; rfl
  | cons i is ih =>
    intro h
    have hi := h i (by simp)
    have hget : atChecked data i = .ok data[i] := by
      unfold atChecked; rw [List.getElem?_eq_getElem hi]
    rw [elements, hget, Res.ok_bind, ih fun q hq => h q (by simp [hq]), Res.ok_bind, List.filterMap_cons, List.getElem?_eq_getElem hi]
    rfl

theorem elementClusters_ok {A : Type} (data : List A) : ∀ cs : List (List Nat), (∀ c ∈ cs, ∀ i ∈ c, i < data.length) →
    elementClusters data cs = .ok (dataOf data cs) := by
  intro cs
  induction cs with
  | nil => intro _; rfl
  | cons c cs ih =>
    intro h
    rw [elementClusters, elements_ok data c (h c (by simp)), Res.ok_bind, ih fun q hq => h q (by simp [hq]), Res.ok_bind]
    rfl

theorem filterMap_range {A : Type} (data : List A) : (List.range data.length).filterMap (fun i => data[i]?) = data := by
  induction data using List.reverseRecOn with
  | nil => rfl
  | append_singleton data x ih =>
    rw [List.length_append, List.length_singleton, List.range_succ, List.filterMap_append]
    have h1 : (List.range data.length).filterMap (fun i => (data ++ [x])[i]?) = (List.range data.length).filterMap (fun i => data[i]?) := by
      apply List.filterMap_congr
      intro i hi
      rw [List.mem_range] at hi
      rw [List.getElem?_append_left hi]
    rw [h1, ih]
    simp

/-- C33: `Cluster`, for every data set and every distance function that is never negative (not necessarily symmetric or a metric): the
clusters returned are rearranged data, none is empty, and they are the clusters of a partition of the indices that satisfies
everything stated above for the distances d(x_i, x_j), i < j. -/
theorem C33_cluster {A : Type} (b : Backend) (threads : Int) (s : Strategy) (bound : D) (data : List A) (d : A → A → D)
    (hne : data ≠ []) (hI : InI64 data.length) (hth : InI64 threads) (htid : GoodTid b threads) (hd : ∀ x y, 0 ≤ d x y)
    (r : Res (List (List A) × D)) (hr : ClusterRun b threads s bound data d r) :
    ∃ (m : Nat → Nat → D) (ics : List (List Nat)) (dist : D), r = .ok (dataOf data ics, dist) ∧
      (∀ i j (_ : i < j) (hj : j < data.length), m i j = d data[i] data[j] ∧ m j i = d data[i] data[j]) ∧
      IsPartition data.length ics ∧ Maximal s m bound ics ∧ (s = .completeLink → BoundedDiameter m bound ics) ∧
      (s = .singleLink → ∀ i j, i < data.length → j < data.length → (Together ics i j ↔ Linked data.length m bound i j)) ∧
      (dataOf data ics).flatten.Perm data ∧ ∀ c ∈ dataOf data ics, c ≠ [] := by
  obtain ⟨rm, hsm, hr⟩ := hr
  obtain ⟨m, rfl, h1, h2, h3, h4⟩ := C52_self_matrix b threads data d hI hth rm hsm
  dsimp only at hr
  have hpos : 0 < data.length := List.length_pos_iff.mpr hne
  have hval : ∀ i j, i < data.length → j < data.length → 0 ≤ m.val i j ∧ m.val i j = m.val j i := by
    intro i j hi hj
    rcases Nat.lt_trichotomy i j with h | h | h
    · obtain ⟨e1, e2⟩ := h4 i j h hj
      rw [e1, e2]; exact ⟨hd _ _, rfl⟩
    · subst h
      rw [h3 i hi]; exact ⟨le_refl _, rfl⟩
    · obtain ⟨e1, e2⟩ := h4 j i h hi
      rw [e1, e2]; exact ⟨hd _ _, rfl⟩
  have hG : Call.Good data.length (⟨b, threads, s, m, bound⟩ : Args D) :=
    ⟨hpos, ⟨h1, h2, fun i j hi hj => (hval i j hi hj).1⟩, fun i j hi hj => (hval i j hi hj).2, hI, hth, htid⟩
  unfold ClusterMatrixRun at hr
  rw [if_neg hne, if_neg (by rw [h1, h2]; simp)] at hr
  obtain ⟨ri, hri, rfl⟩ := hr
  obtain ⟨cs, dd, rfl, hpart⟩ := C33_partition data.length _ hpos hG.mat hI hth htid ri hri
  obtain ⟨cs2, dd2, e2, hmax⟩ := C33_maximal data.length _ hG _ hri
  cases e2
  rw [Res.ok_bind, elementClusters_ok data cs (fun c hc i hi => part_lt hpart hc hi), Res.ok_bind]
  refine ⟨m.val, cs, dd, rfl, h4, hpart, hmax, ?_, ?_, ?_, ?_⟩
  · intro hs
    obtain ⟨cs3, dd3, e3, hB, _⟩ := C33_complete_link_diameter data.length _ hG hs _ hri
    cases e3
    exact hB
  · intro hs
    obtain ⟨cs3, dd3, e3, hB, _⟩ := C33_single_link_components data.length _ hG hs _ hri
    cases e3
    exact hB
  · have : (dataOf data cs).flatten = cs.flatten.filterMap fun i => data[i]? := by
      unfold dataOf
      rw [List.filterMap_flatten]
    rw [this]
    have := hpart.1.filterMap fun i => data[i]?
    rwa [filterMap_range] at this
  · intro c hc
    unfold dataOf at hc
    rw [List.mem_map] at hc
    obtain ⟨ic, hic, rfl⟩ := hc
    obtain ⟨x, xs, rfl⟩ := List.exists_cons_of_ne_nil (hpart.2 ic hic)
    have hx := part_lt hpart hic (x := x) (by simp)
    rw [List.filterMap_cons, List.getElem?_eq_getElem hx]
    simp

/-! ### Examples -/

/-- Three points 0, 1, 5 on a line. -/
def exampleArgs (b : Backend) (threads : Int) (s : Strategy) (bound : ℕ∞) : Args ℕ∞ :=
  ⟨b, threads, s, ⟨3, 3, fun i j => ((max ([0, 1, 5].getD i 0) ([0, 1, 5].getD j 0) - min ([0, 1, 5].getD i 0) ([0, 1, 5].getD j 0) : Nat) : ℕ∞)⟩, bound⟩

example (s : Strategy) (bound : ℕ∞) : Call.Good 3 (exampleArgs .async 4 s bound) :=
  ⟨by decide, ⟨rfl, rfl, fun _ _ _ _ => zero_le⟩, fun i j _ _ => by unfold exampleArgs; dsimp only; rw [max_comm, min_comm],
    (by unfold InI64; decide), (by show InI64 4; unfold InI64; decide), fun _ _ h => h⟩

/-- There are runs that meet the hypotheses of the theorems above, for every strategy and bound. -/
example (s : Strategy) (bound : ℕ∞) : ∃ cs d, IndexClusterRun (exampleArgs .async 4 s bound) (.ok (cs, d)) :=
  (C33_terminates 3 (exampleArgs .async 4 s bound) (by decide) ⟨rfl, rfl, fun _ _ _ _ => zero_le⟩ (by unfold InI64; decide)
    (by show InI64 4; unfold InI64; decide) (fun _ _ h => h)).2

/-- The result for complete link with bound 4 is {0, 1}, {2}; with bound 5 everything is merged. -/
example : ∃ r, IndexClusterRun (exampleArgs .async 1 .completeLink 4) r ∧ r = .ok ([[0, 1], [2]], 1) := by
  refine ⟨_, ?_, rfl⟩
  unfold IndexClusterRun
  rw [if_neg (by simp [exampleArgs]), if_neg (by simp [exampleArgs])]
  refine ⟨.ok ⟨[true, true, false], [[0, 1]], 1⟩, ?_, rfl⟩
  refine .step (p := ⟨⟨false, 0⟩, ⟨false, 1⟩, 1⟩) ⟨.ok (some ⟨⟨false, 0⟩, ⟨false, 1⟩, 1⟩), .ok none, ?_, ?_, rfl⟩ (by decide) rfl
    (.far (p := ⟨⟨false, 2⟩, ⟨true, 0⟩, 5⟩) ⟨.ok (some ⟨⟨false, 2⟩, ⟨true, 0⟩, 5⟩), .ok none, ?_, ?_, rfl⟩ (by decide))
  all_goals (unfold SearchRun; rw [if_neg (by simp [exampleArgs])]; rfl)

/-- A matrix with a negative entry above the diagonal, as in `C33_negative_distance_throws`. -/
example : ∃ P : Args (WithTop Int), (P.m.rows = 2 ∧ P.m.cols = 2) ∧ ¬ P.threads > 1 ∧ P.m.val 0 1 < 0 ∧ ∃ r, IndexClusterRun P r := by
  refine ⟨⟨.async, 1, .singleLink, ⟨2, 2, fun _ _ => ((-1 : Int) : WithTop Int)⟩, 4⟩, ⟨rfl, rfl⟩, by decide, by decide, .throw .invalidArgument, ?_⟩
  unfold IndexClusterRun
  rw [if_neg (by simp), if_neg (by simp)]
  refine ⟨.throw .invalidArgument, .pairThrow ⟨.throw .invalidArgument, .ok none, ?_, ?_, rfl⟩, rfl⟩
  all_goals (unfold SearchRun; rw [if_neg (by simp)]; rfl)

/-- Clustering real data with a distance function, as in `C33_cluster`. -/
example (s : Strategy) : ∃ r, ClusterRun .async 4 s (3 : ℕ∞) [0, 1, 5, 9] (fun x y : Nat => (((max x y - min x y : Nat)) : ℕ∞)) r := by
  obtain ⟨rm, hrm⟩ := (C52_runs_exist .async 4 [0, 1, 5, 9] [0] (fun x y : Nat => (((max x y - min x y : Nat)) : ℕ∞))
    (fun x y : Nat => (((max x y - min x y : Nat)) : ℕ∞)) (by unfold InI64; decide) (by unfold InI64; decide)).1
  obtain ⟨m, rfl, h1, h2, _⟩ := C52_self_matrix _ _ _ _ (by unfold InI64; decide) (by unfold InI64; decide) rm hrm
  obtain ⟨_, cs, d, hr⟩ := C33_terminates 4 (⟨.async, 4, s, m, 3⟩ : Args ℕ∞) (by decide) ⟨h1, h2, fun _ _ _ _ => zero_le⟩ (by unfold InI64; decide)
    (by show InI64 4; unfold InI64; decide) (fun _ _ h => h)
  refine ⟨(Res.ok (cs, d) >>= fun x => elementClusters [0, 1, 5, 9] x.1 >>= fun cs => pure (cs, x.2)), .ok m, hrm, ?_⟩
  show ClusterMatrixRun _ _ _
  unfold ClusterMatrixRun
  rw [if_neg (by simp), if_neg (by rw [h1, h2]; simp)]
  exact ⟨_, hr, rfl⟩

end CRU.Hier
