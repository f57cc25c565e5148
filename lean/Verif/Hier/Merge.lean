import Verif.Hier.Lemmas
/-
  The candidates of a state of the clustering loop, and what a merge does to the clusters.
-/
namespace CRU.Hier
open CRU.Parallel CRU.Distances
set_option linter.unusedSectionVars false

variable {D : Type} [LinearOrder D] [OrderTop D] [Zero D]

/-- Elements of an item. -/
def elems (st : St D) (it : Item) : List Nat := if it.isCluster then st.clusters.getD it.index [] else [it.index]

/-- The item still takes part. -/
def Live (st : St D) (it : Item) : Prop :=
  if it.isCluster then st.clusters.getD it.index [] ≠ [] else st.mask[it.index]? = some false

instance (st : St D) (it : Item) : Decidable (Live st it) := by unfold Live; infer_instance

/-- All items that take part. -/
def items (st : St D) : List Item :=
  ((List.range st.clusters.length).map fun i => (⟨true, i⟩ : Item)).filter (fun it => Live st it) ++
  ((List.range st.mask.length).map fun i => (⟨false, i⟩ : Item)).filter (fun it => Live st it)

theorem mem_items {st : St D} {it : Item} : it ∈ items st ↔ Live st it := by
  rcases it with ⟨c, i⟩
  simp only [items, List.mem_append, List.mem_filter, List.mem_map, List.mem_range, decide_eq_true_eq, Item.mk.injEq]
  constructor
  · rintro (⟨_, h⟩ | ⟨_, h⟩) <;> exact h
  · intro h
    cases c with
    | true =>
      refine .inl ⟨⟨i, ?_, rfl, rfl⟩, h⟩
      by_contra hc
      apply (show st.clusters.getD i [] ≠ [] from h)
      rw [List.getD_eq_getElem?_getD, List.getElem?_eq_none (by omega)]
      rfl
    | false =>
      refine .inr ⟨⟨i, ?_, rfl, rfl⟩, h⟩
      by_contra hc
      have h' : st.mask[i]? = some false := h
      rw [List.getElem?_eq_none (by omega)] at h'
      cases h'

theorem items_nodup (st : St D) : (items st).Nodup := by
  unfold items
  rw [List.nodup_append]
  refine ⟨(List.nodup_range.map ?_).filter _, (List.nodup_range.map ?_).filter _, ?_⟩
  · intro a b h; simpa using h
  · intro a b h; simpa using h
  · intro a ha b hb hab
    simp only [List.mem_filter, List.mem_map] at ha hb
    obtain ⟨⟨x, _, rfl⟩, _⟩ := ha
    obtain ⟨⟨y, _, rfl⟩, _⟩ := hb
    simp at hab

theorem getD_range (cs : List (List Nat)) : (List.range cs.length).map (fun i => cs.getD i []) = cs := by
  apply List.ext_getElem?
  intro i
  rw [List.getElem?_map]
  by_cases hi : i < cs.length
  · rw [List.getElem?_range hi, List.getElem?_eq_getElem hi]
    simp [List.getD_eq_getElem?_getD, List.getElem?_eq_getElem hi]
  · rw [List.getElem?_eq_none (by rw [List.length_range]; omega), List.getElem?_eq_none (by omega)]
    rfl

theorem finish_items (st : St D) : finish st = (items st).map (elems st) := by
  unfold finish items
  rw [List.map_append]
  congr 1
  · conv_lhs => rw [← getD_range st.clusters]
    rw [List.filter_map, List.filter_map, List.map_map]
    have h1 : ((fun c => decide (c ≠ [])) ∘ fun i => st.clusters.getD i ([] : List Nat))
        = (fun it => decide (Live st it)) ∘ fun i => (⟨true, i⟩ : Item) := by
      funext i
      simp [Live]
    rw [h1]
    apply List.map_congr_left
    intro i _
    simp [elems]
  · rw [List.filter_map, List.map_map]
    rfl

/-- State invariant. -/
structure WF (n : Nat) (st : St D) : Prop where
  len : st.mask.length = n
  perm : (st.clusters.flatten ++ unmasked st.mask).Perm (List.range n)
  room : st.clusters.length + (unmasked st.mask).length ≤ n

theorem WF.lt {n : Nat} {st : St D} (h : WF n st) {c : List Nat} (hc : c ∈ st.clusters) {x : Nat} (hx : x ∈ c) : x < n := by
  have : x ∈ List.range n := h.perm.subset (List.mem_append.mpr (.inl (List.mem_flatten.mpr ⟨c, hc, hx⟩)))
  simpa using this

theorem getD_mem {cs : List (List Nat)} {i : Nat} (h : cs.getD i [] ≠ []) : i < cs.length ∧ cs.getD i [] ∈ cs := by
  have hi : i < cs.length := by
    by_contra hc
    rw [List.getD_eq_getElem?_getD, List.getElem?_eq_none (by omega)] at h
    exact h rfl
  refine ⟨hi, ?_⟩
  rw [List.getD_eq_getElem?_getD, List.getElem?_eq_getElem hi]
  exact List.getElem_mem hi

theorem live_index {n : Nat} {st : St D} (h : WF n st) {it : Item} (hl : Live st it) : ∀ x ∈ elems st it, x < n := by
  rcases it with ⟨c, i⟩
  cases c with
  | true =>
    intro x hx
    exact h.lt (getD_mem (show st.clusters.getD i [] ≠ [] from hl)).2 hx
  | false =>
    intro x hx
    have h' : st.mask[i]? = some false := hl
    have : x = i := by simpa [elems] using hx
    subst this
    by_contra hc
    rw [List.getElem?_eq_none (by rw [h.len]; omega)] at h'
    cases h'

theorem live_ne {st : St D} {it : Item} (hl : Live st it) : elems st it ≠ [] := by
  rcases it with ⟨c, i⟩
  cases c with
  | true => exact hl
  | false => simp [elems]

/-! ### Candidates -/

/-- The pair of two items with their distance. -/
def pairOf (s : Strategy) (m : Nat → Nat → D) (st : St D) (f g : Item) : Pair D := ⟨f, g, linkVal s m (elems st f) (elems st g)⟩

/-- Candidates against the values `us`. -/
def valCands (s : Strategy) (m : Nat → Nat → D) (st : St D) (f : Item) (us : List Nat) : List (Pair D) :=
  (us.filter fun u => Live st ⟨false, u⟩).map fun u => pairOf s m st f ⟨false, u⟩

/-- Candidates against the clusters numbered `is`. -/
def cluCands (s : Strategy) (m : Nat → Nat → D) (st : St D) (f : Item) (is : List Nat) : List (Pair D) :=
  (is.filter fun u => Live st ⟨true, u⟩).map fun u => pairOf s m st f ⟨true, u⟩

/-- Candidates of a value. -/
def valueCands (s : Strategy) (m : Nat → Nat → D) (st : St D) (v : Nat) : List (Pair D) :=
  if Live st ⟨false, v⟩ then
    valCands s m st ⟨false, v⟩ (List.range' (v + 1) (st.mask.length - (v + 1))) ++ cluCands s m st ⟨false, v⟩ (List.range st.clusters.length)
  else []

/-- Candidates of a cluster. -/
def clusterCands (s : Strategy) (m : Nat → Nat → D) (st : St D) (i : Nat) : List (Pair D) :=
  if Live st ⟨true, i⟩ then cluCands s m st ⟨true, i⟩ (List.range' (i + 1) (st.clusters.length - (i + 1))) else []

/-- The matrix is square of size `n` with entries that are at least zero. -/
structure GoodMat (n : Nat) (m : Mat D) : Prop where
  rows : m.rows = n
  cols : m.cols = n
  nonneg : ∀ i j, i < n → j < n → 0 ≤ m.val i j

theorem valueLoop_ok {n : Nat} {st : St D} {m : Mat D} (s : Strategy) (h : WF n st) (hm : GoodMat n m) (v : Nat) (hv : v < n) :
    ∀ (us : List Nat) (cur : Option (Pair D)), (∀ u ∈ us, v < u ∧ u < n) →
    valueLoop st.mask m v us cur = .ok (scan cur (valCands s m.val st ⟨false, v⟩ us)) := by
  intro us
  induction us with
  | nil => intro cur _; rfl
  | cons u us ih =>
    intro cur hu
    obtain ⟨h1, h2⟩ := hu u (by simp)
    have hul : u < st.mask.length := by rw [h.len]; exact h2
    have hget : atChecked st.mask u = .ok st.mask[u] := by
      unfold atChecked; rw [List.getElem?_eq_getElem hul]
    rw [valueLoop, hget, Res.ok_bind]
    by_cases hmk : st.mask[u] = true
    · rw [hmk, if_pos rfl, Res.pure_eq, Res.ok_bind, ih cur fun q hq => hu q (by simp [hq])]
      congr 2
      unfold valCands
      rw [List.filter_cons_of_neg]
      simp [Live, List.getElem?_eq_getElem hul, hmk]
    · have hmk' : st.mask[u] = false := by simpa using hmk
      rw [hmk', if_neg (by simp), Mat.get, if_pos ⟨by rw [hm.rows]; exact hv, by rw [hm.cols]; exact h2⟩, Res.ok_bind,
        consider_ok _ _ _ _ (hm.nonneg v u hv h2) (by simp; omega), Res.ok_bind, ih _ fun q hq => hu q (by simp [hq])]
      congr 1
      unfold valCands
      rw [List.filter_cons_of_pos (by simp [Live, List.getElem?_eq_getElem hul, hmk']), List.map_cons]
      show scan _ _ = scan (better cur (some (pairOf s m.val st ⟨false, v⟩ ⟨false, u⟩))) _
      congr 4
      show m.val v u = linkVal s m.val (elems st ⟨false, v⟩) (elems st ⟨false, u⟩)
      simp [elems, linkVal_single s m.val v u (hm.nonneg v u hv h2)]

theorem clusterLoop_ok {n : Nat} {st : St D} {m : Mat D} (s : Strategy) (h : WF n st) (hm : GoodMat n m) (it : Item) (hl : Live st it) :
    ∀ (is : List Nat) (cur : Option (Pair D)), (∀ i ∈ is, i < st.clusters.length ∧ it ≠ ⟨true, i⟩) →
    clusterLoop s m it (elems st it) (is.map fun i => (st.clusters.getD i [], i)) cur = .ok (scan cur (cluCands s m.val st it is)) := by
  intro is
  induction is with
  | nil => intro cur _; rfl
  | cons i is ih =>
    intro cur hi
    obtain ⟨h1, h2⟩ := hi i (by simp)
    rw [List.map_cons, clusterLoop]
    by_cases hne : st.clusters.getD i [] = []
    · rw [if_neg (by simpa using hne), Res.pure_eq, Res.ok_bind, ih cur fun q hq => hi q (by simp [hq])]
      congr 2
      unfold cluCands
      rw [List.filter_cons_of_neg]
      simpa [Live] using hne
    · have hlive : Live st ⟨true, i⟩ := hne
      rw [if_pos hne]
      have hx := live_index h hl
      have hy : ∀ y ∈ st.clusters.getD i [], y < n := live_index h hlive
      rw [linkDist_ok s m _ _ (by rw [hm.rows]; exact hx) (by rw [hm.cols]; exact hy), Res.ok_bind,
        consider_ok _ _ _ _ (linkVal_spec s m.val _ _ (live_ne hl) hne fun x hx' y hy' => hm.nonneg x y (hx x hx') (hy y hy')).1 h2,
        Res.ok_bind, ih _ fun q hq => hi q (by simp [hq])]
      congr 1
      unfold cluCands
      rw [List.filter_cons_of_pos (by simpa using hlive), List.map_cons]
      rfl

theorem zipIdx_range (cs : List (List Nat)) : cs.zipIdx = (List.range cs.length).map fun i => (cs.getD i [], i) := by
  apply List.ext_getElem?
  intro i
  rw [List.getElem?_map, List.getElem?_zipIdx]
  by_cases hi : i < cs.length
  · rw [List.getElem?_range hi, List.getElem?_eq_getElem hi]
    simp [List.getD_eq_getElem?_getD, List.getElem?_eq_getElem hi]
  · rw [List.getElem?_eq_none (show cs.length ≤ i by omega), List.getElem?_eq_none (show (List.range cs.length).length ≤ i by rw [List.length_range]; omega)]
    rfl

theorem drop_range (k n : Nat) : (List.range n).drop k = List.range' k (n - k) := by
  rw [List.range_eq_range', List.drop_range']
  simp

theorem value_scans {n : Nat} {st : St D} {m : Mat D} (s : Strategy) (h : WF n st) (hm : GoodMat n m) :
    Scans st.mask.length (valueBody s st.mask m st.clusters) (valueCands s m.val st) := by
  intro v hv cur
  have hget : atChecked st.mask v = .ok st.mask[v] := by
    unfold atChecked; rw [List.getElem?_eq_getElem hv]
  rw [valueBody, hget, Res.ok_bind]
  unfold valueCands
  by_cases hmk : st.mask[v] = true
  · rw [hmk, if_pos rfl, if_neg (by simp [Live, List.getElem?_eq_getElem hv, hmk])]
    rfl
  · have hmk' : st.mask[v] = false := by simpa using hmk
    have hl : Live st ⟨false, v⟩ := by simp [Live, List.getElem?_eq_getElem hv, hmk']
    rw [hmk', if_neg (by simp), if_pos hl, valueLoop_ok s h hm v (by rw [← h.len]; exact hv) _ _ (by
      intro u hu
      rw [List.mem_range'_1] at hu
      rw [← h.len]; omega), Res.ok_bind, zipIdx_range, scan_append]
    exact clusterLoop_ok s h hm ⟨false, v⟩ hl _ _ (by intro i hi; rw [List.mem_range] at hi; exact ⟨hi, by simp⟩)

theorem cluster_scans {n : Nat} {st : St D} {m : Mat D} (s : Strategy) (h : WF n st) (hm : GoodMat n m) :
    Scans st.clusters.length (clusterBody s m st.clusters) (clusterCands s m.val st) := by
  intro i hi cur
  have hget : atChecked st.clusters i = .ok (st.clusters.getD i []) := by
    unfold atChecked; rw [List.getD_eq_getElem?_getD, List.getElem?_eq_getElem hi]; rfl
  rw [clusterBody, hget, Res.ok_bind]
  unfold clusterCands
  by_cases hne : st.clusters.getD i [] = []
  · rw [if_neg (by simpa using hne), if_neg (by simpa [Live] using hne)]
    rfl
  · have hl : Live st ⟨true, i⟩ := hne
    rw [if_pos hne, if_pos hl, zipIdx_range, ← List.map_drop, drop_range]
    exact clusterLoop_ok s h hm ⟨true, i⟩ hl _ _ (by
      intro j hj; rw [List.mem_range'_1] at hj; refine ⟨by omega, by simp; omega⟩)

/-- `p` is a pair considered by `GetClosestPair`. -/
def Cand (s : Strategy) (m : Nat → Nat → D) (st : St D) (p : Pair D) : Prop :=
  (∃ i, i < st.mask.length ∧ p ∈ valueCands s m st i) ∨ ∃ i, i < st.clusters.length ∧ p ∈ clusterCands s m st i

theorem mem_valCands {s : Strategy} {m : Nat → Nat → D} {st : St D} {f : Item} {us : List Nat} {p : Pair D} :
    p ∈ valCands s m st f us ↔ ∃ u ∈ us, Live st ⟨false, u⟩ ∧ p = pairOf s m st f ⟨false, u⟩ := by
  simp only [valCands, List.mem_map, List.mem_filter, decide_eq_true_eq]
  constructor
  · rintro ⟨u, ⟨h1, h2⟩, rfl⟩; exact ⟨u, h1, h2, rfl⟩
  · rintro ⟨u, h1, h2, rfl⟩; exact ⟨u, ⟨h1, h2⟩, rfl⟩

theorem mem_cluCands {s : Strategy} {m : Nat → Nat → D} {st : St D} {f : Item} {us : List Nat} {p : Pair D} :
    p ∈ cluCands s m st f us ↔ ∃ u ∈ us, Live st ⟨true, u⟩ ∧ p = pairOf s m st f ⟨true, u⟩ := by
  simp only [cluCands, List.mem_map, List.mem_filter, decide_eq_true_eq]
  constructor
  · rintro ⟨u, ⟨h1, h2⟩, rfl⟩; exact ⟨u, h1, h2, rfl⟩
  · rintro ⟨u, h1, h2, rfl⟩; exact ⟨u, ⟨h1, h2⟩, rfl⟩

theorem cand_live {s : Strategy} {m : Nat → Nat → D} {st : St D} {p : Pair D} (h : Cand s m st p) :
    Live st p.first ∧ Live st p.second ∧ p.first ≠ p.second ∧ p = pairOf s m st p.first p.second := by
  rcases h with ⟨i, hi, hp⟩ | ⟨i, hi, hp⟩
  · unfold valueCands at hp
    split at hp
    · rename_i hl
      rw [List.mem_append, mem_valCands, mem_cluCands] at hp
      rcases hp with ⟨u, hu, hlu, rfl⟩ | ⟨u, hu, hlu, rfl⟩
      · rw [List.mem_range'_1] at hu
        exact ⟨hl, hlu, by simp [pairOf]; omega, rfl⟩
      · exact ⟨hl, hlu, by simp [pairOf], rfl⟩
    · simp at hp
  · unfold clusterCands at hp
    split at hp
    · rename_i hl
      rw [mem_cluCands] at hp
      obtain ⟨u, hu, hlu, rfl⟩ := hp
      rw [List.mem_range'_1] at hu
      exact ⟨hl, hlu, by simp [pairOf]; omega, rfl⟩
    · simp at hp

theorem live_bound {st : St D} {it : Item} (h : Live st it) : it.index < if it.isCluster then st.clusters.length else st.mask.length := by
  rcases it with ⟨c, i⟩
  cases c with
  | true => exact (getD_mem (show st.clusters.getD i [] ≠ [] from h)).1
  | false =>
    have h' : st.mask[i]? = some false := h
    show i < st.mask.length
    by_contra hc
    rw [List.getElem?_eq_none (by omega)] at h'
    cases h'

theorem live_cand (s : Strategy) (m : Nat → Nat → D) {st : St D} {f g : Item} (hf : Live st f) (hg : Live st g) (hne : f ≠ g) :
    Cand s m st (pairOf s m st f g) ∨ Cand s m st (pairOf s m st g f) := by
  have bf := live_bound hf
  have bg := live_bound hg
  rcases f with ⟨cf, i⟩
  rcases g with ⟨cg, j⟩
  cases cf <;> cases cg
  · simp only [Bool.false_eq_true, if_false] at bf bg
    simp only [ne_eq, Item.mk.injEq, true_and] at hne
    rcases Nat.lt_or_gt_of_ne hne with h | h
    · refine .inl (.inl ⟨i, bf, ?_⟩)
      unfold valueCands
      rw [if_pos hf, List.mem_append, mem_valCands]
      exact .inl ⟨j, by rw [List.mem_range'_1]; omega, hg, rfl⟩
    · refine .inr (.inl ⟨j, bg, ?_⟩)
      unfold valueCands
      rw [if_pos hg, List.mem_append, mem_valCands]
      exact .inl ⟨i, by rw [List.mem_range'_1]; omega, hf, rfl⟩
  · simp only [Bool.false_eq_true, if_false, if_true] at bf bg
    refine .inl (.inl ⟨i, bf, ?_⟩)
    unfold valueCands
    rw [if_pos hf, List.mem_append, mem_cluCands]
    exact .inr ⟨j, by rw [List.mem_range]; exact bg, hg, rfl⟩
  · simp only [Bool.false_eq_true, if_false, if_true] at bf bg
    refine .inr (.inl ⟨j, bg, ?_⟩)
    unfold valueCands
    rw [if_pos hg, List.mem_append, mem_cluCands]
    exact .inr ⟨i, by rw [List.mem_range]; exact bf, hf, rfl⟩
  · simp only [if_true] at bf bg
    simp only [ne_eq, Item.mk.injEq, true_and] at hne
    rcases Nat.lt_or_gt_of_ne hne with h | h
    · refine .inl (.inr ⟨i, bf, ?_⟩)
      unfold clusterCands
      rw [if_pos hf, mem_cluCands]
      exact ⟨j, by rw [List.mem_range'_1]; omega, hg, rfl⟩
    · refine .inr (.inr ⟨j, bg, ?_⟩)
      unfold clusterCands
      rw [if_pos hg, mem_cluCands]
      exact ⟨i, by rw [List.mem_range'_1]; omega, hf, rfl⟩

theorem choose_best {S T : Pair D → Prop} {a b : Option (Pair D)} (ha : Best S a) (hb : Best T b) : Best (fun p => S p ∨ T p) (choose a b) := by
  cases a with
  | none =>
    have := ha.better hb
    cases b with
    | none => rwa [better_none_right] at this
    | some b => rwa [better_none_left b hb.2.1] at this
  | some a =>
    cases b with
    | none => have := ha.better hb; rwa [better_none_right] at this
    | some b =>
      unfold choose
      show Best _ (if a.dist < b.dist then some a else some b)
      have := hb.better ha
      unfold better at this
      exact Best.congr (S := fun p => T p ∨ S p) this fun p => or_comm

theorem pair_best {n : Nat} {P : Args D} {st : St D} (h : WF n st) (hm : GoodMat n P.m) (hI : InI64 n) (hth : InI64 P.threads)
    (htid : GoodTid P.b P.threads) {r : Res (Option (Pair D))} (hr : PairRun P st r) : ∃ c, r = .ok c ∧ Best (Cand P.s P.m.val st) c := by
  obtain ⟨rv, rc, hv, hc, rfl⟩ := hr
  have hIc : InI64 st.clusters.length := by have := h.room; unfold InI64 at *; omega
  obtain ⟨v, rfl, bv⟩ := search_best (value_scans P.s h hm) (by rw [h.len]; exact hI) hth htid hv
  obtain ⟨c, rfl, bc⟩ := search_best (cluster_scans P.s h hm) hIc hth htid hc
  exact ⟨choose v c, rfl, choose_best bv bc⟩

theorem pair_exists {n : Nat} {P : Args D} {st : St D} (h : WF n st) (hI : InI64 n) (hth : InI64 P.threads)
    (htid : GoodTid P.b P.threads) : ∃ r, PairRun P st r := by
  have hIc : InI64 st.clusters.length := by have := h.room; unfold InI64 at *; omega
  obtain ⟨rv, hv⟩ := search_exists P.b P.threads (valueBody P.s st.mask P.m st.clusters) (n := st.mask.length) (by rw [h.len]; exact hI) hth htid
  obtain ⟨rc, hc⟩ := search_exists P.b P.threads (clusterBody P.s P.m st.clusters) hIc hth htid
  exact ⟨_, rv, rc, hv, hc, rfl⟩

/-! ### Merging -/

theorem mask_perm (mask : List Bool) (v : Nat) (h : mask[v]? = some false) : (unmasked mask).Perm (v :: unmasked (mask.set v true)) := by
  have hv : v < mask.length := by
    by_contra hc
    rw [List.getElem?_eq_none (by omega)] at h
    cases h
  apply (List.perm_ext_iff_of_nodup (List.nodup_range.filter _) ?_).mpr
  · intro x
    simp only [unmasked, List.mem_filter, List.mem_range, List.mem_cons, decide_eq_true_eq, List.length_set, List.getElem?_set]
    by_cases hx : x = v
    · subst hx; rw [h]; simp [hv]
    · have hx' : ¬ v = x := fun h => hx h.symm
      simp [hx, hx']
  · rw [List.nodup_cons]
    refine ⟨?_, List.nodup_range.filter _⟩
    simp only [unmasked, List.mem_filter, List.mem_range, List.length_set, List.getElem?_set, decide_eq_true_eq]
    simp [hv]

theorem set_perm {X : Type} (l : List X) (i : Nat) (x a : X) (h : l[i]? = some a) : ∃ e, l.Perm (a :: e) ∧ (l.set i x).Perm (x :: e) := by
  rw [List.getElem?_eq_some_iff] at h
  obtain ⟨hi, rfl⟩ := h
  refine ⟨l.eraseIdx i, (List.getElem_cons_eraseIdx_perm hi).symm, ?_⟩
  have := (List.getElem_cons_eraseIdx_perm (l := l.set i x) (n := i) (by simpa using hi)).symm
  rw [List.eraseIdx_set_eq] at this
  simpa using this

/-- A merge takes two clusters out and puts their union in. -/
def Merges (a b : List Nat) (cs cs' : List (List Nat)) : Prop :=
  ∃ c rest, c.Perm (a ++ b) ∧ cs.Perm (a :: b :: rest) ∧ cs'.Perm (c :: rest)

theorem flatten_filter_ne (cs : List (List Nat)) : (cs.filter fun c => c ≠ []).flatten = cs.flatten := by
  induction cs with
  | nil => rfl
  | cons c cs ih =>
    by_cases h : c = []
    · subst h; simpa using ih
    · rw [List.filter_cons_of_pos (by simpa using h), List.flatten_cons, List.flatten_cons, ih]

theorem finish_flatten (st : St D) : (finish st).flatten = st.clusters.flatten ++ unmasked st.mask := by
  unfold finish
  rw [List.flatten_append, flatten_filter_ne]
  congr 1
  induction unmasked st.mask with
  | nil => rfl
  | cons v l ih => simp [ih]

theorem merges_flatten {a b : List Nat} {cs cs' : List (List Nat)} (h : Merges a b cs cs') : cs'.flatten.Perm cs.flatten := by
  obtain ⟨c, rest, h1, h2, h3⟩ := h
  have e1 := h2.flatten
  have e2 := h3.flatten
  rw [List.flatten_cons] at e2
  rw [List.flatten_cons, List.flatten_cons, ← List.append_assoc] at e1
  exact e2.trans ((h1.append_right _).trans e1.symm)

theorem merge_ok {n : Nat} {st : St D} (h : WF n st) (f g : Item) (d : D) (hf : Live st f) (hg : Live st g) (hne : f ≠ g) :
    ∃ st', mergePair st ⟨f, g, d⟩ = .ok st' ∧ WF n st' ∧ st'.closest = d ∧ Merges (elems st f) (elems st g) (finish st) (finish st') := by
  have key : ∃ st', mergePair st ⟨f, g, d⟩ = .ok st' ∧ st'.mask.length = n ∧
      st'.clusters.length + (unmasked st'.mask).length ≤ n ∧ st'.closest = d ∧ Merges (elems st f) (elems st g) (finish st) (finish st') := by
    have bf := live_bound hf
    have bg := live_bound hg
    have hroom := h.room
    rcases f with ⟨cf, i⟩
    rcases g with ⟨cg, j⟩
    cases cf <;> cases cg
    · -- two values
      simp only [Bool.false_eq_true, if_false] at bf bg
      simp only [ne_eq, Item.mk.injEq, true_and] at hne
      have hi : st.mask[i]? = some false := hf
      have hj : st.mask[j]? = some false := hg
      have hj' : (st.mask.set i true)[j]? = some false := by rw [List.getElem?_set, if_neg hne]; exact hj
      have p1 := mask_perm st.mask i hi
      have p2 := mask_perm _ j hj'
      have p3 := p1.trans (p2.cons i)
      refine ⟨⟨(st.mask.set i true).set j true, st.clusters ++ [[i, j]], d⟩, ?_, ?_, ?_, rfl, ?_⟩
      · simp [mergePair, setChecked, bf, bg]
      · simp [h.len]
      · have := p3.length_eq
        simp only [List.length_cons, List.length_append, List.length_nil] at this ⊢
        omega
      · refine ⟨[i, j], st.clusters.filter (fun c => c ≠ []) ++ (unmasked ((st.mask.set i true).set j true)).map fun v => [v], ?_, ?_, ?_⟩
        · simp [elems]
        · have p4 := (p3.map fun v => [v]).append_left (st.clusters.filter (fun c => c ≠ []))
          refine p4.trans ?_
          simp only [List.map_cons, elems, Bool.false_eq_true, if_false]
          exact (List.perm_middle).trans ((List.perm_middle).cons _)
        · unfold finish
          rw [List.filter_append]
          have : [[i, j]].filter (fun c : List Nat => decide (c ≠ [])) = [[i, j]] := by simp
          rw [this, List.append_assoc]
          exact List.perm_middle
    · -- value and cluster
      simp only [Bool.false_eq_true, if_false, if_true] at bf bg
      have hi : st.mask[i]? = some false := hf
      have hjn : st.clusters.getD j [] ≠ [] := hg
      have hj : st.clusters[j]? = some (st.clusters.getD j []) := by
        rw [List.getD_eq_getElem?_getD, List.getElem?_eq_getElem bg]; rfl
      have p1 := mask_perm st.mask i hi
      obtain ⟨e, e1, e2⟩ := set_perm st.clusters j (st.clusters.getD j [] ++ [i]) _ hj
      refine ⟨⟨st.mask.set i true, st.clusters.set j (st.clusters.getD j [] ++ [i]), d⟩, ?_, ?_, ?_, rfl, ?_⟩
      · unfold mergePair
        simp only [Bool.not_false, Bool.not_true, Bool.and_false, Bool.false_and, Bool.false_eq_true, if_false]
        unfold atChecked setChecked
        rw [hj]
        simp only [Res.ok_bind]
        rw [if_pos bf]
        rfl
      · simp [h.len]
      · have := p1.length_eq
        simp only [List.length_cons, List.length_set] at this ⊢
        omega
      · refine ⟨st.clusters.getD j [] ++ [i], e.filter (fun c => c ≠ []) ++ (unmasked (st.mask.set i true)).map fun v => [v], ?_, ?_, ?_⟩
        · simp only [elems, Bool.false_eq_true, if_false, if_true]
          exact List.perm_append_comm
        · have q1 := e1.filter (fun c => decide (c ≠ []))
          rw [List.filter_cons_of_pos (by simpa using hjn)] at q1
          have q2 := p1.map fun v => [v]
          rw [List.map_cons] at q2
          refine (q1.append q2).trans ?_
          simp only [elems, Bool.false_eq_true, if_false, if_true]
          exact List.perm_middle
        · have q1 := e2.filter (fun c => decide (c ≠ []))
          rw [List.filter_cons_of_pos (by simp)] at q1
          exact q1.append_right _
    · -- cluster and value
      simp only [Bool.false_eq_true, if_false, if_true] at bf bg
      have hi : st.mask[j]? = some false := hg
      have hjn : st.clusters.getD i [] ≠ [] := hf
      have hj : st.clusters[i]? = some (st.clusters.getD i []) := by
        rw [List.getD_eq_getElem?_getD, List.getElem?_eq_getElem bf]; rfl
      have p1 := mask_perm st.mask j hi
      obtain ⟨e, e1, e2⟩ := set_perm st.clusters i (st.clusters.getD i [] ++ [j]) _ hj
      refine ⟨⟨st.mask.set j true, st.clusters.set i (st.clusters.getD i [] ++ [j]), d⟩, ?_, ?_, ?_, rfl, ?_⟩
      · unfold mergePair
        simp only [Bool.not_false, Bool.not_true, Bool.and_false, Bool.false_and, Bool.false_eq_true, if_false, if_true, Bool.and_true]
        unfold atChecked setChecked
        rw [hj]
        simp only [Res.ok_bind]
        rw [if_pos bg]
        rfl
      · simp [h.len]
      · have := p1.length_eq
        simp only [List.length_cons, List.length_set] at this ⊢
        omega
      · refine ⟨st.clusters.getD i [] ++ [j], e.filter (fun c => c ≠ []) ++ (unmasked (st.mask.set j true)).map fun v => [v], ?_, ?_, ?_⟩
        · simp only [elems, Bool.false_eq_true, if_false, if_true]
          exact List.Perm.refl _
        · have q1 := e1.filter (fun c => decide (c ≠ []))
          rw [List.filter_cons_of_pos (by simpa using hjn)] at q1
          have q2 := p1.map fun v => [v]
          rw [List.map_cons] at q2
          refine (q1.append q2).trans ?_
          simp only [elems, Bool.false_eq_true, if_false, if_true]
          exact (List.perm_middle.cons _ : _)
        · have q1 := e2.filter (fun c => decide (c ≠ []))
          rw [List.filter_cons_of_pos (by simp)] at q1
          exact q1.append_right _
    · -- two clusters
      simp only [if_true] at bf bg
      simp only [ne_eq, Item.mk.injEq, true_and] at hne
      have hin : st.clusters.getD i [] ≠ [] := hf
      have hjn : st.clusters.getD j [] ≠ [] := hg
      have hi : st.clusters[i]? = some (st.clusters.getD i []) := by
        rw [List.getD_eq_getElem?_getD, List.getElem?_eq_getElem bf]; rfl
      have hj : st.clusters[j]? = some (st.clusters.getD j []) := by
        rw [List.getD_eq_getElem?_getD, List.getElem?_eq_getElem bg]; rfl
      generalize ha : st.clusters.getD i [] = a at *
      generalize hb : st.clusters.getD j [] = b at *
      have hj' : (st.clusters.set i (a ++ b))[j]? = some b := by rw [List.getElem?_set, if_neg hne]; exact hj
      obtain ⟨e, e1, e2⟩ := set_perm st.clusters i (a ++ b) a hi
      obtain ⟨e', e3, e4⟩ := set_perm (st.clusters.set i (a ++ b)) j [] b hj'
      refine ⟨⟨st.mask, (st.clusters.set i (a ++ b)).set j [], d⟩, ?_, h.len, ?_, rfl, ?_⟩
      · unfold mergePair
        simp only [Bool.not_true, Bool.and_false, Bool.false_eq_true, if_false, if_true, Bool.and_true]
        unfold atChecked
        rw [hi]
        simp only [Res.ok_bind]
        rw [hj]
        rfl
      · simp only [List.length_set]; exact hroom
      · have ea : elems st ⟨true, i⟩ = a := by simpa [elems] using ha
        have eb : elems st ⟨true, j⟩ = b := by simpa [elems] using hb
        rw [ea, eb]
        have q1 := e1.filter (fun c => decide (c ≠ []))
        have q2 := e2.filter (fun c => decide (c ≠ []))
        have q3 := e3.filter (fun c => decide (c ≠ []))
        have q4 := e4.filter (fun c => decide (c ≠ []))
        rw [List.filter_cons_of_pos (by simpa using hin)] at q1
        rw [List.filter_cons_of_pos (by simp [hin])] at q2
        rw [List.filter_cons_of_pos (by simpa using hjn)] at q3
        rw [List.filter_cons_of_neg (by simp)] at q4
        generalize e.filter (fun c => decide (c ≠ [])) = F at *
        generalize e'.filter (fun c => decide (c ≠ [])) = F' at *
        have q5 : ((a ++ b) :: F).Perm (b :: F') := q2.symm.trans q3
        have hbF : b ∈ F := by
          have : b ∈ (a ++ b) :: F := q5.symm.subset (by simp)
          rw [List.mem_cons] at this
          rcases this with h | h
          · have hl := congrArg List.length h
            rw [List.length_append] at hl
            have : a.length ≠ 0 := fun hc => hin (List.length_eq_zero_iff.mp hc)
            omega
          · exact h
        have q6 : F.Perm (b :: F.erase b) := List.perm_cons_erase hbF
        have q7 : F'.Perm ((a ++ b) :: F.erase b) := by
          have : (b :: F').Perm (b :: (a ++ b) :: F.erase b) := q5.symm.trans ((q6.cons _).trans (List.Perm.swap _ _ _))
          exact this.cons_inv
        refine ⟨a ++ b, F.erase b ++ (unmasked st.mask).map fun v => [v], List.Perm.refl _, ?_, ?_⟩
        · exact ((q1.trans (q6.cons a)).append_right _)
        · exact ((q4.trans q7).append_right _)
  obtain ⟨st', k1, k2, k3, k4, k5⟩ := key
  refine ⟨st', k1, ⟨k2, ?_, k3⟩, k4, k5⟩
  rw [← finish_flatten]
  have := merges_flatten k5
  rw [finish_flatten st] at this
  exact this.trans h.perm

end CRU.Hier
