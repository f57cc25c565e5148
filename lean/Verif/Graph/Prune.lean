import Verif.Graph.Lemmas
import Mathlib.Data.List.Count
import Mathlib.Data.List.Nodup
import Mathlib.Data.List.Perm.Subperm
namespace CRU.Graph
open CRU.Ser CRU.Parallel

variable {V W : Type}

theorem newIndex_succ (prune : List Int) (i : Nat) :
    newIndex prune (i + 1) = newIndex prune i + if (i : Int) ∈ prune then 0 else 1 := by
  unfold newIndex
  rw [List.range_succ, List.filter_append, List.length_append]
  by_cases h : (i : Int) ∈ prune <;> simp [h]

theorem newIndex_mono (prune : List Int) {i j : Nat} (h : i ≤ j) : newIndex prune i ≤ newIndex prune j := by
  induction h with
  | refl => exact le_refl _
  | step _ ih => exact le_trans ih (by rw [newIndex_succ]; omega)

theorem newIndex_lt (prune : List Int) {i j : Nat} (h : i < j) (hi : (i : Int) ∉ prune) :
    newIndex prune i < newIndex prune j := by
  have := newIndex_mono prune (show i + 1 ≤ j by omega)
  rw [newIndex_succ, if_neg hi] at this
  omega

theorem newIndex_inj (prune : List Int) {i j : Nat} (hi : (i : Int) ∉ prune) (hj : (j : Int) ∉ prune)
    (h : newIndex prune i = newIndex prune j) : i = j := by
  rcases Nat.lt_trichotomy i j with h1 | h1 | h1
  · have := newIndex_lt prune h1 hi; omega
  · exact h1
  · have := newIndex_lt prune h1 hj; omega

theorem filter_lt_succ (prune : List Int) (hnd : prune.Nodup) (i : Nat) :
    (prune.filter (fun p => p < ((i + 1 : Nat) : Int))).length
      = (prune.filter (fun p => p < (i : Int))).length + if (i : Int) ∈ prune then 1 else 0 := by
  induction prune with
  | nil => simp
  | cons p ps ih =>
    have hnd' := List.nodup_cons.mp hnd
    have ih' := ih hnd'.2
    simp only [List.filter_cons, List.mem_cons]
    by_cases hp : (i : Int) = p
    · subst hp
      rw [if_neg hnd'.1] at ih'
      push_cast at ih'
      simp [ih']
    · have e1 : (decide (p < ((i + 1 : Nat) : Int))) = decide (p < (i : Int)) := by
        rw [decide_eq_decide]; omega
      rw [e1]
      simp only [hp, false_or]
      split
      · simp only [List.length_cons, ih']; omega
      · exact ih'

theorem newIndex_count (prune : List Int) (hnd : prune.Nodup) (h0 : ∀ p ∈ prune, 0 ≤ p) (i : Nat) :
    newIndex prune i + (prune.filter (fun p => p < (i : Int))).length = i := by
  induction i with
  | zero =>
    have : prune.filter (fun p => p < ((0 : Nat) : Int)) = [] := by
      rw [List.filter_eq_nil_iff]; intro p hp; have := h0 p hp; simp; omega
    rw [this]; simp [newIndex]
  | succ i ih =>
    rw [newIndex_succ, filter_lt_succ prune hnd i]
    split <;> omega

theorem renumber_ok (orig : Int) (l : List Int) (cur : Int) (hs : l.Pairwise (· ≤ ·)) (hn : orig ∉ l) :
    renumber orig l cur = .ok (cur - (l.filter (fun p => p < orig)).length) := by
  induction l generalizing cur with
  | nil => simp [renumber]
  | cons p ps ih =>
    have hs' := List.pairwise_cons.mp hs
    simp only [List.mem_cons, not_or] at hn
    unfold renumber
    by_cases h : p < orig
    · rw [if_pos h, ih _ hs'.2 hn.2]
      simp only [List.filter_cons, h, decide_true, if_true, List.length_cons]
      congr 1; push_cast; omega
    · rw [if_neg h, if_pos (by omega)]
      have : (p :: ps).filter (fun p => p < orig) = [] := by
        rw [List.filter_eq_nil_iff]
        intro q hq
        rcases List.mem_cons.mp hq with rfl | hq
        · simpa using h
        · have := hs'.1 q hq; simp; omega
      rw [this]; simp

theorem sortInts_sorted (l : List Int) : (sortInts l).Pairwise (· ≤ ·) := by
  have := List.pairwise_mergeSort (le := fun a b : Int => decide (a ≤ b))
    (fun a b c h1 h2 => by simp at *; omega) (fun a b => by simp; omega) l
  exact this.imp (fun h => by simpa using h)

theorem sortInts_perm (l : List Int) : (sortInts l).Perm l := List.mergeSort_perm _ _

theorem renumber_eq (prune : List Int) (hnd : prune.Nodup) (h0 : ∀ p ∈ prune, 0 ≤ p) (j : Nat) (hj : (j : Int) ∉ prune) :
    renumber (j : Int) (sortInts prune) j = .ok (newIndex prune j : Int) := by
  rw [renumber_ok _ _ _ (sortInts_sorted _) (by rw [(sortInts_perm prune).mem_iff]; exact hj)]
  have h1 := newIndex_count prune hnd h0 j
  have h2 := ((sortInts_perm prune).filter (fun p => decide (p < (j : Int)))).length_eq
  congr 1
  omega

/-- The renumbered node. -/
def newNode (prune : List Int) (k : Int) (n : Node V W) : Node V W :=
  { value := n.value
    ins := (n.ins.filter fun e => e.src ∉ prune).map fun e => { e with src := newIndex prune e.src.toNat, dst := k }
    outs := (n.outs.filter fun e => e.dst ∉ prune).map fun e => { e with src := k, dst := newIndex prune e.dst.toNat } }

theorem pruneIns_ok (prune : List Int) (hnd : prune.Nodup) (h0 : ∀ p ∈ prune, 0 ≤ p) (k : Int) (es : List (Edge W))
    (hes : ∀ e ∈ es, 0 ≤ e.src) :
    pruneIns prune (sortInts prune) k es = .ok ((es.filter fun e => e.src ∉ prune).map fun e =>
      { e with src := newIndex prune e.src.toNat, dst := k }) := by
  induction es with
  | nil => rfl
  | cons e es ih =>
    have ih' := ih (fun x hx => hes x (by simp [hx]))
    unfold pruneIns
    by_cases h : e.src ∈ prune
    · rw [if_pos h, ih']; simp [h]
    · rw [if_neg h]
      obtain ⟨j, hj⟩ := Int.eq_ofNat_of_zero_le (hes e (by simp))
      rw [hj] at h ⊢
      rw [renumber_eq prune hnd h0 j h, Res.ok_bind, ih', Res.ok_bind, Res.pure_eq]
      simp [hj, h]

theorem pruneOuts_ok (prune : List Int) (hnd : prune.Nodup) (h0 : ∀ p ∈ prune, 0 ≤ p) (k : Int) (es : List (Edge W))
    (hes : ∀ e ∈ es, 0 ≤ e.dst) :
    pruneOuts prune (sortInts prune) k es = .ok ((es.filter fun e => e.dst ∉ prune).map fun e =>
      { e with src := k, dst := newIndex prune e.dst.toNat }) := by
  induction es with
  | nil => rfl
  | cons e es ih =>
    have ih' := ih (fun x hx => hes x (by simp [hx]))
    unfold pruneOuts
    by_cases h : e.dst ∈ prune
    · rw [if_pos h, ih']; simp [h]
    · rw [if_neg h]
      obtain ⟨j, hj⟩ := Int.eq_ofNat_of_zero_le (hes e (by simp))
      rw [hj] at h ⊢
      rw [renumber_eq prune hnd h0 j h, Res.ok_bind, ih', Res.ok_bind, Res.pure_eq]
      simp [hj, h]

theorem pruneNode_ok (prune : List Int) (hnd : prune.Nodup) (h0 : ∀ p ∈ prune, 0 ≤ p) (k : Int) (n : Node V W)
    (hi : ∀ e ∈ n.ins, 0 ≤ e.src) (ho : ∀ e ∈ n.outs, 0 ≤ e.dst) :
    pruneNode prune (sortInts prune) k n = .ok (newNode prune k n) := by
  unfold pruneNode
  rw [pruneIns_ok prune hnd h0 k n.ins hi, Res.ok_bind, pruneOuts_ok prune hnd h0 k n.outs ho, Res.ok_bind, Res.pure_eq]
  rfl

/-- The kept nodes with their original indices. -/
def kept (g : Graph V W) (prune : List Int) : List (Node V W × Nat) := g.zipIdx.filter fun p => ((p.2 : Int) ∉ prune)

theorem kept_append (g : Graph V W) (x : Node V W) (prune : List Int) :
    kept (g ++ [x]) prune = kept g prune ++ if (g.length : Int) ∈ prune then [] else [(x, g.length)] := by
  unfold kept
  rw [List.zipIdx_append, List.filter_append]
  congr 1
  by_cases h : (g.length : Int) ∈ prune <;> simp [h]

theorem length_kept (g : Graph V W) (prune : List Int) : (kept g prune).length = newIndex prune g.length := by
  induction g using List.reverseRecOn with
  | nil => simp [kept, newIndex]
  | append_singleton g x ih =>
    rw [kept_append, List.length_append, ih, List.length_append, List.length_singleton, newIndex_succ]
    by_cases h : (g.length : Int) ∈ prune <;> simp [h]

theorem kept_get (g : Graph V W) (prune : List Int) (k : Nat) (n : Node V W) (i : Nat) :
    (kept g prune)[k]? = some (n, i) ↔ g[i]? = some n ∧ (i : Int) ∉ prune ∧ newIndex prune i = k := by
  induction g using List.reverseRecOn generalizing k n i with
  | nil => simp [kept]
  | append_singleton g x ih =>
    rw [kept_append, List.getElem?_append]
    by_cases hk : k < (kept g prune).length
    · rw [if_pos hk, ih]
      constructor
      · rintro ⟨h1, h2, h3⟩
        obtain ⟨hi, _⟩ := List.getElem?_eq_some_iff.mp h1
        exact ⟨by rw [List.getElem?_append_left hi, h1], h2, h3⟩
      · rintro ⟨h1, h2, h3⟩
        refine ⟨?_, h2, h3⟩
        have hi : i < g.length := by
          by_contra hc
          have h4 : g.length ≤ i := by omega
          have := newIndex_mono prune h4
          rw [length_kept] at hk
          omega
        rwa [List.getElem?_append_left hi] at h1
    · rw [if_neg hk]
      rw [length_kept] at hk ⊢
      constructor
      · intro h
        split at h
        · simp at h
        · rename_i hnp
          have h0 : k - newIndex prune g.length = 0 := by
            by_contra hc
            rw [List.getElem?_eq_none (by simp; omega)] at h
            cases h
          rw [h0] at h
          simp only [List.getElem?_cons_zero, Option.some.injEq, Prod.mk.injEq] at h
          obtain ⟨rfl, rfl⟩ := h
          refine ⟨by simp, hnp, by omega⟩
      · rintro ⟨h1, h2, h3⟩
        have hi : i = g.length := by
          obtain ⟨hi, _⟩ := List.getElem?_eq_some_iff.mp h1
          simp only [List.length_append, List.length_singleton] at hi
          by_contra hc
          have := newIndex_lt prune (show i < g.length by omega) h2
          omega
        subst hi
        rw [if_neg h2, show k - newIndex prune g.length = 0 by omega]
        simp at h1
        simp [h1]

theorem keepNodes_ok (g : Graph V W) (prune : List Int) (is : List Nat) (h : ∀ i ∈ is, i < g.length) :
    keepNodes g prune (is.map fun i : Nat => (i : Int)) =
      .ok ((is.filter fun i : Nat => ((i : Int) ∉ prune)).filterMap fun i => g[i]?) := by
  induction is with
  | nil => rfl
  | cons i is ih =>
    have ih' := ih (fun x hx => h x (by simp [hx]))
    have hi := h i (by simp)
    simp only [List.map_cons]
    unfold keepNodes
    by_cases hp : (i : Int) ∈ prune
    · rw [if_pos hp, ih']; simp [hp]
    · rw [if_neg hp, getNode_ok g i hi, Res.ok_bind, ih', Res.ok_bind, Res.pure_eq]
      simp [hp, List.getElem?_eq_getElem hi]

theorem keepNodes_eq (g : Graph V W) (prune : List Int) :
    keepNodes g prune (irange 0 g.length) = .ok ((kept g prune).map Prod.fst) := by
  have : irange 0 (g.length : Int) = (List.range g.length).map fun i : Nat => (i : Int) := by
    unfold irange; simp
  rw [this, keepNodes_ok g prune _ (fun i hi => List.mem_range.mp hi)]
  congr 1
  induction g using List.reverseRecOn with
  | nil => simp [kept]
  | append_singleton g x ih =>
    rw [kept_append, List.length_append, List.length_singleton, List.range_succ, List.filter_append, List.filterMap_append,
      List.map_append]
    have ih' := ih (by unfold irange; simp)
    congr 1
    · rw [← ih']
      apply List.filterMap_congr
      intro i hi
      have := List.mem_range.mp (List.mem_filter.mp hi).1
      rw [List.getElem?_append_left this]
    · by_cases h : (g.length : Int) ∈ prune <;> simp [h]

theorem prunedGraph_eq (g : Graph V W) (prune : List Int) :
    prunedGraph g prune = (kept g prune).map fun p => newNode prune (newIndex prune p.2) p.1 := rfl

theorem mapIdx_kept (g : Graph V W) (prune : List Int) :
    ((kept g prune).map Prod.fst).mapIdx (fun k n => newNode prune (k : Int) n) = prunedGraph g prune := by
  rw [prunedGraph_eq]
  apply List.ext_getElem?
  intro k
  rw [List.getElem?_mapIdx, List.getElem?_map, List.getElem?_map]
  cases h : (kept g prune)[k]? with
  | none => rfl
  | some p =>
    obtain ⟨n, i⟩ := p
    have := (kept_get g prune k n i).mp h
    simp [this.2.2]

theorem pruned_get {g : Graph V W} {prune : List Int} {k : Nat} {n : Node V W} (h : (prunedGraph g prune)[k]? = some n) :
    ∃ (i : Nat) (m : Node V W), g[i]? = some m ∧ (i : Int) ∉ prune ∧ newIndex prune i = k ∧ n = newNode prune (newIndex prune i) m := by
  rw [prunedGraph_eq, List.getElem?_map] at h
  obtain ⟨⟨m, i⟩, h1, rfl⟩ := Option.map_eq_some_iff.mp h
  obtain ⟨a, b, c⟩ := (kept_get g prune k m i).mp h1
  exact ⟨i, m, a, b, c, rfl⟩

theorem pruned_get_of {g : Graph V W} {prune : List Int} {i : Nat} {m : Node V W} (h : g[i]? = some m)
    (hi : (i : Int) ∉ prune) : (prunedGraph g prune)[newIndex prune i]? = some (newNode prune (newIndex prune i) m) := by
  rw [prunedGraph_eq, List.getElem?_map, (kept_get g prune _ m i).mpr ⟨h, hi, rfl⟩]
  rfl

theorem pruned_valid {g : Graph V W} (h : ValidLinkage g) (prune : List Int) : ValidLinkage (prunedGraph g prune) := by
  intro k n hn
  obtain ⟨i, m, hm, hi, rfl, rfl⟩ := pruned_get hn
  obtain ⟨h1, h2⟩ := h i m hm
  constructor
  · intro e he
    simp only [newNode, List.mem_map, List.mem_filter, decide_eq_true_eq] at he
    obtain ⟨e0, ⟨he0, hp⟩, rfl⟩ := he
    obtain ⟨hd, j, m', hj, hji, hm', e', he', hed⟩ := h1 e0 he0
    rw [hj] at hp
    refine ⟨rfl, newIndex prune j, _, by simp [hj], fun hc => hji (newIndex_inj prune hp hi hc),
      pruned_get_of hm' hp, ?_⟩
    refine ⟨{ e' with src := newIndex prune j, dst := newIndex prune e'.dst.toNat }, ?_, by simp [hed]⟩
    simp only [newNode, List.mem_map, List.mem_filter, decide_eq_true_eq]
    exact ⟨e', ⟨he', by rw [hed]; exact hi⟩, rfl⟩
  · intro e he
    simp only [newNode, List.mem_map, List.mem_filter, decide_eq_true_eq] at he
    obtain ⟨e0, ⟨he0, hp⟩, rfl⟩ := he
    obtain ⟨hd, j, m', hj, hji, hm', e', he', hed⟩ := h2 e0 he0
    rw [hj] at hp
    refine ⟨rfl, newIndex prune j, _, by simp [hj], fun hc => hji (newIndex_inj prune hp hi hc),
      pruned_get_of hm' hp, ?_⟩
    refine ⟨{ e' with src := newIndex prune e'.src.toNat, dst := newIndex prune j }, ?_, by simp [hed]⟩
    simp only [newNode, List.mem_map, List.mem_filter, decide_eq_true_eq]
    exact ⟨e', ⟨he', by rw [hed]; exact hi⟩, rfl⟩

theorem pruned_mirrored {g : Graph V W} (h : Mirrored g) (prune : List Int) : Mirrored (prunedGraph g prune) := by
  have hlen : (prunedGraph g prune).length = newIndex prune g.length := by
    rw [prunedGraph_eq, List.length_map, length_kept]
  constructor
  · intro k n hn
    obtain ⟨i, m, hm, hi, rfl, rfl⟩ := pruned_get hn
    obtain ⟨h1, h2⟩ := h.1 i m hm
    rw [hlen]
    constructor
    · intro e he
      simp only [newNode, List.mem_map, List.mem_filter, decide_eq_true_eq] at he
      obtain ⟨e0, ⟨he0, hp⟩, rfl⟩ := he
      obtain ⟨hd, j, hj, hji, hlt⟩ := h1 e0 he0
      rw [hj] at hp
      exact ⟨rfl, newIndex prune j, by simp [hj], fun hc => hji (newIndex_inj prune hp hi hc), newIndex_lt prune hlt hp⟩
    · intro e he
      simp only [newNode, List.mem_map, List.mem_filter, decide_eq_true_eq] at he
      obtain ⟨e0, ⟨he0, hp⟩, rfl⟩ := he
      obtain ⟨hd, j, hj, hji, hlt⟩ := h2 e0 he0
      rw [hj] at hp
      exact ⟨rfl, newIndex prune j, by simp [hj], fun hc => hji (newIndex_inj prune hp hi hc), newIndex_lt prune hlt hp⟩
  · intro k l n m hn hm
    obtain ⟨i, n0, hn0, hi, rfl, rfl⟩ := pruned_get hn
    obtain ⟨j, m0, hm0, hj, rfl, rfl⟩ := pruned_get hm
    have hmir := h.2 i j n0 m0 hn0 hm0
    have key1 : (newNode prune (newIndex prune i) n0).outs.filter (fun e => e.dst = ((newIndex prune j : Nat) : Int))
        = (n0.outs.filter (fun e => e.dst = (j : Int))).map fun e =>
          { e with src := newIndex prune i, dst := newIndex prune j } := by
      simp only [newNode, List.filter_map, List.filter_filter]
      refine (congrArg (List.map _) (List.filter_congr (q := fun e => decide (e.dst = (j : Int))) ?_)).trans (List.map_congr_left ?_)
      · intro e he
        obtain ⟨_, t, ht, _, _⟩ := (h.1 i n0 hn0).2 e he
        simp only [Function.comp, ht, Int.toNat_natCast, Nat.cast_inj]
        rw [Bool.eq_iff_iff]
        simp only [Bool.and_eq_true, decide_eq_true_eq]
        constructor
        · rintro ⟨hc, hp⟩; exact newIndex_inj prune hp hj hc
        · rintro rfl; exact ⟨rfl, hj⟩
      · intro e he
        simp only [List.mem_filter, decide_eq_true_eq] at he
        simp [he.2]
    have key2 : (newNode prune (newIndex prune j) m0).ins.filter (fun e => e.src = ((newIndex prune i : Nat) : Int))
        = (m0.ins.filter (fun e => e.src = (i : Int))).map fun e =>
          { e with src := newIndex prune i, dst := newIndex prune j } := by
      simp only [newNode, List.filter_map, List.filter_filter]
      refine (congrArg (List.map _) (List.filter_congr (q := fun e => decide (e.src = (i : Int))) ?_)).trans (List.map_congr_left ?_)
      · intro e he
        obtain ⟨_, t, ht, _, _⟩ := (h.1 j m0 hm0).1 e he
        simp only [Function.comp, ht, Int.toNat_natCast, Nat.cast_inj]
        rw [Bool.eq_iff_iff]
        simp only [Bool.and_eq_true, decide_eq_true_eq]
        constructor
        · rintro ⟨hc, hp⟩; exact newIndex_inj prune hp hi hc
        · rintro rfl; exact ⟨rfl, hi⟩
      · intro e he
        simp only [List.mem_filter, decide_eq_true_eq] at he
        simp [he.2]
    rw [key1, key2, hmir]

theorem pruneRun_eq (b : Backend) (threads : Int) (g : Graph V W) (prune : List Int) (hlink : ValidLinkage g)
    (hnd : prune.Nodup) (hpr : ∀ p ∈ prune, 0 ≤ p ∧ p < g.length) (hI : InI64 g.length) (hth : InI64 threads)
    (r : Res (Graph V W)) (hrun : PruneRun b threads g prune r) : r = .ok (prunedGraph g prune) := by
  have hcard : prune.length ≤ g.length := by
    have hsub : prune ⊆ irange 0 g.length := fun p hp => mem_irange.mpr (hpr p hp)
    have := (List.subperm_of_subset hnd hsub).length_le
    simpa [length_irange] using this
  unfold PruneRun at hrun
  rw [if_neg (by omega)] at hrun
  obtain ⟨k, hk, order, hord, rfl⟩ := hrun
  rw [keepNodes_eq] at hk
  simp only [Res.ok.injEq] at hk
  subst hk
  have hle : ((kept g prune).map Prod.fst).length ≤ g.length := by
    rw [List.length_map, length_kept]
    unfold newIndex
    exact le_trans (List.length_filter_le _ _) (by simp)
  have hp := hord.perm (by unfold InI64; omega) (by unfold InI64 at *; omega) hth (by unfold InI64 at *; omega) (by omega)
  rw [modifyAll_perm _ (fun k n => newNode prune k n) order _ hp, mapIdx_kept]
  intro k n hn
  rw [List.getElem?_map] at hn
  obtain ⟨⟨n', i⟩, h1, rfl⟩ := Option.map_eq_some_iff.mp hn
  have hk := (kept_get g prune k n' i).mp h1
  obtain ⟨l1, l2⟩ := hlink i n' hk.1
  apply pruneNode_ok prune hnd (fun p hp => (hpr p hp).1)
  · intro e he
    obtain ⟨_, j, _, hj, _⟩ := l1 e he
    omega
  · intro e he
    obtain ⟨_, j, _, hj, _⟩ := l2 e he
    omega

theorem pruneRun_exists (b : Backend) (threads : Int) (g : Graph V W) (prune : List Int)
    (hI : InI64 g.length) (hth : InI64 threads) : ∃ r, PruneRun b threads g prune r := by
  unfold PruneRun
  by_cases h : (g.length : Int) - prune.length < 0
  · exact ⟨.throw .lengthError, by rw [if_pos h]⟩
  · have hle : ((kept g prune).map Prod.fst).length ≤ g.length := by
      rw [List.length_map, length_kept]
      unfold newIndex
      exact le_trans (List.length_filter_le _ _) (by simp)
    obtain ⟨o, ho⟩ := IndexRun.exists b threads 0 ((kept g prune).map Prod.fst).length (by unfold InI64; omega)
      (by unfold InI64 at *; omega) hth (by unfold InI64 at *; omega) (by omega)
    exact ⟨modifyAll (pruneNode prune (sortInts prune)) o ((kept g prune).map Prod.fst), by
      rw [if_neg h]; exact ⟨_, keepNodes_eq g prune, o, ho, rfl⟩⟩

end CRU.Graph
