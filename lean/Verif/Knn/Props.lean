import Verif.Knn.Lemmas
import Verif.Parallel.Props
import Mathlib.Tactic.IntervalCases
/-
  Properties C08, C09.
-/
namespace CRU.Knn
open CRU.Parallel

variable {Item D : Type} [LinearOrder D]

omit [LinearOrder D] in
theorem entries_distOf (items : List Item) (d : Item → D) (dist : Int → D) (s e : Nat) (he : e ≤ items.length)
    (hd : ∀ i (h : i < items.length), dist (i : Int) = d items[i]) :
    entries (distOf items d (dist 0)) s e = entries dist s e := by
  unfold entries
  apply List.map_congr_left
  intro i hi
  have := mem_irange.mp hi
  have h1 := hd i.toNat (by omega)
  rw [show ((i.toNat : Nat) : Int) = i by omega] at h1
  simp only [distOf, List.getElem?_eq_getElem (show i.toNat < items.length by omega), h1]

/-- C08: for every container, range, `K ≥ 0`, distance function and every conforming `std::partial_sort`, the serial
search answers the query; if the range has more than `K` items the answer is sorted by distance. -/
theorem C08_serial_knn_correct (ps : Nat → List (Entry D) → List (Entry D)) (hps : LawfulPartialSort ps)
    (items : List Item) (d : Item → D) (dist : Int → D) (hd : ∀ i (h : i < items.length), dist (i : Int) = d items[i])
    (s e : Nat) (K : Int) (hse : s ≤ e) (he : e ≤ items.length) (hK : 0 ≤ K) :
    ∃ r, knnSerial ps items d s e K = .ok r ∧ IsKNearest dist s e K.toNat r ∧
      (K.toNat < e - s → r.Pairwise fun a b => a.dist ≤ b.dist) := by
  obtain ⟨r, h1, h2, h3⟩ := knnSerial_ok hps items d (dist 0) s e K hse he hK
  rw [entries_distOf items d dist s e he hd] at h2
  exact ⟨r, h1, h2.spec (by omega), h3⟩

/-- C08: exactly the bad ranges and negative `K` throw. -/
theorem C08_serial_knn_throws (ps : Nat → List (Entry D) → List (Entry D)) (hps : LawfulPartialSort ps)
    (items : List Item) (d : Item → D) (dflt : D) (s e : Nat) (K : Int) :
    (e < s ∨ items.length < e ∨ K < 0) ↔ knnSerial ps items d s e K = .throw .invalidArgument := by
  constructor
  · intro h
    unfold knnSerial
    by_cases h1 : e < s
    · simp [h1]
    · by_cases h2 : e > items.length
      · simp [h1, h2]
      · have : K < 0 := by omega
        simp [h1, h2, this]
  · intro h
    by_contra hn
    push Not at hn
    obtain ⟨r, h1, _⟩ := knnSerial_ok hps items d dflt s e K hn.1 hn.2.1 hn.2.2
    rw [h1] at h; cases h

/-- Insertion sort as a conforming `std::partial_sort` (to show the hypotheses can be met). -/
def psSort (_ : Nat) (l : List (Entry D)) : List (Entry D) := l.mergeSort (fun a b => decide (a.dist ≤ b.dist))

theorem psSort_lawful : LawfulPartialSort (psSort (D := D)) := by
  intro K l _
  have hs : (psSort K l).Pairwise (fun a b => a.dist ≤ b.dist) := by
    have := List.pairwise_mergeSort (le := fun a b : Entry D => decide (a.dist ≤ b.dist))
      (fun a b c h1 h2 => by simp at *; exact le_trans h1 h2) (fun a b => by simp; exact le_total _ _) l
    exact this.imp (fun h => by simpa using h)
  refine ⟨List.mergeSort_perm _ _, hs.sublist (List.take_sublist _ _), ?_⟩
  intro a ha b hb
  rw [← List.take_append_drop K (psSort K l)] at hs
  exact (List.pairwise_append.mp hs).2.2 a ha b hb

example : ∃ r, knnSerial psSort [5, 1, 4, 2, 3] (fun x : Nat => x) 0 5 2 = .ok r ∧
    IsKNearest (fun i => ([5, 1, 4, 2, 3] : List Nat).getD i.toNat 0) 0 5 2 r := by
  obtain ⟨r, h1, h2, _⟩ := C08_serial_knn_correct psSort psSort_lawful [5, 1, 4, 2, 3] (fun x : Nat => x)
    (fun i => ([5, 1, 4, 2, 3] : List Nat).getD i.toNat 0) (by
      intro i h
      have : i < 5 := h
      interval_cases i <;> rfl) 0 5 2 (by decide) (by decide) (by decide)
  exact ⟨r, h1, h2⟩

/-- Work ranges handed out have distinct thread numbers when the backend gives each worker its own thread. -/
theorem staticRangeLoop_facts (b : Backend) (threads : Int) (s e : Nat) (hs : InI64 s) (he : InI64 e)
    (hth : InI64 threads) (hsz : InI64 ((e : Int) - s)) (h1 : 1 ≤ threads) (hse : s < e)
    (htid : ∀ t : Nat, (t : Int) < threads → (b.tid t : Int) < threads)
    (hinj : ∀ t u : Nat, (t : Int) < threads → (u : Int) < threads → b.tid t = b.tid u → t = u) :
    ∃ ws, staticRangeLoop b threads s e = .ok ws ∧
      (ws.map fun w => irange w.start w.stop).flatten = irange s e ∧
      (∀ w ∈ ws, (s : Int) ≤ w.start ∧ w.start ≤ w.stop ∧ w.stop ≤ e ∧ 0 ≤ w.thread ∧ w.thread < threads) ∧
      (ws.map (·.thread)).Nodup := by
  refine ⟨_, staticRangeLoop_eq b threads s e hs he hth hsz (by omega), ?_, ?_, ?_⟩
  · split
    · simp
    · rename_i hc
      rw [flatten_rangesFrom b s e _ (by omega) (by omega)]
      rw [show (((0 + (min threads ((e : Int) - s)).toNat : Nat)) : Int) = min threads (e - s) by omega]
      rw [bnd_last _ _ _ (by omega) (by omega)]
      rw [show ((0 : Nat) : Int) = 0 from rfl, bnd_zero _ _ _ (by omega) (by omega)]
  · split
    · simp; omega
    · rename_i hc
      intro w hw
      simp only [rangesFrom, List.mem_map, List.mem_range] at hw
      obtain ⟨j, hj, rfl⟩ := hw
      have := htid (0 + j) (by omega)
      have b1 := bnd_range s e (min threads ((e : Int) - s)) ((0 + j : Nat) : Int) (by omega) (by omega) (by omega) (by omega)
      have b2 := bnd_range s e (min threads ((e : Int) - s)) (((0 + j : Nat) : Int) + 1) (by omega) (by omega) (by omega)
        (by omega)
      exact ⟨b1.1, bnd_mono _ _ _ _ (by omega) (by omega), b2.2, by simp, by simpa using this⟩
  · split
    · simp
    · simp only [rangesFrom, List.map_map, Function.comp_def, Nat.zero_add]
      apply List.Nodup.map_on _ List.nodup_range
      intro a ha c hc h
      simp only [List.mem_range] at ha hc
      exact hinj a c (by omega) (by omega) (by simpa using h)

/-- C09: every run of the parallel search (any backend, thread count, interleaving and completion order) in which no two
work ranges share a thread number answers the query, never sorts past the end of the merged buffer, is sorted if the range
has more than `K` items, and has the same multiset of distances as the serial search. -/
theorem C09_parallel_knn_correct (ps : Nat → List (Entry D) → List (Entry D)) (hps : LawfulPartialSort ps)
    (b : Backend) (threads : Int) (items : List Item) (d : Item → D) (dist : Int → D)
    (hd : ∀ i (h : i < items.length), dist (i : Int) = d items[i])
    (s e : Nat) (K : Int) (hse : s ≤ e) (he : e ≤ items.length) (hK : 0 ≤ K)
    (hI : InI64 items.length) (hth : InI64 threads) (h1 : 1 ≤ threads)
    (htid : ∀ t : Nat, (t : Int) < threads → (b.tid t : Int) < threads)
    (hinj : ∀ t u : Nat, (t : Int) < threads → (u : Int) < threads → b.tid t = b.tid u → t = u)
    (out : Res (List (Entry D))) (hrun : KnnParallelRun ps b threads items d s e K out) :
    ∃ r, out = .ok r ∧ IsKNearest dist s e K.toNat r ∧
      (K.toNat < e - s → r.Pairwise fun a b => a.dist ≤ b.dist) ∧
      ∃ r', knnSerial ps items d s e K = .ok r' ∧ (r.map (·.dist)).Perm (r'.map (·.dist)) := by
  obtain ⟨rs, hrs1, hrs2, _⟩ := knnSerial_ok hps items d (dist 0) s e K hse he hK
  have hent := entries_distOf items d dist s e he hd
  have hentlen : (entries (distOf items d (dist 0)) s e).length = e - s := by simp [entries, length_irange]
  suffices h : ∃ r, out = .ok r ∧ KSmall K.toNat (entries (distOf items d (dist 0)) s e) r ∧
      (K.toNat < e - s → r.Pairwise fun a b => a.dist ≤ b.dist) by
    obtain ⟨r, a1, a2, a3⟩ := h
    exact ⟨r, a1, (hent ▸ a2).spec (by omega), a3, rs, hrs1, a2.dist_unique hrs2⟩
  have hI' : InI64 (s : Int) ∧ InI64 (e : Int) ∧ InI64 ((e : Int) - s) := by unfold InI64 at *; omega
  unfold KnnParallelRun at hrun
  rw [if_neg (by omega), if_neg (by omega), if_neg (by omega)] at hrun
  split at hrun
  · rename_i h0
    refine ⟨[], hrun, ?_, by simp⟩
    rcases h0 with h | h
    · subst h
      exact ⟨by simp, entries (distOf items d (dist 0)) s e, by simp, by simp⟩
    · refine ⟨by simp [hentlen, h], [], ?_, by simp⟩
      rw [List.append_nil, List.length_eq_zero_iff.mp (hentlen.trans h)]
  rename_i h0
  push Not at h0
  have htid' : ∀ t : Nat, (t : Int) < min threads ((e : Int) - s) → (b.tid t : Int) < threads :=
    fun t ht => htid t (by omega)
  obtain ⟨ws, hws, hfl, hwr, hnd⟩ := staticRangeLoop_facts b threads s e hI'.1 hI'.2.1 hth hI'.2.2 h1 (by omega) htid hinj
  split at hrun
  · rename_i h2
    obtain ⟨ws', tr, init, hws', htr, hinit, rfl⟩ := hrun
    refine ⟨entries (distOf items d (dist 0)) s e, ?_, KSmall.self (by omega), fun h => by omega⟩
    simp only [staticIndexLoop, hws, Res.ok_bind, Res.pure_eq, Res.ok.injEq] at hws'
    subst hws'
    have hp : (tr.map (·.index)).Perm (irange s e) := by
      refine (htr.perm.map _).trans ?_
      rw [List.map_flatten, List.map_map]
      have : (List.map (fun c => c.index) ∘ expand) = fun w => irange w.start w.stop := by
        funext w; exact expand_index w
      rw [this, hfl]
    rw [fillAll_congr _ (fun i => .ok (⟨i, distOf items d (dist 0) i⟩ : Entry D))]
    · exact fillAll_irange _ _ _ _ _ (by omega) hp
    · intro i hi
      have := mem_irange.mp (hp.subset hi)
      have hlt : i.toNat < items.length := by omega
      simp [atRaw, distOf, List.getElem?_eq_getElem hlt]
  · rename_i h2
    obtain ⟨ws', order, hws', hperm, rfl⟩ := hrun
    rw [hws] at hws'
    simp only [Res.ok.injEq] at hws'
    subst hws'
    obtain ⟨slots', answers, hr1, hr2, hr3⟩ := runRanges_ok hps items d (dist 0) K hK order
      (List.replicate threads.toNat [])
      (fun w hw => by have := hwr w (hperm.subset hw); omega)
      (fun w hw => by
        have := hwr w (hperm.subset hw)
        refine ⟨this.2.2.2.1, ?_⟩
        rw [List.getElem?_replicate, if_pos (by omega)])
      ((hperm.map _).nodup_iff.mpr hnd)
    have hflat : (order.map fun w => entries (distOf items d (dist 0)) w.start w.stop).flatten.Perm
        (entries (distOf items d (dist 0)) s e) := by
      rw [← flatten_entries _ ws s e hfl]
      exact List.Perm.flatten (hperm.map _)
    have hslots : slots'.flatten.Perm answers.flatten := by
      refine hr2.trans ?_
      have : (List.replicate threads.toNat ([] : List (Entry D))).flatten = [] := by
        rw [List.flatten_eq_nil_iff]; intro l hl; exact List.eq_of_mem_replicate hl
      rw [this, List.append_nil]
    -- enough entries to sort
    have hcount : ∀ (bl an : List (List (Entry D))), List.Forall₂ (KSmall K.toNat) bl an →
        min K.toNat bl.flatten.length ≤ an.flatten.length := by
      intro bl an h
      induction h with
      | nil => simp
      | cons hab _ ih =>
        have := hab.1
        simp only [List.flatten_cons, List.length_append] at ih ⊢
        omega
    have hc := hcount _ _ hr3
    rw [hflat.length_eq, hentlen] at hc
    have hlen : K.toNat ≤ slots'.flatten.length := by rw [hslots.length_eq]; omega
    obtain ⟨l', hl', hsorted⟩ := partialSort_ok hps hlen
    refine ⟨l'.take K.toNat, ?_, ?_, fun _ => hsorted.2.1⟩
    · rw [hr1]
      simp only [Res.ok_bind, merge, hl', Res.pure_eq]
    · have h5 : KSmall K.toNat answers.flatten (l'.take K.toNat) :=
        (KSmall.of_partialSorted hsorted).perm hslots
      exact (KSmall.merge hr3 h5).perm hflat

/-- Parallel runs exist: with the async backend, for all arguments. -/
theorem C09_parallel_runs_exist (ps : Nat → List (Entry D) → List (Entry D)) (threads : Int) (items : List Item)
    (d : Item → D) (dflt : D) (s e : Nat) (K : Int) (hse : s ≤ e) (he : e ≤ items.length)
    (hI : InI64 items.length) (hth : InI64 threads) (h1 : 1 ≤ threads) :
    ∃ out, KnnParallelRun ps .async threads items d s e K out := by
  have g1 : ¬ e < s := by omega
  have g2 : ¬ e > items.length := by omega
  simp only [KnnParallelRun, g1, g2, if_false]
  by_cases g3 : K < 0
  · simp [g3]
  by_cases g4 : K = 0 ∨ e - s = 0
  · simp [g3, g4]
  simp only [g3, g4, if_false]
  push Not at g4
  have hI' : InI64 (s : Int) ∧ InI64 (e : Int) ∧ InI64 ((e : Int) - s) := by unfold InI64 at *; omega
  obtain ⟨ws, hws, -⟩ := staticRangeLoop_facts .async threads s e hI'.1 hI'.2.1 hth hI'.2.2 h1 (by omega)
    (by intro t h; exact h) (by intro t u _ _ h; exact h)
  by_cases g5 : e - s ≤ K.toNat
  · simp only [g5, if_true]
    obtain ⟨tr, htr⟩ := Interleaving.exists_run (ws.map expand)
    exact ⟨_, ws.map expand, tr, List.replicate (e - s) ⟨0, dflt⟩, by simp [staticIndexLoop, hws], htr, by simp, rfl⟩
  · simp only [g5, if_false]
    exact ⟨_, ws, ws, hws, List.Perm.refl _, rfl⟩

example : ∃ r, KnnParallelRun psSort .async 3 [5, 1, 4, 2, 3] (fun x : Nat => x) 0 5 2 (.ok r) ∧
    IsKNearest (fun i => ([5, 1, 4, 2, 3] : List Nat).getD i.toNat 0) 0 5 2 r := by
  obtain ⟨out, h⟩ := C09_parallel_runs_exist psSort 3 [5, 1, 4, 2, 3] (fun x : Nat => x) 0 0 5 2 (by decide) (by decide)
    (by decide) (by decide) (by decide)
  obtain ⟨r, rfl, h2, _⟩ := C09_parallel_knn_correct psSort psSort_lawful .async 3 [5, 1, 4, 2, 3] (fun x : Nat => x)
    (fun i => ([5, 1, 4, 2, 3] : List Nat).getD i.toNat 0) (by
      intro i h
      have : i < 5 := h
      interval_cases i <;> rfl) 0 5 2 (by decide) (by decide) (by decide) (by decide) (by decide) (by decide)
    (by intro t h; exact h) (by intro t u _ _ h; exact h) out h
  exact ⟨r, h, h2⟩

/-- The proviso is needed: if OpenMP delivers fewer threads than requested, two work ranges share a thread number, one
answer overwrites the other, and the merge sorts past the end of its buffer (undefined behaviour). -/
theorem C09_shared_thread_numbers_break_merge :
    KnnParallelRun (psSort (D := Nat)) (.omp fun _ => 0) 2 [5, 1, 4] (fun x : Nat => x) 0 3 2 .ub := by
  unfold KnnParallelRun
  rw [if_neg (by decide), if_neg (by decide), if_neg (by decide), if_neg (by decide), if_neg (by decide)]
  refine ⟨[⟨0, 2, 0⟩, ⟨2, 3, 0⟩], [⟨0, 2, 0⟩, ⟨2, 3, 0⟩], by decide, List.Perm.refl _, ?_⟩
  have h1 : knnSerial psSort [5, 1, 4] (fun x : Nat => x) 0 2 2 = .ok [⟨0, 5⟩, ⟨1, 1⟩] := by decide
  have h2 : knnSerial psSort [5, 1, 4] (fun x : Nat => x) 2 3 2 = .ok [⟨2, 4⟩] := by decide
  have h3 : runRanges psSort [5, 1, 4] (fun x : Nat => x) 2 [⟨0, 2, 0⟩, ⟨2, 3, 0⟩]
      (List.replicate (2 : Int).toNat []) = .ok [[⟨2, 4⟩], []] := by
    simp only [runRanges]
    rw [show ((0 : Int).toNat) = 0 from rfl, show ((2 : Int).toNat) = 2 from rfl, show ((3 : Int).toNat) = 3 from rfl, h1, h2]
    simp [setRaw, List.replicate]
  rw [h3]
  simp [merge, partialSort]

end CRU.Knn
