import Verif.Parallel.Dynamic
/-
  Properties C04-C07.
-/
namespace CRU.Parallel

/-! ## C04 -/

/-- C04: there are boundaries `s = f 0 ≤ f 1 ≤ … ≤ f n = e` such that thread `t` gets exactly `[f t, f (t+1))`, and the
sizes of the ranges differ by at most one. -/
theorem C04_static_ranges_partition (s e n : Int) (hs : InI64 s) (he : InI64 e) (hnI : InI64 n) (hse : s ≤ e)
    (hn : 1 ≤ n) (hsz : e - s < 9223372036854775807) :
    ∃ f : Nat → Int, f 0 = s ∧ f n.toNat = e ∧
      (∀ t : Nat, (t : Int) < n → f t ≤ f (t + 1) ∧ calcStatic s e n t = .ok (f t, f (t + 1))) ∧
      (∀ t u : Nat, (t : Int) < n → (u : Int) < n → (f (t + 1) - f t) - (f (u + 1) - f u) ≤ 1) := by
  refine ⟨fun t => bnd s e n t, by simpa using bnd_zero s e n hn hse, ?_, ?_, ?_⟩
  · have : ((n.toNat : Nat) : Int) = n := by omega
    simp only [this]; exact bnd_last s e n hn hse
  · intro t ht
    have h := calcStatic_eq s e n t hs he ⟨by omega, by omega⟩ hse hn hnI (.inl hsz) (by omega) ht
    push_cast
    exact ⟨bnd_mono _ _ _ _ hn hse, h⟩
  · intro t u _ _
    have h1 := bnd_succ s e n t
    have h2 := bnd_succ s e n u
    push_cast
    split at h1 <;> split at h2 <;> omega

example : ∃ f : Nat → Int, f 0 = -3 ∧ f 4 = 7 ∧ ∀ t : Nat, (t : Int) < 4 →
    f t ≤ f (t + 1) ∧ calcStatic (-3) 7 4 t = .ok (f t, f (t + 1)) := by
  obtain ⟨f, a, b, c, _⟩ := C04_static_ranges_partition (-3) 7 4 (by decide) (by decide) (by decide) (by decide)
    (by decide) (by decide)
  exact ⟨f, a, b, c⟩

/-- C04: an exception is thrown exactly for an inverted range, a non-positive thread count or a thread number outside
`[0, n)`. -/
theorem C04_bad_arguments_throw (s e n t : Int) (ex : Exc) :
    calcStatic s e n t = .throw ex ↔ ex = .invalidArgument ∧ (e < s ∨ n < 1 ∨ t < 0 ∨ n ≤ t) := by
  have hchk : ∀ x : Int, chk64 x = .ok x ∨ chk64 x = .ub := by
    intro x; unfold chk64; split <;> simp
  unfold calcStatic
  split
  · rename_i h; simp [h, eq_comm]
  · split
    · rename_i h; simp [h, eq_comm]
    · split
      · rename_i h; simp [h, eq_comm]
      · rename_i h1 h2 h3
        have : ¬ (e < s ∨ n < 1 ∨ t < 0 ∨ n ≤ t) := by omega
        simp only [this, and_false, iff_false]
        have key : ∀ {β : Type} (x : Int) (g : Int → Res β), (∀ y, g y ≠ .throw ex) → (chk64 x >>= g) ≠ .throw ex := by
          intro β x g hg
          rcases hchk x with h | h <;> rw [h] <;> simp [hg]
        apply key; intro y
        apply key; intro y1
        split
        · apply key; intro y2; apply key; intro y3; apply key; intro y4; simp
        · apply key; intro y2; apply key; intro y3; apply key; intro y4; apply key; intro y5; apply key; intro y6; simp

example : calcStatic 0 10 3 3 = .throw .invalidArgument :=
  (C04_bad_arguments_throw 0 10 3 3 _).2 ⟨rfl, by decide⟩

/-- The size bound in `C04_static_ranges_partition` is needed: on a range of `2^63 - 1` indices and one thread the code
overflows a signed integer (`quotient + 1`). -/
theorem C04_full_range_overflows : calcStatic 0 9223372036854775807 1 0 = .ub := by decide

/-! ## C05 -/

/-- The shape of the ranges handed out by the static range loop. -/
theorem staticRangeLoop_eq (b : Backend) (threads s e : Int) (hs : InI64 s) (he : InI64 e) (hth : InI64 threads)
    (hsz : InI64 (e - s)) (hse : s < e) :
    staticRangeLoop b threads s e = .ok
      (if ¬ threads > 1 ∨ e - s = 1 then [⟨s, e, 0⟩]
       else rangesFrom b s e (min threads (e - s)) 0 (min threads (e - s)).toNat) := by
  unfold staticRangeLoop
  rw [if_neg (by omega), chk64_ok hsz]
  simp only [Res.ok_bind]
  rw [if_neg (by omega)]
  split
  · rw [mkWorkRange_ok (by omega) (by omega)]; rfl
  · apply staticRanges_eq b s e _ hs he hsz (by omega) (by omega)
    · unfold InI64 at *; omega
    · omega

/-- C05 (range loop): the functor is called on pairwise consecutive ranges that together are exactly `[s, e)`, with thread
numbers in `[0, threads)`; with the async backend, different workers have different thread numbers.
For OpenMP the team has at most as many threads as requested (`htid`); calls with equal thread numbers are then made by
one and the same thread. -/
theorem C05_static_range_loop (b : Backend) (threads s e : Int) (hs : InI64 s) (he : InI64 e) (hth : InI64 threads)
    (hsz : InI64 (e - s)) (h1 : 1 ≤ threads) (hse : s ≤ e)
    (htid : ∀ t : Nat, (t : Int) < min threads (e - s) → (b.tid t : Int) < min threads (e - s)) :
    ∃ ws, staticRangeLoop b threads s e = .ok ws ∧
      (ws.map fun w => irange w.start w.stop).flatten = irange s e ∧
      (∀ w ∈ ws, w.start ≤ w.stop ∧ 0 ≤ w.thread ∧ w.thread < threads) ∧
      (ws.length : Int) ≤ threads ∧
      (b = .async → (ws.map (·.thread)).Nodup) := by
  by_cases h0 : s = e
  · subst h0
    refine ⟨[], ?_, ?_, ?_, ?_, ?_⟩
    · unfold staticRangeLoop; rw [if_neg (by omega), chk64_ok hsz]; simp
    · simp [irange]
    · simp
    · simp; omega
    · simp
  refine ⟨_, staticRangeLoop_eq b threads s e hs he hth hsz (by omega), ?_, ?_, ?_, ?_⟩
  · split
    · simp
    · rename_i hc
      rw [flatten_rangesFrom b s e _ (by omega) (by omega)]
      rw [show (((0 + (min threads (e - s)).toNat : Nat)) : Int) = min threads (e - s) by omega]
      rw [bnd_last _ _ _ (by omega) (by omega)]
      rw [show ((0 : Nat) : Int) = 0 from rfl, bnd_zero _ _ _ (by omega) (by omega)]
  · split
    · simp; omega
    · rename_i hc
      intro w hw
      simp only [rangesFrom, List.mem_map, List.mem_range] at hw
      obtain ⟨j, hj, rfl⟩ := hw
      have := htid (0 + j) (by omega)
      exact ⟨bnd_mono _ _ _ _ (by omega) (by omega), by simp, by simp at this ⊢; omega⟩
  · split
    · simpa using h1
    · simp [rangesFrom]; omega
  · intro hb
    subst hb
    split
    · simp
    · simp only [rangesFrom, List.map_map, Function.comp_def, Backend.tid]
      apply List.Nodup.map _ List.nodup_range
      intro a c h; simpa using h

example : staticRangeLoop .async 3 0 10 = .ok [⟨0, 4, 0⟩, ⟨4, 7, 1⟩, ⟨7, 10, 2⟩] := by decide

/-- C05 (index loop): in every interleaving of the workers, each index of `[s, e)` is visited exactly once and nothing
else is; every call carries a thread number in `[0, threads)`. -/
theorem C05_static_index_loop (b : Backend) (threads s e : Int) (hs : InI64 s) (he : InI64 e) (hth : InI64 threads)
    (hsz : InI64 (e - s)) (h1 : 1 ≤ threads) (hse : s ≤ e)
    (htid : ∀ t : Nat, (t : Int) < min threads (e - s) → (b.tid t : Int) < min threads (e - s)) :
    ∃ ws, staticIndexLoop b threads s e = .ok ws ∧ (ws.length : Int) ≤ threads ∧
      (∀ tr, Interleaving ws tr →
        (∀ i : Int, (tr.map (·.index)).count i = if s ≤ i ∧ i < e then 1 else 0) ∧
        (∀ c ∈ tr, 0 ≤ c.thread ∧ c.thread < threads)) ∧
      (b = .async → ∀ (i j : Nat) (wi wj : List Call), ws[i]? = some wi → ws[j]? = some wj → i ≠ j →
        ∀ ci ∈ wi, ∀ cj ∈ wj, ci.thread ≠ cj.thread) := by
  obtain ⟨ws, h, hfl, hthr, hlen, hnd⟩ := C05_static_range_loop b threads s e hs he hth hsz h1 hse htid
  refine ⟨ws.map expand, by simp [staticIndexLoop, h], by simpa using hlen, ?_, ?_⟩
  · intro tr htr
    have hp := htr.perm
    constructor
    · intro i
      have hp' : (tr.map (·.index)).Perm (irange s e) := by
        refine (hp.map _).trans ?_
        rw [List.map_flatten, List.map_map]
        have : (List.map (fun c => c.index) ∘ expand) = fun w => irange w.start w.stop := by
          funext w; exact expand_index w
        rw [this, hfl]
      rw [hp'.count_eq, (irange_nodup s e).count]
      simp only [mem_irange]
    · intro c hc
      have hc' := hp.subset hc
      simp only [List.mem_flatten, List.mem_map] at hc'
      obtain ⟨_, ⟨w, hw, rfl⟩, hcw⟩ := hc'
      rw [expand_thread w c hcw]
      exact (hthr w hw).2
  · intro hb i j wi wj hi hj hij ci hci cj hcj
    have hnd := hnd hb
    simp only [List.getElem?_map, Option.map_eq_some_iff] at hi hj
    obtain ⟨a, ha, rfl⟩ := hi
    obtain ⟨c, hc, rfl⟩ := hj
    rw [expand_thread a ci hci, expand_thread c cj hcj]
    intro heq
    apply hij
    have e1 : (ws.map (·.thread))[i]? = some a.thread := by simp [ha]
    have e2 : (ws.map (·.thread))[j]? = some a.thread := by simp [hc, heq]
    have hi' : i < (ws.map (·.thread)).length := by
      by_contra hge
      rw [List.getElem?_eq_none (by omega)] at e1; cases e1
    exact (List.getElem?_inj hi' hnd).mp (e1.trans e2.symm)

example : ∃ ws, staticIndexLoop .async 4 (-2) 100 = .ok ws ∧ ∀ tr, Interleaving ws tr →
    ∀ i : Int, (tr.map (·.index)).count i = if -2 ≤ i ∧ i < 100 then 1 else 0 := by
  obtain ⟨ws, h, _, h2, _⟩ := C05_static_index_loop .async 4 (-2) 100 (by decide) (by decide) (by decide) (by decide)
    (by decide) (by decide) (by intro t h; exact h)
  exact ⟨ws, h, fun tr htr => (h2 tr htr).1⟩

/-- C05: an inverted range throws. -/
theorem C05_inverted_range_throws (b : Backend) (threads s e : Int) (h : e < s) :
    staticIndexLoop b threads s e = .throw .runtimeError ∧ staticRangeLoop b threads s e = .throw .runtimeError := by
  simp [staticIndexLoop, staticRangeLoop, h]

example : staticIndexLoop .async 3 7 5 = .throw .runtimeError := (C05_inverted_range_throws .async 3 7 5 (by decide)).1

/-! ## C07 -/

/-- C07: at every moment of every schedule of the async dispatcher with `n` workers: at most `n` calls run, they carry
pairwise different thread numbers below `n`, and thread numbers never run out. -/
theorem C07_exclusive_thread_numbers (n total : Nat) (throws : Int → Bool) (st : DynState)
    (h : Reachable n total throws st) :
    (runningCalls st.active).length ≤ n ∧
    ((runningCalls st.active).map (·.thread)).Nodup ∧
    (∀ c ∈ st.calls, 0 ≤ c.thread ∧ c.thread < n) ∧
    st.pc ≠ .noThreadNumbers := by
  have hI := inv_reachable h
  obtain ⟨lost, p, _⟩ := hI.threads
  have hnd : (st.active.map (·.thread)).Nodup := by
    have := p.nodup_iff.mpr List.nodup_range
    exact (List.nodup_append.mp (List.nodup_append.mp this).1).1
  refine ⟨?_, ?_, hI.callThreads, hI.nt⟩
  · have := p.length_eq
    simp at this
    have h2 : (runningCalls st.active).length ≤ st.active.length := by
      simp only [runningCalls, List.length_map]; exact List.length_filter_le _ _
    omega
  · simp only [runningCalls, List.map_map]
    have : (Function.comp (fun c : Call => c.thread) fun w : Worker => ({ thread := w.thread, index := w.index } : Call))
        = fun w => ((w.thread : Nat) : Int) := rfl
    rw [this]
    have h2 : (List.map (fun w : Worker => w.thread) (st.active.filter (fun w => w.phase = .running))).Nodup :=
      List.Nodup.sublist (List.Sublist.map _ List.filter_sublist) hnd
    have h3 := List.Nodup.map (f := fun k : Nat => (k : Int)) (fun a b h => by simpa using h) h2
    rwa [List.map_map] at h3

/-- C07: the running calls of the model are exactly the started and not yet finished ones. -/
theorem C07_running_are_started_not_completed (n total : Nat) (throws : Int → Bool) (st : DynState)
    (h : Reachable n total throws st) : (st.completed ++ runningCalls st.active).Perm st.calls :=
  (inv_reachable h).comp

/-- C07: the loop returns only after every index of `0 … total-1` was dispatched and every call has completed, and only
if none of them threw. -/
theorem C07_returns_after_all_completed (n total : Nat) (throws : Int → Bool) (st : DynState)
    (h : Reachable n total throws st) (hd : st.pc = .done) :
    (st.completed.map (·.index)).Perm (irange 0 total) ∧ st.completed.Perm st.calls ∧
    ∀ i ∈ irange 0 total, throws i = false := by
  have hI := inv_reachable h
  obtain ⟨ha, ht⟩ := hI.done hd
  have hc := hI.comp
  have hi := hI.indices
  rw [ha] at hc hi
  simp only [runningCalls, pendingIdx, List.filter_nil, List.map_nil, List.append_nil] at hc hi
  rw [ht] at hi
  refine ⟨(hc.map _).trans hi, hc, ?_⟩
  intro i hmem
  have := hi.symm.subset hmem
  simp only [List.mem_map] at this
  obtain ⟨c, hcm, rfl⟩ := this
  by_contra hne
  rcases hI.exc c hcm (by simpa using hne) with ⟨w, hw, _⟩ | h' | h'
  · rw [ha] at hw; cases hw
  · rw [hd] at h'; cases h'
  · rw [hd] at h'; cases h'

/-- C07: an exception leaves the loop only after every started call has completed, and only if some call threw. -/
theorem C07_throws_after_all_completed (n total : Nat) (throws : Int → Bool) (st : DynState)
    (h : Reachable n total throws st) (hd : st.pc = .threw) :
    st.completed.Perm st.calls ∧ ∃ c ∈ st.completed, throws c.index = true := by
  have hI := inv_reachable h
  have hc := hI.comp
  rw [hI.threw hd] at hc
  simp only [runningCalls, List.filter_nil, List.map_nil, List.append_nil] at hc
  exact ⟨hc, hI.excTrue (.inr hd)⟩

/-- C07: no deadlock: from every reachable state the loop can still run to its end. -/
theorem C07_can_always_finish (n total : Nat) (throws : Int → Bool) (hn : 1 ≤ n) (st : DynState)
    (h : Reachable n total throws st) :
    ∃ st', DynSteps n total throws st st' ∧ (st'.pc = .done ∨ st'.pc = .threw) :=
  can_finish hn _ _ _ _ st (inv_reachable h) rfl rfl rfl rfl

/-- Run a schedule: `none` is a dispatcher step, `some k` a step of worker `k`. -/
def runSched (n total : Nat) (throws : Int → Bool) : List (Option Nat) → DynState → Option DynState
  | [], st => some st
  | none :: l, st => (mainStep n total throws st).bind (runSched n total throws l)
  | some k :: l, st => (workerStep st k).bind (runSched n total throws l)

theorem runSched_reachable {n total throws} (l : List (Option Nat)) (st st' : DynState)
    (h : Reachable n total throws st) (hr : runSched n total throws l st = some st') : Reachable n total throws st' := by
  induction l generalizing st with
  | nil => cases hr; exact h
  | cons a l ih =>
    cases a with
    | none =>
      simp only [runSched, Option.bind_eq_some_iff] at hr
      obtain ⟨s2, h2, h3⟩ := hr
      exact ih s2 (.step h (.main h2)) h3
    | some k =>
      simp only [runSched, Option.bind_eq_some_iff] at hr
      obtain ⟨s2, h2, h3⟩ := hr
      exact ih s2 (.step h (.worker k h2)) h3

theorem DynSteps.reachable {n total throws a b} (h : DynSteps n total throws a b) (ha : Reachable n total throws a) :
    Reachable n total throws b := by
  induction h with
  | refl => exact ha
  | cons hs _ ih => exact ih (.step ha hs)

/-- A schedule for two workers and two indices. -/
def sched2 : List (Option Nat) :=
  [none, none, none, none, none, some 1, some 0, some 1, some 0, some 0, some 1,
   none, none, none, none, none, none, none]

example : ∃ st, Reachable 2 2 (fun _ => false) st ∧ st.pc = .done := by
  refine ⟨((runSched 2 2 (fun _ => false) sched2 (dynInit 2)).getD (dynInit 2)), ?_, by decide⟩
  exact runSched_reachable sched2 (dynInit 2) _ .init (by decide)

/-- Two calls really run at the same time in some reachable state. -/
example : ∃ st, Reachable 2 5 (fun _ => false) st ∧ (runningCalls st.active).length = 2 := by
  refine ⟨((runSched 2 5 (fun _ => false) (sched2.take 7) (dynInit 2)).getD (dynInit 2)), ?_, by decide⟩
  exact runSched_reachable (sched2.take 7) (dynInit 2) _ .init (by decide)

/-- An exception really can leave the loop. -/
example : ∃ st, Reachable 2 2 (fun i => i == 1) st ∧ st.pc = .threw := by
  refine ⟨((runSched 2 2 (fun i => i == 1) (sched2.take 16) (dynInit 2)).getD (dynInit 2)), ?_, by decide⟩
  exact runSched_reachable (sched2.take 16) (dynInit 2) _ .init (by decide)

/-! ## C06 -/

/-- C06 is false for the async backend when the range does not start at 0: with two threads and the range `[1, 3)` there
is a complete run that visits index 0 (outside the range) and never visits index 2. -/
theorem C06_dynamic_visits_each_index_once_false :
    ∃ tr, DynTrace false (fun _ => 0) 2 1 3 tr ∧ 0 ∈ tr.map (·.index) ∧ 2 ∉ tr.map (·.index) := by
  refine ⟨((runSched 2 2 (fun _ => false) sched2 (dynInit 2)).getD (dynInit 2)).calls.reverse, ?_, by decide, by decide⟩
  refine .inr ⟨2, 2, (runSched 2 2 (fun _ => false) sched2 (dynInit 2)).getD (dynInit 2), by decide, ?_, by decide, rfl⟩
  exact runSched_reachable sched2 (dynInit 2) _ .init (by decide)

theorem dynamicOmpRanges_eq (tid : Int → Nat) (k : Nat) (i : Int) :
    dynamicOmpRanges tid k i = .ok ((irange i (i + k)).map fun j => ⟨j, j + 1, tid j⟩) := by
  induction k generalizing i with
  | zero => simp [dynamicOmpRanges, irange]
  | succ k ih =>
    unfold dynamicOmpRanges
    rw [mkWorkRange_ok (by omega) (by omega)]
    simp only [Res.ok_bind]
    rw [ih (i + 1)]
    simp only [Res.ok_bind, Res.pure_eq]
    rw [irange_succ (s := i) (by push_cast; omega)]
    push_cast
    rw [show i + 1 + (k : Int) = i + (k + 1) by omega]
    rfl

theorem flatten_singletons (l : List Int) : (l.map fun j => irange j (j + 1)).flatten = l := by
  induction l with
  | nil => rfl
  | cons a l ih =>
    simp only [List.map_cons, List.flatten_cons, ih]
    rw [irange_succ (by omega), irange_self]; rfl

/-- What every complete run of the dynamic index loop visits, for all arguments: exactly `[s, e)` once each, except that
the async dispatcher (more than one thread, at least two indices) visits exactly `[0, e - s)`. -/
theorem C06_dynamic_visits (useOmp : Bool) (tid : Int → Nat) (threads s e : Int)
    (hsz : InI64 (e - s)) (tr : List Call) (h : DynTrace useOmp tid threads s e tr) (i : Int) :
    (tr.map (·.index)).count i =
      if useOmp = false ∧ threads > 1 ∧ e - s > 1 then (if 0 ≤ i ∧ i < e - s then 1 else 0)
      else (if s ≤ i ∧ i < e then 1 else 0) := by
  have fin : ∀ (l : List Int) (a b : Int), l.Perm (irange a b) → l.count i = if a ≤ i ∧ i < b then 1 else 0 := by
    intro l a b hp
    rw [hp.count_eq, (irange_nodup a b).count]
    simp only [mem_irange]
  rcases h with ⟨ws, hok, htr⟩ | ⟨n, total, st, hok, hr, hd, rfl⟩
  · unfold dynamicIndexLoop at hok
    split at hok
    · cases hok
    rename_i hse
    rw [chk64_ok hsz] at hok
    simp only [Res.ok_bind] at hok
    have hp := htr.perm.map (·.index)
    split at hok
    · cases hok
      rename_i h0
      rw [if_neg (by omega)]
      apply fin
      simpa [show e = s by omega, irange] using hp
    · split at hok
      · rename_i h0 h1
        rw [mkWorkRange_ok (by omega) (by omega)] at hok
        cases hok
        rw [if_neg (by omega)]
        apply fin
        simpa [expand_index] using hp
      · rename_i h0 h1
        cases useOmp with
        | false => simp at hok
        | true =>
          simp only [if_true] at hok
          rw [dynamicOmpRanges_eq] at hok
          simp only [Res.ok_bind, Res.pure_eq, Res.ok.injEq, DynPlan.units.injEq] at hok
          subst hok
          rw [if_neg (by simp)]
          apply fin
          rw [List.map_flatten, List.map_map, List.map_map] at hp
          have : (List.map (fun c => c.index) ∘ expand) ∘ (fun j => (⟨j, j + 1, (tid j : Int)⟩ : WorkRange))
              = fun j => irange j (j + 1) := by
            funext j; exact expand_index _
          rw [this, flatten_singletons, show s + ((e - s).toNat : Int) = e by omega] at hp
          exact hp
  · unfold dynamicIndexLoop at hok
    split at hok
    · cases hok
    rename_i hse
    rw [chk64_ok hsz] at hok
    simp only [Res.ok_bind] at hok
    split at hok
    · cases hok
    · split at hok
      · rw [mkWorkRange_ok (by omega) (by omega)] at hok
        cases hok
      · rename_i h0 h1
        cases useOmp with
        | true =>
          simp only [if_true] at hok
          rw [dynamicOmpRanges_eq] at hok
          cases hok
        | false =>
          simp only [Bool.false_eq_true, if_false, Res.pure_eq, Res.ok.injEq, DynPlan.dispatcher.injEq] at hok
          obtain ⟨rfl, rfl⟩ := hok
          rw [if_pos ⟨rfl, by omega, by omega⟩]
          have := C07_returns_after_all_completed _ _ _ st hr hd
          rw [show (((e - s).toNat : Nat) : Int) = e - s by omega] at this
          apply fin
          exact (List.Perm.map _ ((List.reverse_perm _).trans this.2.1.symm)).trans this.1

/-- C06 for ranges that start at 0, for the OpenMP backend and for one thread: every complete run visits each index of
`[s, e)` exactly once and nothing else. Missing: the async backend with `s ≠ 0`, where the claim is false
(`C06_dynamic_visits_each_index_once_false`). -/
theorem C06_dynamic_visits_each_index_once_partial (useOmp : Bool) (tid : Int → Nat) (threads s e : Int)
    (hsz : InI64 (e - s)) (hcase : s = 0 ∨ useOmp = true ∨ threads ≤ 1) (tr : List Call)
    (h : DynTrace useOmp tid threads s e tr) (i : Int) :
    (tr.map (·.index)).count i = if s ≤ i ∧ i < e then 1 else 0 := by
  rw [C06_dynamic_visits useOmp tid threads s e hsz tr h i]
  split
  · rename_i hc
    rcases hcase with rfl | h' | h'
    · simp
    · rw [hc.1] at h'; cases h'
    · omega
  · rfl

/-- Complete runs exist for every non-inverted range (so the two theorems above speak about real runs). -/
theorem C06_complete_runs_exist (threads s e : Int) (hsz : InI64 (e - s)) (hse : s ≤ e) (ht : 1 < threads) :
    (∃ tr, DynTrace false (fun _ => 0) threads s e tr) := by
  by_cases h0 : e - s = 0
  · refine ⟨[], .inl ⟨[], ?_, .done (by simp)⟩⟩
    unfold dynamicIndexLoop
    rw [if_neg (by omega), chk64_ok hsz]
    simp [h0]
  · by_cases h1 : e - s = 1
    · refine ⟨[⟨0, s⟩], .inl ⟨[[⟨0, s⟩]], ?_, .step (ls := [[⟨0, s⟩]]) 0 (⟨0, s⟩ : Call) [] [] rfl (.done (by simp))⟩⟩
      unfold dynamicIndexLoop
      rw [if_neg (by omega), chk64_ok hsz]
      simp only [Res.ok_bind]
      rw [if_neg h0, if_pos (by omega), mkWorkRange_ok (by omega) (by omega)]
      simp [expand, h1]
    · obtain ⟨st', hst, hpc⟩ := C07_can_always_finish (min threads (e - s)).toNat (e - s).toNat (fun _ => false)
        (by omega) _ .init
      have hr := hst.reachable .init
      refine ⟨st'.calls.reverse, .inr ⟨(min threads (e - s)).toNat, (e - s).toNat, st', ?_, hr, ?_, rfl⟩⟩
      · unfold dynamicIndexLoop
        rw [if_neg (by omega), chk64_ok hsz]
        simp only [Res.ok_bind]
        rw [if_neg h0, if_neg (by omega)]
        simp
      · rcases hpc with h | h
        · exact h
        · obtain ⟨_, c, _, hc⟩ := C07_throws_after_all_completed _ _ _ _ hr h
          simp at hc

example : ∃ tr, DynTrace false (fun _ => 0) 4 0 1000 tr ∧
    ∀ i : Int, (tr.map (·.index)).count i = if 0 ≤ i ∧ i < 1000 then 1 else 0 := by
  obtain ⟨tr, h⟩ := C06_complete_runs_exist 4 0 1000 (by decide) (by decide) (by decide)
  exact ⟨tr, h, C06_dynamic_visits_each_index_once_partial _ _ _ _ _ (by decide) (.inl rfl) tr h⟩

end CRU.Parallel
