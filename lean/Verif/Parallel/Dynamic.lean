import Verif.Parallel.Lemmas
import Mathlib.Data.List.Range
import Mathlib.Tactic.Tauto
/-
  Invariant of the async dispatcher of the dynamic loop.
-/
namespace CRU.Parallel

theorem split_at {α} {l : List α} {k : Nat} {w : α} (h : l[k]? = some w) :
    ∃ l1 l2, l = l1 ++ w :: l2 ∧ l.eraseIdx k = l1 ++ l2 ∧ ∀ w', l.set k w' = l1 ++ w' :: l2 := by
  obtain ⟨hk, hw⟩ := List.getElem?_eq_some_iff.mp h
  refine ⟨l.take k, l.drop (k + 1), ?_, ?_, ?_⟩
  · rw [← hw]; simp
  · rw [List.eraseIdx_eq_take_drop_succ]
  · intro w'; rw [List.set_eq_take_append_cons_drop, if_pos hk]

/-- The calls of the workers that are inside the functor. -/
def runningCalls (l : List Worker) : List Call :=
  (l.filter (fun w => w.phase = .running)).map fun w => { thread := w.thread, index := w.index }

def isLive (w : Worker) : Bool := w.phase = .created || w.phase = .running

/-- Indices handed to a worker that has not yet entered the functor. -/
def pendingIdx (l : List Worker) : List Int := (l.filter (fun w => w.phase = .created)).map (·.index)

structure Inv (n total : Nat) (throws : Int → Bool) (st : DynState) : Prop where
  threads : ∃ lost, (st.active.map (·.thread) ++ st.queue ++ lost).Perm (List.range n) ∧
    (st.pc ≠ .unwind → st.pc ≠ .threw → lost = [])
  live : st.live = st.active.countP isLive
  le : st.dispatched ≤ total
  indices : (st.calls.map (·.index) ++ pendingIdx st.active).Perm (irange 0 st.dispatched)
  comp : (st.completed ++ runningCalls st.active).Perm st.calls
  nt : st.pc ≠ .noThreadNumbers
  done : st.pc = .done → st.active = [] ∧ st.dispatched = total
  threw : st.pc = .threw → st.active = []
  waiting : st.pc = .wait → st.active ≠ []
  callThreads : ∀ c ∈ st.calls, 0 ≤ c.thread ∧ c.thread < n
  exc : ∀ c ∈ st.calls, throws c.index = true →
    (∃ w ∈ st.active, w.index = c.index) ∨ st.pc = .unwind ∨ st.pc = .threw
  excTrue : st.pc = .unwind ∨ st.pc = .threw → ∃ c ∈ st.completed, throws c.index = true
  noCreated : ∀ w ∈ st.active, w.phase = .notified ∨ w.phase = .ready →
    (⟨w.thread, w.index⟩ : Call) ∈ st.completed

theorem inv_init (n total : Nat) (throws : Int → Bool) : Inv n total throws (dynInit n) where
  threads := ⟨[], by simp [dynInit], by simp⟩
  live := by simp [dynInit]
  le := by simp [dynInit]
  indices := by simp [dynInit, pendingIdx, irange]
  comp := by simp [dynInit, runningCalls]
  nt := by simp [dynInit]
  done := by simp [dynInit]
  threw := by simp [dynInit]
  waiting := by simp [dynInit]
  callThreads := by simp [dynInit]
  exc := by simp [dynInit]
  excTrue := by simp [dynInit]
  noCreated := by simp [dynInit]

theorem inv_pc {n total throws st pc} (h : Inv n total throws st) (h0 : st.pc ≠ .unwind) (h0' : st.pc ≠ .threw)
    (h1 : pc ≠ .noThreadNumbers) (h2 : pc ≠ .unwind) (h3 : pc ≠ .threw)
    (h4 : pc = .done → st.active = [] ∧ st.dispatched = total) (h5 : pc = .wait → st.active ≠ []) :
    Inv n total throws { st with pc := pc } where
  threads := by obtain ⟨l, p, q⟩ := h.threads; exact ⟨l, p, fun _ _ => q h0 h0'⟩
  live := h.live
  le := h.le
  indices := h.indices
  comp := h.comp
  nt := h1
  done := h4
  threw := fun e => absurd e h3
  waiting := h5
  callThreads := h.callThreads
  exc := fun c hc ht => (h.exc c hc ht).imp id (fun e => by rcases e with e | e <;> contradiction)
  excTrue := fun e => by rcases e with e | e <;> contradiction
  noCreated := h.noCreated

theorem inv_main {n total throws st st'} (h : Inv n total throws st) (hs : mainStep n total throws st = some st') :
    Inv n total throws st' := by
  unfold mainStep at hs
  split at hs
  · -- head
    rename_i hpc
    cases hs
    apply inv_pc h (by simp [hpc]) (by simp [hpc]) <;> (try (split <;> simp))
    · rename_i hh
      push Not at hh
      constructor
      · exact List.length_eq_zero_iff.mp (by omega)
      · have := h.le; omega
  · -- scan
    rename_i k hpc
    split at hs
    · cases hs
      apply inv_pc h (by simp [hpc]) (by simp [hpc]) <;> simp
    · rename_i w hw
      obtain ⟨l1, l2, e1, e2, e3⟩ := split_at hw
      split at hs
      · rename_i hready
        have hwc : (⟨w.thread, w.index⟩ : Call) ∈ st.completed := h.noCreated w (by rw [e1]; simp) (.inr hready)
        have hpend : pendingIdx (l1 ++ l2) = pendingIdx st.active := by
          rw [e1]; simp [pendingIdx, hready]
        have hrun : runningCalls (l1 ++ l2) = runningCalls st.active := by
          rw [e1]; simp [runningCalls, hready]
        have hlive : (l1 ++ l2).countP isLive = st.active.countP isLive := by
          rw [e1]; simp [isLive, hready]
        obtain ⟨lost, p, q⟩ := h.threads
        have hl := q (by simp [hpc]) (by simp [hpc])
        subst hl
        rw [e1] at p
        split at hs
        · rename_i hthrow
          cases hs
          rw [e2]
          exact {
            threads := ⟨[w.thread], by
              refine List.Perm.trans ?_ p
              simp only [List.map_append, List.map_cons, List.append_nil, List.append_assoc, List.cons_append]
              apply List.Perm.append_left
              rw [← List.append_assoc]
              exact List.perm_append_singleton _ _, by simp⟩
            live := by rw [hlive]; exact h.live
            le := h.le
            indices := by rw [hpend]; exact h.indices
            comp := by rw [hrun]; exact h.comp
            nt := by simp
            done := by simp
            threw := by simp
            waiting := by simp
            callThreads := h.callThreads
            exc := by simp
            excTrue := fun _ => ⟨_, hwc, hthrow⟩
            noCreated := fun w' hw' => h.noCreated w' (by rw [e1]; simp at hw' ⊢; tauto) }
        · rename_i hthrow
          cases hs
          rw [e2]
          exact {
            threads := ⟨[], by
              refine List.Perm.trans ?_ p
              simp only [List.map_append, List.map_cons, List.append_nil, List.append_assoc, List.cons_append]
              apply List.Perm.append_left
              rw [← List.append_assoc]
              exact (List.perm_append_singleton _ _), by simp⟩
            live := by rw [hlive]; exact h.live
            le := h.le
            indices := by rw [hpend]; exact h.indices
            comp := by rw [hrun]; exact h.comp
            nt := by simp
            done := by simp
            threw := by simp
            waiting := by simp
            callThreads := h.callThreads
            exc := fun c hc ht => by
              rcases h.exc c hc ht with ⟨w', hw', e⟩ | e | e
              · left
                refine ⟨w', ?_, e⟩
                rw [e1] at hw'
                simp only [List.mem_append, List.mem_cons] at hw' ⊢
                rcases hw' with h' | h' | h'
                · exact .inl h'
                · subst h'; rw [e] at hthrow; exact absurd ht hthrow
                · exact .inr h'
              · rw [hpc] at e; cases e
              · rw [hpc] at e; cases e
            excTrue := by simp
            noCreated := fun w' hw' => h.noCreated w' (by rw [e1]; simp at hw' ⊢; tauto) }
      · cases hs
        apply inv_pc h (by simp [hpc]) (by simp [hpc]) <;> simp
  · -- dispatch
    rename_i hpc
    split at hs
    · rename_i hc
      obtain ⟨lost, p, q⟩ := h.threads
      have hl := q (by simp [hpc]) (by simp [hpc])
      subst hl
      split at hs
      · rename_i hq
        exfalso
        have := p.length_eq
        rw [hq] at this
        simp at this
        omega
      · rename_i t qs hq
        cases hs
        rw [hq] at p
        have ht : t < n := by
          have : t ∈ List.range n := p.subset (by simp)
          simpa using this
        exact {
          threads := ⟨[], by
            refine List.Perm.trans ?_ p
            simp, by simp [hpc]⟩
          live := by simp [h.live, isLive]
          le := by simp; omega
          indices := by
            simp only [pendingIdx, List.filter_append, List.map_append]
            rw [← List.append_assoc]
            have e : irange 0 ((st.dispatched + 1 : Nat) : Int) = irange 0 st.dispatched ++ [(st.dispatched : Int)] := by
              rw [← irange_append (s := 0) (m := (st.dispatched : Int)) (by omega) (by push_cast; omega)]
              congr 1
              rw [irange_succ (by push_cast; omega)]
              push_cast
              rw [irange_self]
            rw [e]
            exact List.Perm.append h.indices (by simp)
          comp := by simpa [runningCalls] using h.comp
          nt := by simp [hpc]
          done := by simp [hpc]
          threw := by simp [hpc]
          waiting := by simp [hpc]
          callThreads := h.callThreads
          exc := fun c hc ht' => by
            rcases h.exc c hc ht' with ⟨w', hw', e⟩ | e
            · exact .inl ⟨w', by simp [hw'], e⟩
            · exact .inr e
          excTrue := by simp [hpc]
          noCreated := fun w' hw' hp => by
            simp only [List.mem_append, List.mem_singleton] at hw'
            rcases hw' with h' | h'
            · exact h.noCreated w' h' hp
            · subst h'; simp at hp }
    · cases hs
      apply inv_pc h (by simp [hpc]) (by simp [hpc]) <;> (try (split <;> simp))
      rename_i hh
      intro e; simp [e] at hh
  · -- wait
    rename_i hpc
    split at hs
    · cases hs
      apply inv_pc h (by simp [hpc]) (by simp [hpc]) <;> simp
    · cases hs
  · -- unwind
    rename_i hpc
    split at hs
    · rename_i hall
      cases hs
      have hr : ∀ w ∈ st.active, w.phase = .ready := by simpa using hall
      have hpend : pendingIdx st.active = [] := by
        simp only [pendingIdx, List.map_eq_nil_iff, List.filter_eq_nil_iff]
        intro w hw; simp [hr w hw]
      have hrun : runningCalls st.active = [] := by
        simp only [runningCalls, List.map_eq_nil_iff, List.filter_eq_nil_iff]
        intro w hw; simp [hr w hw]
      have hlive : st.active.countP isLive = 0 := by
        rw [List.countP_eq_zero]
        intro w hw; simp [isLive, hr w hw]
      obtain ⟨lost, p, q⟩ := h.threads
      exact {
        threads := ⟨st.active.map (·.thread) ++ lost, by
          refine List.Perm.trans ?_ p
          simp only [List.map_nil, List.nil_append, List.append_assoc]
          rw [← List.append_assoc, ← List.append_assoc]
          exact List.Perm.append_right _ List.perm_append_comm, by simp⟩
        live := by simp [h.live, hlive]
        le := h.le
        indices := by have := h.indices; rw [hpend] at this; simpa [pendingIdx] using this
        comp := by have := h.comp; rw [hrun] at this; simpa [runningCalls] using this
        nt := by simp
        done := by simp
        threw := by simp
        waiting := by simp
        callThreads := h.callThreads
        exc := by simp
        excTrue := fun _ => h.excTrue (.inl hpc)
        noCreated := by simp }
    · cases hs
  · cases hs
  · cases hs
  · cases hs

theorem inv_worker {n total throws st st'} (h : Inv n total throws st) (k : Nat) (hs : workerStep st k = some st') :
    Inv n total throws st' := by
  unfold workerStep at hs
  split at hs
  · cases hs
  rename_i w hw
  obtain ⟨l1, l2, e1, -, e3⟩ := split_at hw
  have hne : st.active ≠ [] := by rw [e1]; simp
  have hmem : w ∈ st.active := by rw [e1]; simp
  have hnd : st.pc ≠ .done := fun e => hne (h.done e).1
  have hnt : st.pc ≠ .threw := fun e => hne (h.threw e)
  have hwt : w.thread < n := by
    obtain ⟨lost, p, q⟩ := h.threads
    have : w.thread ∈ List.range n := p.subset (by simp; exact .inl ⟨w, hmem, rfl⟩)
    simpa using this
  have hthr : ∀ ph, ((l1 ++ { w with phase := ph } :: l2).map (·.thread)) = st.active.map (·.thread) := by
    intro ph; rw [e1]; simp
  have hidx : ∀ ph i, (∃ w' ∈ st.active, w'.index = i) → ∃ w' ∈ l1 ++ { w with phase := ph } :: l2, w'.index = i := by
    intro ph i ⟨w', hw', e⟩
    rw [e1] at hw'
    simp only [List.mem_append, List.mem_cons] at hw'
    rcases hw' with h' | h' | h'
    · exact ⟨w', by simp [h'], e⟩
    · exact ⟨{ w with phase := ph }, by simp, by rw [← e, h']⟩
    · exact ⟨w', by simp [h'], e⟩
  split at hs
  · rename_i hph
    cases hs
    rw [e3]
    have hpend := h.indices
    rw [e1] at hpend
    exact {
      threads := by simp only [hthr]; exact h.threads
      live := by have := h.live; rw [e1] at this; simpa [isLive, hph] using this
      le := h.le
      indices := by
        refine List.Perm.trans ?_ hpend
        simp only [pendingIdx, List.filter_append, List.map_append]
        simp only [List.map_cons, hph, List.filter_cons]
        simp only [reduceCtorEq, decide_false, decide_true, if_true, List.map_cons, List.cons_append, Bool.false_eq_true, if_false]
        rw [← List.append_assoc, ← List.append_assoc]
        exact List.perm_middle.symm
      comp := by
        have := h.comp
        rw [e1] at this
        simp only [runningCalls, List.filter_append, List.map_append] at this ⊢
        simp only [hph, List.filter_cons] at this ⊢
        simp only [reduceCtorEq, decide_false, decide_true, if_true, List.map_cons, List.cons_append, Bool.false_eq_true, if_false] at this ⊢
        rw [← List.append_assoc] at this ⊢
        exact List.perm_middle.trans (this.cons _)
      nt := h.nt
      done := fun e => absurd e hnd
      threw := fun e => absurd e hnt
      waiting := by simp
      callThreads := by
        intro c hc
        simp only [List.mem_cons] at hc
        rcases hc with rfl | hc
        · simp; omega
        · exact h.callThreads c hc
      exc := by
        intro c hc ht
        simp only [List.mem_cons] at hc
        rcases hc with rfl | hc
        · exact .inl ⟨{ w with phase := .running }, by simp, rfl⟩
        · exact (h.exc c hc ht).imp (hidx _ _) id
      excTrue := h.excTrue
      noCreated := fun w' hw' hp => by
        simp only [List.mem_append, List.mem_cons] at hw'
        rcases hw' with h' | h' | h'
        · exact h.noCreated w' (by rw [e1]; simp [h']) hp
        · subst h'; simp at hp
        · exact h.noCreated w' (by rw [e1]; simp [h']) hp }
  · rename_i hph
    cases hs
    rw [e3]
    exact {
      threads := by simp only [hthr]; exact h.threads
      live := by have := h.live; rw [e1] at this; simp [isLive, hph] at this ⊢; omega
      le := h.le
      indices := by have := h.indices; rw [e1] at this; simpa [pendingIdx, hph] using this
      comp := by
        have := h.comp
        rw [e1] at this
        refine List.Perm.trans ?_ this
        simp only [runningCalls, List.filter_append, List.map_append]
        simp only [hph, List.filter_cons]
        simp only [reduceCtorEq, decide_false, decide_true, if_true, List.map_cons, List.cons_append, Bool.false_eq_true, if_false]
        rw [← List.append_assoc, ← List.append_assoc]
        exact List.perm_middle.symm
      nt := h.nt
      done := fun e => absurd e hnd
      threw := fun e => absurd e hnt
      waiting := by simp
      callThreads := h.callThreads
      exc := fun c hc ht => (h.exc c hc ht).imp (hidx _ _) id
      excTrue := fun e => by
        obtain ⟨c, hc, ht⟩ := h.excTrue e
        exact ⟨c, by simp [hc], ht⟩
      noCreated := fun w' hw' hp => by
        simp only [List.mem_append, List.mem_cons] at hw'
        rcases hw' with h' | h' | h'
        · exact List.mem_cons_of_mem _ (h.noCreated w' (by rw [e1]; simp [h']) hp)
        · subst h'; simp
        · exact List.mem_cons_of_mem _ (h.noCreated w' (by rw [e1]; simp [h']) hp) }
  · rename_i hph
    cases hs
    rw [e3]
    exact {
      threads := by simp only [hthr]; exact h.threads
      live := by have := h.live; rw [e1] at this; simpa [isLive, hph] using this
      le := h.le
      indices := by have := h.indices; rw [e1] at this; simpa [pendingIdx, hph] using this
      comp := by have := h.comp; rw [e1] at this; simpa [runningCalls, hph] using this
      nt := h.nt
      done := fun e => absurd e hnd
      threw := fun e => absurd e hnt
      waiting := by simp
      callThreads := h.callThreads
      exc := fun c hc ht => (h.exc c hc ht).imp (hidx _ _) id
      excTrue := h.excTrue
      noCreated := fun w' hw' hp => by
        simp only [List.mem_append, List.mem_cons] at hw'
        rcases hw' with h' | h' | h'
        · exact h.noCreated w' (by rw [e1]; simp [h']) hp
        · subst h'; exact h.noCreated w hmem (.inl hph)
        · exact h.noCreated w' (by rw [e1]; simp [h']) hp }
  · cases hs

theorem inv_reachable {n total throws st} (h : Reachable n total throws st) : Inv n total throws st := by
  induction h with
  | init => exact inv_init n total throws
  | step _ hs ih =>
    cases hs with
    | main hm => exact inv_main ih hm
    | worker k hw => exact inv_worker ih k hw

/-- Several steps. -/
inductive DynSteps (n total : Nat) (throws : Int → Bool) : DynState → DynState → Prop where
  | refl (s) : DynSteps n total throws s s
  | cons {a b c} : DynStep n total throws a b → DynSteps n total throws b c → DynSteps n total throws a c

theorem worker_can_step (st : DynState) (k : Nat) (w : Worker) (h : st.active[k]? = some w) (hr : w.phase ≠ .ready) :
    ∃ st', workerStep st k = some st' := by
  unfold workerStep
  rw [h]
  dsimp only
  cases hp : w.phase
  · exact ⟨_, rfl⟩
  · exact ⟨_, rfl⟩
  · exact ⟨_, rfl⟩
  · exact absurd hp hr

theorem sum_map_zero {α} (f : α → Nat) (l : List α) (h : ∀ a ∈ l, f a = 0) : (l.map f).sum = 0 := by
  induction l with
  | nil => rfl
  | cons a l ih =>
    simp only [List.map_cons, List.sum_cons]
    rw [h a (by simp), ih (fun b hb => h b (by simp [hb]))]

def phaseW : Phase → Nat
  | .created => 3 | .running => 2 | .notified => 1 | .ready => 0

/-- Work left in the workers. -/
def workLeft (st : DynState) : Nat := (st.active.map (fun w => phaseW w.phase)).sum

theorem worker_dec (st st' : DynState) (k : Nat) (h : workerStep st k = some st') :
    workLeft st' < workLeft st ∧ st'.dispatched = st.dispatched ∧ st'.pc = st.pc := by
  unfold workerStep at h
  split at h
  · cases h
  rename_i w hw
  obtain ⟨l1, l2, e1, -, e3⟩ := split_at hw
  split at h
  all_goals (first | (cases h; done) | skip)
  all_goals
    rename_i hph
    cases h
    refine ⟨?_, rfl, rfl⟩
    simp only [workLeft, e3]
    rw [e1]
    simp [phaseW, hph]

/-- Rank of the dispatcher position once all workers are ready. -/
def pcRank (st : DynState) : Nat :=
  match st.pc with
  | .head => if st.active = [] then 5 else 1
  | .scan k => if k < st.active.length then 0 else 4
  | .dispatch => 3
  | .wait => 2
  | .unwind => 1
  | _ => 0

theorem can_finish {n total throws} (hn : 1 ≤ n) : ∀ (m1 m2 m3 m4 : Nat) (st : DynState), Inv n total throws st →
    total - st.dispatched = m1 → workLeft st = m2 → st.active.length = m3 → pcRank st = m4 →
    ∃ st', DynSteps n total throws st st' ∧ (st'.pc = .done ∨ st'.pc = .threw) := by
  intro m1
  induction m1 using Nat.strong_induction_on with
  | _ m1 ih1 =>
  intro m2
  induction m2 using Nat.strong_induction_on with
  | _ m2 ih2 =>
  intro m3
  induction m3 using Nat.strong_induction_on with
  | _ m3 ih3 =>
  intro m4
  induction m4 using Nat.strong_induction_on with
  | _ m4 ih4 =>
  intro st hI h1 h2 h3 h4
  by_cases hall : ∀ w ∈ st.active, w.phase = .ready
  · -- only the dispatcher moves
    have go : ∀ st', mainStep n total throws st = some st' →
        (total - st'.dispatched < m1 ∨ (total - st'.dispatched = m1 ∧ (workLeft st' < m2 ∨ (workLeft st' = m2 ∧
          (st'.active.length < m3 ∨ (st'.active.length = m3 ∧ pcRank st' < m4)))))) →
        ∃ st', DynSteps n total throws st st' ∧ (st'.pc = .done ∨ st'.pc = .threw) := by
      intro st' hm hlt
      have hI' := inv_main hI hm
      have : ∃ st'', DynSteps n total throws st' st'' ∧ (st''.pc = .done ∨ st''.pc = .threw) := by
        rcases hlt with h | ⟨e1, h | ⟨e2, h | ⟨e3, h⟩⟩⟩
        · exact ih1 _ h _ _ _ st' hI' rfl rfl rfl rfl
        · exact ih2 _ h _ _ st' hI' e1 rfl rfl rfl
        · exact ih3 _ h _ st' hI' e1 e2 rfl rfl
        · exact ih4 _ h st' hI' e1 e2 e3 rfl
      obtain ⟨st'', p, q⟩ := this
      exact ⟨st'', .cons (.main hm) p, q⟩
    have hw0 : workLeft st = 0 := by
      apply sum_map_zero
      intro w hw
      rw [hall w hw]; rfl
    cases hpc : st.pc with
    | head =>
      have hm : mainStep n total throws st
          = some { st with pc := if st.active.length > 0 ∨ st.dispatched < total then .scan 0 else .done } := by
        simp [mainStep, hpc]
      by_cases hc : st.active.length > 0 ∨ st.dispatched < total
      · rw [if_pos hc] at hm
        refine go _ hm (.inr ⟨h1, .inr ⟨h2, .inr ⟨h3, ?_⟩⟩⟩)
        rw [← h4]
        simp only [pcRank, hpc]
        by_cases he : st.active = []
        · simp [he]
        · have : 0 < st.active.length := List.length_pos_iff.mpr he
          simp [he, this]
      · rw [if_neg hc] at hm
        exact ⟨_, .cons (.main hm) (.refl _), .inl rfl⟩
    | scan k =>
      by_cases hk : k < st.active.length
      · have hg : st.active[k]? = some st.active[k] := by simp [hk]
        obtain ⟨l1, l2, e1, e2, -⟩ := split_at hg
        have hr := hall _ (List.getElem_mem hk)
        have hlen : (st.active.eraseIdx k).length < m3 := by rw [List.length_eraseIdx]; simp [hk]; omega
        have hwl : ((st.active.eraseIdx k).map (fun w => phaseW w.phase)).sum = 0 := by
          apply sum_map_zero
          intro w hw
          rw [hall w (List.mem_of_mem_eraseIdx hw)]; rfl
        by_cases ht : throws st.active[k].index = true
        · refine go { st with pc := .unwind, active := st.active.eraseIdx k } (by simp [mainStep, hpc, hk, hr, ht]) ?_
          refine .inr ⟨h1, .inr ⟨?_, .inl hlen⟩⟩
          simp only [workLeft]; rw [hwl, ← h2, hw0]
        · refine go { st with pc := .scan k, active := st.active.eraseIdx k, queue := st.queue ++ [st.active[k].thread] }
            (by simp [mainStep, hpc, hk, hr, ht]) ?_
          refine .inr ⟨h1, .inr ⟨?_, .inl hlen⟩⟩
          simp only [workLeft]; rw [hwl, ← h2, hw0]
      · refine go { st with pc := .dispatch } ?_ (.inr ⟨h1, .inr ⟨h2, .inr ⟨h3, ?_⟩⟩⟩)
        · have : st.active[k]? = none := by simp; omega
          simp [mainStep, hpc, this]
        · rw [← h4]; simp [pcRank, hpc, hk]
    | dispatch =>
      by_cases hc : st.active.length < n ∧ st.dispatched < total
      · obtain ⟨lost, p, q⟩ := hI.threads
        have hl := q (by simp [hpc]) (by simp [hpc])
        subst hl
        cases hq : st.queue with
        | nil =>
          exfalso
          have := p.length_eq
          rw [hq] at this
          simp at this
          omega
        | cons t qs =>
          have hm : ∃ st', mainStep n total throws st = some st' ∧ st'.dispatched = st.dispatched + 1 := by
            simp [mainStep, hpc, hc, hq]
          obtain ⟨st', hm, hd⟩ := hm
          exact go _ hm (.inl (by omega))
      · have hm : mainStep n total throws st
            = some { st with pc := if st.active.length > 0 then .wait else .head } := by
          simp only [mainStep, hpc, if_neg hc]
        by_cases he : st.active = []
        · have hd : st.dispatched = total := by
            have := hI.le
            have hl : st.active.length = 0 := by simp [he]
            by_contra hne
            exact hc ⟨by omega, by omega⟩
          refine ⟨{ st with pc := .done }, .cons (.main hm) (.cons (.main ?_) (.refl _)), .inl rfl⟩
          simp [mainStep, he, hd]
        · have : 0 < st.active.length := List.length_pos_iff.mpr he
          refine go _ hm (.inr ⟨h1, .inr ⟨h2, .inr ⟨h3, ?_⟩⟩⟩)
          rw [← h4]
          simp [pcRank, hpc, this]
    | wait =>
      have hne := hI.waiting hpc
      have hl : st.live = 0 := by
        rw [hI.live, List.countP_eq_zero]
        intro w hw; simp [isLive, hall w hw]
      have hpos : 0 < st.active.length := List.length_pos_iff.mpr hne
      refine go { st with pc := .head } (by simp [mainStep, hpc, hl, hpos]) (.inr ⟨h1, .inr ⟨h2, .inr ⟨h3, ?_⟩⟩⟩)
      rw [← h4]
      simp [pcRank, hpc, hne]
    | done => exact ⟨st, .refl _, .inl hpc⟩
    | threw => exact ⟨st, .refl _, .inr hpc⟩
    | noThreadNumbers => exact absurd hpc hI.nt
    | unwind =>
      refine ⟨{ st with pc := .threw, active := [] }, .cons (.main ?_) (.refl _), .inr rfl⟩
      have : st.active.all (fun w => w.phase = .ready) = true := by simpa using hall
      simp only [mainStep, hpc, this, if_true]
  · push Not at hall
    obtain ⟨w, hw, hr⟩ := hall
    obtain ⟨k, hk, rfl⟩ := List.getElem_of_mem hw
    obtain ⟨st', hst'⟩ := worker_can_step st k st.active[k] (by simp [hk]) hr
    obtain ⟨d1, d2, d3⟩ := worker_dec st st' k hst'
    obtain ⟨st'', p, q⟩ := ih2 _ (h2 ▸ d1) _ _ st' (inv_worker hI k hst') (by rw [d2]; exact h1) rfl rfl rfl
    exact ⟨st'', .cons (.worker k hst') p, q⟩

end CRU.Parallel
