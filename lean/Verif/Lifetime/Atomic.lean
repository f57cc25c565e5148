import Verif.Base
import Verif.Parallel.Spec
import Mathlib.Algebra.BigOperators.Group.List.Basic
import Mathlib.Algebra.Group.Basic
import Mathlib.Data.List.Nodup
/-
  C95: `CopyableMoveableAtomic` (utility.hpp). Threads run any programs on any number of atomics; `std::atomic` operations are
  indivisible and happen in one order (sequential consistency), the operations of the wrapper are made of them as in the code.
  The values are of any type with wrapping addition (`AddCommGroup`): integers of any width.
-/
namespace CRU.Life.Atomic

/-! ### Model -/

/-- A call on atomics named by numbers. (utility.hpp:99-179) -/
inductive Call (T : Type) where
  | load (c : Nat)
  | store (c : Nat) (v : T)
  | fetchAdd (c : Nat) (k : T)
  | fetchSub (c : Nat) (k : T)
  | assign (dst src : Nat)

/-- One indivisible operation of `std::atomic`, by a thread; `storeLast` stores what the thread loaded last. (utility.hpp:161-179) -/
inductive Step (T : Type) where
  | load (thread c : Nat)
  | store (c : Nat) (v : T)
  | storeLast (thread c : Nat)
  | fetchAdd (c : Nat) (k : T)
  | fetchSub (c : Nat) (k : T)

/-- The indivisible operations of a call: utility.hpp:161-179 `load`, `store`, `fetch_add`, `fetch_sub`, 103-159 copying, moving and
assignment, all of which are `store(other.load())` (125-143: nothing for the same object). -/
def Call.steps {T : Type} (thread : Nat) : Call T → List (Step T)
  | .load c => [.load thread c]
  | .store c v => [.store c v]
  | .fetchAdd c k => [.fetchAdd c k]
  | .fetchSub c k => [.fetchSub c k]
  | .assign dst src => if dst = src then [] else [.load thread src, .storeLast thread dst]

/-- The values of the atomics, the value each thread loaded last, and what the fetch operations returned (atomic and value), in order. -/
structure State (T : Type) where
  cell : Nat → T
  last : Nat → T
  fetched : List (Nat × T)

/-- The effect of an indivisible operation (`std::atomic`, used at utility.hpp:161-179). -/
def Step.run {T : Type} [AddCommGroup T] (s : State T) : Step T → State T
  | .load t c => { s with last := Function.update s.last t (s.cell c) }
  | .store c v => { s with cell := Function.update s.cell c v }
  | .storeLast t c => { s with cell := Function.update s.cell c (s.last t) }
  | .fetchAdd c k => { s with cell := Function.update s.cell c (s.cell c + k), fetched := s.fetched ++ [(c, s.cell c)] }
  | .fetchSub c k => { s with cell := Function.update s.cell c (s.cell c - k), fetched := s.fetched ++ [(c, s.cell c)] }

/-- The state after a sequence of indivisible operations. -/
def run {T : Type} [AddCommGroup T] (s : State T) (tr : List (Step T)) : State T := tr.foldl Step.run s

/-- `s'` is a state in which threads running the programs `threads` (thread `t` runs element `t`) can end, from state `s`. -/
def Ends {T : Type} [AddCommGroup T] (threads : List (List (Call T))) (s s' : State T) : Prop :=
  ∃ tr, Interleaving (threads.zipIdx.map fun p => p.1.flatMap (Call.steps p.2)) tr ∧ s' = run s tr

/-! ### Specification -/

/-- What a call adds to atomic `c`, if it is not a store to it. -/
def Call.adds {T : Type} [AddCommGroup T] (c : Nat) : Call T → T
  | .fetchAdd d k => if d = c then k else 0
  | .fetchSub d k => if d = c then -k else 0
  | _ => 0

/-- The call stores to atomic `c`. -/
def Call.Stores {T : Type} (c : Nat) : Call T → Prop
  | .store d _ => d = c
  | .assign dst src => dst = c ∧ dst ≠ src
  | _ => False

/-- The fetch calls on `c` among calls. -/
def Call.fetches {T : Type} (c : Nat) : Call T → Nat
  | .fetchAdd d _ => if d = c then 1 else 0
  | .fetchSub d _ => if d = c then 1 else 0
  | _ => 0

/-- The values that fetch operations on `c` returned, in order. -/
def State.ticketsOf {T : Type} (s : State T) (c : Nat) : List T := (s.fetched.filter (·.1 = c)).map (·.2)

/-! ### Proofs -/

/-- What a step adds to the atomic. -/
def Step.adds {T : Type} [AddCommGroup T] (c : Nat) : Step T → T
  | .fetchAdd d k => if d = c then k else 0
  | .fetchSub d k => if d = c then -k else 0
  | _ => 0

/-- The step stores to the atomic. -/
def Step.Stores {T : Type} (c : Nat) : Step T → Prop
  | .store d _ => d = c
  | .storeLast _ d => d = c
  | _ => False

/-- The step is a fetch on the atomic. -/
def Step.fetches {T : Type} (c : Nat) : Step T → Nat
  | .fetchAdd d _ => if d = c then 1 else 0
  | .fetchSub d _ => if d = c then 1 else 0
  | _ => 0

theorem interleaving_perm {α : Type} {ls : List (List α)} {tr : List α} (h : Interleaving ls tr) : tr.Perm ls.flatten := by
  induction h with
  | @done ls h =>
    have : ls.flatten = [] := by simpa using h
    rw [this]
  | @step ls i x t tr h rest ih =>
    refine (ih.cons x).trans ?_
    have hi : i < ls.length := (List.getElem?_eq_some_iff.mp h).1
    have e : ls = ls.take i ++ (x :: t) :: ls.drop (i + 1) := by
      have := (List.getElem?_eq_some_iff.mp h).2
      rw [← this, List.cons_getElem_drop_succ, List.take_append_drop]
    rw [List.set_eq_take_append_cons_drop, if_pos hi]
    conv_rhs => rw [e]
    simp only [List.flatten_append, List.flatten_cons, List.cons_append]
    exact (List.perm_middle).symm

section
variable {T : Type} [AddCommGroup T]

theorem run_cell (c : Nat) : ∀ (tr : List (Step T)) (s : State T), (∀ st ∈ tr, ¬ st.Stores c) →
    (run s tr).cell c = s.cell c + (tr.map (Step.adds c)).sum
  | [], s, _ => by simp [run]
  | st :: tr, s, h => by
      have ih := run_cell c tr (st.run s) fun x hx => h x (List.mem_cons_of_mem _ hx)
      have hs := h st List.mem_cons_self
      rw [run, List.foldl_cons, ← run, ih, List.map_cons, List.sum_cons, ← add_assoc]
      congr 1
      cases st <;> simp only [Step.run, Step.adds, Step.Stores, Function.update_apply] at hs ⊢
      · simp
      · rw [if_neg (fun e => hs e.symm), add_zero]
      · rw [if_neg (fun e => hs e.symm), add_zero]
      · rename_i d k
        by_cases e : c = d
        · subst e; rw [if_pos rfl, if_pos rfl]
        · rw [if_neg e, if_neg (Ne.symm e), add_zero]
      · rename_i d k
        by_cases e : c = d
        · subst e; rw [if_pos rfl, if_pos rfl, sub_eq_add_neg]
        · rw [if_neg e, if_neg (Ne.symm e), add_zero]

theorem run_tickets (c : Nat) : ∀ (tr : List (Step T)) (s : State T), (∀ st ∈ tr, ¬ st.Stores c) →
    ∃ args : List T, args.length = (tr.map (Step.fetches c)).sum ∧ args.sum = (tr.map (Step.adds c)).sum ∧
      (∀ a ∈ args, ∃ k, (Step.fetchAdd c k ∈ tr ∧ a = k) ∨ (Step.fetchSub c k ∈ tr ∧ a = -k)) ∧
      (run s tr).ticketsOf c = s.ticketsOf c ++ (List.range args.length).map fun i => s.cell c + (args.take i).sum
  | [], s, _ => ⟨[], by simp [run]⟩
  | st :: tr, s, h => by
      obtain ⟨args, h1, h2, h3, h4⟩ := run_tickets c tr (st.run s) fun x hx => h x (List.mem_cons_of_mem _ hx)
      have hs := h st List.mem_cons_self
      have hsame : (st.run s).cell c = s.cell c → (st.run s).ticketsOf c = s.ticketsOf c → st.adds c = 0 → st.fetches c = 0 →
          ∃ args : List T, args.length = ((st :: tr).map (Step.fetches c)).sum ∧ args.sum = ((st :: tr).map (Step.adds c)).sum ∧
          (∀ a ∈ args, ∃ k, (Step.fetchAdd c k ∈ st :: tr ∧ a = k) ∨ (Step.fetchSub c k ∈ st :: tr ∧ a = -k)) ∧
          (run s (st :: tr)).ticketsOf c = s.ticketsOf c ++ (List.range args.length).map fun i => s.cell c + (args.take i).sum := by
        intro e1 e2 e3 e4
        refine ⟨args, by simp [h1, e4], by simp [h2, e3], fun a ha => ?_, by rw [← e1, ← e2, ← h4]; rfl⟩
        obtain ⟨k, hk⟩ := h3 a ha
        exact ⟨k, hk.imp (fun h => ⟨List.mem_cons_of_mem _ h.1, h.2⟩) (fun h => ⟨List.mem_cons_of_mem _ h.1, h.2⟩)⟩
      have hfetch : ∀ k : T, (st.run s).cell c = s.cell c + k → (st.run s).ticketsOf c = s.ticketsOf c ++ [s.cell c] → st.adds c = k →
          st.fetches c = 1 → (st = .fetchAdd c k ∨ st = .fetchSub c (-k)) →
          ∃ args : List T, args.length = ((st :: tr).map (Step.fetches c)).sum ∧ args.sum = ((st :: tr).map (Step.adds c)).sum ∧
          (∀ a ∈ args, ∃ k, (Step.fetchAdd c k ∈ st :: tr ∧ a = k) ∨ (Step.fetchSub c k ∈ st :: tr ∧ a = -k)) ∧
          (run s (st :: tr)).ticketsOf c = s.ticketsOf c ++ (List.range args.length).map fun i => s.cell c + (args.take i).sum := by
        intro k e1 e2 e3 e4 e5
        refine ⟨k :: args, by simp [h1, e4, add_comm], by simp [h2, e3], fun a ha => ?_, ?_⟩
        · rcases List.mem_cons.mp ha with rfl | ha
          · rcases e5 with e5 | e5
            · exact ⟨a, .inl ⟨by rw [e5]; exact List.mem_cons_self, rfl⟩⟩
            · exact ⟨-a, .inr ⟨by rw [e5]; exact List.mem_cons_self, by simp⟩⟩
          · obtain ⟨k, hk⟩ := h3 a ha
            exact ⟨k, hk.imp (fun h => ⟨List.mem_cons_of_mem _ h.1, h.2⟩) (fun h => ⟨List.mem_cons_of_mem _ h.1, h.2⟩)⟩
        · have hr : (run s (st :: tr)) = run (st.run s) tr := rfl
          rw [hr, h4, e2, List.length_cons, List.range_succ_eq_map, List.map_cons, List.map_map, List.append_assoc]
          congr 1
          simp only [List.take_zero, List.sum_nil, add_zero, List.cons_append, List.nil_append, List.cons.injEq, true_and]
          refine List.map_congr_left fun i _ => ?_
          simp [e1, add_assoc]
      cases st with
      | load t d => exact hsame rfl rfl rfl rfl
      | store d v => exact hsame (by simp only [Step.run, Function.update_apply]; rw [if_neg (fun e => hs e.symm)]) rfl rfl rfl
      | storeLast t d => exact hsame (by simp only [Step.run, Function.update_apply]; rw [if_neg (fun e => hs e.symm)]) rfl rfl rfl
      | fetchAdd d k =>
        by_cases hd : d = c
        · subst hd
          exact hfetch k (by simp [Step.run]) (by simp [Step.run, State.ticketsOf, List.filter_append]) (by simp [Step.adds])
            (by simp [Step.fetches]) (.inl rfl)
        · exact hsame (by simp [Step.run, Function.update_apply, Ne.symm hd]) (by simp [Step.run, State.ticketsOf, List.filter_append, hd])
            (by simp [Step.adds, hd]) (by simp [Step.fetches, hd])
      | fetchSub d k =>
        by_cases hd : d = c
        · subst hd
          exact hfetch (-k) (by simp [Step.run, sub_eq_add_neg]) (by simp [Step.run, State.ticketsOf, List.filter_append]) (by simp [Step.adds])
            (by simp [Step.fetches]) (.inr (by simp))
        · exact hsame (by simp [Step.run, Function.update_apply, Ne.symm hd]) (by simp [Step.run, State.ticketsOf, List.filter_append, hd])
            (by simp [Step.adds, hd]) (by simp [Step.fetches, hd])

theorem steps_stores (t c : Nat) (call : Call T) (h : ¬ call.Stores c) : ∀ st ∈ call.steps t, ¬ st.Stores c := by
  intro st hst
  cases call <;> simp only [Call.steps, List.mem_singleton] at hst
  case assign dst src =>
    by_cases e : dst = src
    · simp [e] at hst
    · rw [if_neg e] at hst
      rcases List.mem_cons.mp hst with rfl | hst
      · simp [Step.Stores]
      · rw [List.mem_singleton] at hst
        subst hst
        exact fun hc => h ⟨hc, e⟩
  all_goals (subst hst; first | exact h | simp [Step.Stores])

theorem steps_sum (t c : Nat) (call : Call T) : ((call.steps t).map (Step.adds c)).sum = call.adds c ∧
    ((call.steps t).map (Step.fetches c)).sum = call.fetches c := by
  cases call <;> simp only [Call.steps, Call.adds, Call.fetches] <;> (try split_ifs) <;> simp_all [Step.adds, Step.fetches]

theorem flatMap_sum {α M : Type} [AddCommMonoid M] (f : Step T → M) (g : Call T → M) (t : Nat) (h : ∀ call : Call T, ((call.steps t).map f).sum = g call) :
    ∀ calls : List (Call T), ((calls.flatMap (Call.steps t)).map f).sum = (calls.map g).sum
  | [] => by simp
  | a :: l => by
      have ih := flatMap_sum (α := α) f g t h l
      simp [h, ih]

theorem threads_sum {M : Type} [AddCommMonoid M] (f : Step T → M) (g : Call T → M) (h : ∀ t (call : Call T), ((call.steps t).map f).sum = g call) :
    ∀ (threads : List (List (Call T))) (n : Nat), ((((threads.zipIdx n).map fun p => p.1.flatMap (Call.steps p.2)).flatten).map f).sum =
      ((threads.flatten).map g).sum
  | [], n => by simp
  | th :: threads, n => by
      have ih := threads_sum f g h threads (n + 1)
      have h1 := flatMap_sum (α := Unit) f g n (h n) th
      simp only [List.zipIdx_cons, List.map_cons, List.flatten_cons, List.map_append, List.sum_append, ih, h1]

theorem ends_trace {threads : List (List (Call T))} {s s' : State T} {c : Nat} (h : Ends threads s s')
    (hst : ∀ calls ∈ threads, ∀ call ∈ calls, ¬ call.Stores c) :
    ∃ tr, s' = run s tr ∧ (∀ st ∈ tr, ¬ st.Stores c) ∧ (tr.map (Step.adds c)).sum = (threads.flatten.map (Call.adds c)).sum ∧
      (tr.map (Step.fetches c)).sum = (threads.flatten.map (Call.fetches c)).sum ∧
      (∀ st ∈ tr, ∃ calls ∈ threads, ∃ call ∈ calls, ∃ t, st ∈ call.steps t) := by
  obtain ⟨tr, hi, rfl⟩ := h
  have hp := interleaving_perm hi
  have hmem : ∀ st ∈ tr, ∃ calls ∈ threads, ∃ call ∈ calls, ∃ t, st ∈ call.steps t := by
    intro st h
    have h := hp.mem_iff.mp h
    simp only [List.mem_flatten, List.mem_map] at h
    obtain ⟨l, ⟨p, hp', rfl⟩, hl⟩ := h
    obtain ⟨call, hc, hs⟩ := List.mem_flatMap.mp hl
    have := List.mem_zipIdx hp'
    refine ⟨p.1, ?_, call, hc, p.2, hs⟩
    rw [this.2.2]
    exact List.getElem_mem _
  refine ⟨tr, rfl, fun st h => ?_, ?_, ?_, hmem⟩
  · obtain ⟨calls, h1, call, h2, t, h3⟩ := hmem st h
    exact steps_stores t c call (hst calls h1 call h2) st h3
  · rw [(hp.map _).sum_eq]
    exact threads_sum _ _ (fun t call => (steps_sum t c call).1) threads 0
  · rw [(hp.map _).sum_eq]
    exact threads_sum _ _ (fun t call => (steps_sum t c call).2) threads 0

/-- **C95** (no update is lost): whatever any number of threads do with any atomics, in whatever order, an atomic that nobody stores to
ends with its value plus everything added to it minus everything subtracted from it, and as many fetch calls on it have returned as
were made. -/
theorem C95_no_lost_update {threads : List (List (Call T))} {s s' : State T} {c : Nat} (h : Ends threads s s')
    (hst : ∀ calls ∈ threads, ∀ call ∈ calls, ¬ call.Stores c) :
    s'.cell c = s.cell c + (threads.flatten.map (Call.adds c)).sum ∧
    (s'.ticketsOf c).length = (s.ticketsOf c).length + (threads.flatten.map (Call.fetches c)).sum := by
  obtain ⟨tr, rfl, h1, h2, h3, -⟩ := ends_trace h hst
  obtain ⟨args, a1, -, -, a4⟩ := run_tickets c tr s h1
  exact ⟨by rw [run_cell c tr s h1, h2], by rw [a4]; simp [a1, h3]⟩

/-- **C95** (tickets): when the threads do nothing to an atomic but read it and `fetch_add` the same number `k`, the values returned are
exactly the initial value plus 0, 1, 2, … times `k`; so nobody gets the same as another, as long as the numbers do not wrap around. -/
theorem C95_tickets {threads : List (List (Call T))} {s s' : State T} {c : Nat} {k : T} (h : Ends threads s s')
    (hst : ∀ calls ∈ threads, ∀ call ∈ calls, ¬ call.Stores c)
    (hk : ∀ calls ∈ threads, ∀ call ∈ calls, ∀ x, (call = .fetchAdd c x → x = k) ∧ call ≠ .fetchSub c x) :
    s'.ticketsOf c = s.ticketsOf c ++ (List.range (threads.flatten.map (Call.fetches c)).sum).map (fun i => s.cell c + i • k) ∧
    (s.ticketsOf c = [] → (∀ j, 0 < j → j < (threads.flatten.map (Call.fetches c)).sum → j • k ≠ 0) → (s'.ticketsOf c).Nodup) := by
  obtain ⟨tr, rfl, h1, h2, h3, h4⟩ := ends_trace h hst
  obtain ⟨args, a1, -, a3, a4⟩ := run_tickets c tr s h1
  have hargs : args = List.replicate args.length k := by
    refine List.eq_replicate_iff.mpr ⟨rfl, fun a ha => ?_⟩
    obtain ⟨x, (⟨hx, rfl⟩ | ⟨hx, rfl⟩)⟩ := a3 a ha
    · obtain ⟨calls, g1, call, g2, t, g3⟩ := h4 _ hx
      have : call = .fetchAdd c a := by
        cases call <;> simp only [Call.steps] at g3 <;> (try split_ifs at g3) <;> simp_all
      exact (hk calls g1 call g2 a).1 this
    · obtain ⟨calls, g1, call, g2, t, g3⟩ := h4 _ hx
      have : call = .fetchSub c x := by
        cases call <;> simp only [Call.steps] at g3 <;> (try split_ifs at g3) <;> simp_all
      exact absurd this (hk calls g1 call g2 x).2
  have e : (run s tr).ticketsOf c = s.ticketsOf c ++ (List.range (threads.flatten.map (Call.fetches c)).sum).map (fun i => s.cell c + i • k) := by
    rw [a4, a1, h3]
    congr 1
    refine List.map_congr_left fun i hi => ?_
    rw [hargs, List.take_replicate, List.sum_replicate]
    have : i < args.length := by rw [a1, h3]; exact List.mem_range.mp hi
    rw [Nat.min_eq_left (Nat.le_of_lt this)]
  refine ⟨e, fun h0 hn => ?_⟩
  rw [e, h0, List.nil_append]
  refine List.nodup_range.map_on (fun i hi j hj hij => ?_)
  rw [List.mem_range] at hi hj
  have hij : i • k = j • k := by simpa using hij
  by_contra hne
  rcases Nat.lt_or_gt_of_ne hne with hl | hl
  · refine hn (j - i) (by omega) (by omega) ?_
    rw [sub_nsmul _ (Nat.le_of_lt hl), hij, add_neg_cancel]
  · refine hn (i - j) (by omega) (by omega) ?_
    rw [sub_nsmul _ (Nat.le_of_lt hl), hij, add_neg_cancel]

/-- **C95** (copies): copying, moving or assigning gives the destination the value the source has at the moment it is read, leaves the
source as it is, and assignment to itself does nothing; all others keep their value. -/
theorem C95_copy (s : State T) (t dst src : Nat) (c : Nat) :
    (run s ((Call.assign dst src : Call T).steps t)).cell c = if c = dst then s.cell src else s.cell c := by
  by_cases h : dst = src
  · subst h
    by_cases hc : c = dst <;> simp [Call.steps, run, hc]
  · by_cases hc : c = dst <;> simp [Call.steps, h, run, Step.run, Function.update_apply, hc]

end

/-- Threads and orders in which each call is indivisible. -/
def EndsAtomically {T : Type} [AddCommGroup T] (threads : List (List (Call T))) (s s' : State T) : Prop :=
  ∃ tr : List (Nat × Call T), Interleaving (threads.zipIdx.map fun p => p.1.map fun call => (p.2, call)) tr ∧
    s' = run s (tr.flatMap fun x => x.2.steps x.1)

/-- **C95** (what does not hold): a copy is not one indivisible operation. While one thread assigns atomic 0 to atomic 1, another one
counts up both; the addition to atomic 1 can disappear, with a result that no order of indivisible calls has. -/
theorem C95_copy_atomic_false : ∃ (threads : List (List (Call Int))) (s s' : State Int), Ends threads s s' ∧
    ∀ s'', EndsAtomically threads s s'' → s''.cell 1 ≠ s'.cell 1 := by
  refine ⟨[[.assign 1 0], [.fetchAdd 0 1, .fetchAdd 1 1]], ⟨fun _ => 0, fun _ => 0, []⟩, _,
    ⟨[.load 0 0, .fetchAdd 0 1, .fetchAdd 1 1, .storeLast 0 1], ?_, rfl⟩, fun s'' h => ?_⟩
  · refine .step 0 _ [.storeLast 0 1] _ rfl (.step 1 _ [.fetchAdd 1 1] _ rfl (.step 1 _ [] _ rfl (.step 0 _ [] _ rfl (.done ?_))))
    intro l hl
    simpa [List.set] using hl
  · obtain ⟨tr, hi, rfl⟩ := h
    have key : ∀ tr : List (Nat × Call Int), Interleaving [[((0 : Nat), (Call.assign 1 0 : Call Int))], [(1, .fetchAdd 0 1), (1, .fetchAdd 1 1)]] tr →
        (run (⟨fun _ => 0, fun _ => 0, []⟩ : State Int) (tr.flatMap fun x => x.2.steps x.1)).cell 1 = 1 ∨
        (run (⟨fun _ => 0, fun _ => 0, []⟩ : State Int) (tr.flatMap fun x => x.2.steps x.1)).cell 1 = 2 := by
      intro tr h
      have split : ∀ {a b : List (Nat × Call Int)} {tr}, Interleaving [a, b] tr → (tr = [] ∧ a = [] ∧ b = []) ∨
          (∃ x t tr', a = x :: t ∧ tr = x :: tr' ∧ Interleaving [t, b] tr') ∨ (∃ x t tr', b = x :: t ∧ tr = x :: tr' ∧ Interleaving [a, t] tr') := by
        intro a b tr h
        cases h with
        | done h => exact .inl ⟨rfl, h a (by simp), h b (by simp)⟩
        | step i x t tr' h rest =>
          match i, h, rest with
          | 0, h, rest => exact .inr (.inl ⟨x, t, tr', by simpa using h, rfl, rest⟩)
          | 1, h, rest => exact .inr (.inr ⟨x, t, tr', by simpa using h, rfl, rest⟩)
          | i + 2, h, rest => simp at h
      rcases split h with ⟨-, h0, -⟩ | ⟨x, t, tr1, e, rfl, h⟩ | ⟨x, t, tr1, e, rfl, h⟩
      · simp at h0
      · obtain ⟨rfl, rfl⟩ := List.cons.inj e
        rcases split h with ⟨-, -, h0⟩ | ⟨y, t, tr2, e, rfl, h⟩ | ⟨y, t, tr2, e, rfl, h⟩
        · simp at h0
        · simp at e
        · obtain ⟨rfl, rfl⟩ := List.cons.inj e
          rcases split h with ⟨-, -, h0⟩ | ⟨z, t, tr3, e, rfl, h⟩ | ⟨z, t, tr3, e, rfl, h⟩
          · simp at h0
          · simp at e
          · obtain ⟨rfl, rfl⟩ := List.cons.inj e
            rcases split h with ⟨rfl, -, -⟩ | ⟨w, t, tr4, e, rfl, h⟩ | ⟨w, t, tr4, e, rfl, h⟩
            · left; decide
            · simp at e
            · simp at e
      · obtain ⟨rfl, rfl⟩ := List.cons.inj e
        rcases split h with ⟨-, h0, -⟩ | ⟨y, t, tr2, e, rfl, h⟩ | ⟨y, t, tr2, e, rfl, h⟩
        · simp at h0
        · obtain ⟨rfl, rfl⟩ := List.cons.inj e
          rcases split h with ⟨-, -, h0⟩ | ⟨z, t, tr3, e, rfl, h⟩ | ⟨z, t, tr3, e, rfl, h⟩
          · simp at h0
          · simp at e
          · obtain ⟨rfl, rfl⟩ := List.cons.inj e
            rcases split h with ⟨rfl, -, -⟩ | ⟨w, t, tr4, e, rfl, h⟩ | ⟨w, t, tr4, e, rfl, h⟩
            · right; decide
            · simp at e
            · simp at e
        · obtain ⟨rfl, rfl⟩ := List.cons.inj e
          rcases split h with ⟨-, h0, -⟩ | ⟨z, t, tr3, e, rfl, h⟩ | ⟨z, t, tr3, e, rfl, h⟩
          · simp at h0
          · obtain ⟨rfl, rfl⟩ := List.cons.inj e
            rcases split h with ⟨rfl, -, -⟩ | ⟨w, t, tr4, e, rfl, h⟩ | ⟨w, t, tr4, e, rfl, h⟩
            · left; decide
            · simp at e
            · simp at e
          · simp at e
    have h0 : (run (⟨fun _ => 0, fun _ => 0, []⟩ : State Int) [.load 0 0, .fetchAdd 0 1, .fetchAdd 1 1, .storeLast 0 1]).cell 1 = 0 := by decide
    rw [h0]
    rcases key tr hi with h | h <;> rw [h] <;> decide

/-- The hypotheses are met by, for example, two threads that draw three tickets; thread 1 also copies the counter. -/
example : ∃ s', Ends ([[.fetchAdd 0 1, .fetchAdd 0 1], [.assign 1 0, .fetchAdd 0 1]] : List (List (Call Int))) ⟨fun _ => 7, fun _ => 0, []⟩ s' ∧
    s'.ticketsOf 0 = [7, 8, 9] ∧ s'.cell 0 = 10 ∧ s'.cell 1 = 9 := by
  refine ⟨_, ⟨[.fetchAdd 0 1, .fetchAdd 0 1, .load 1 0, .storeLast 1 1, .fetchAdd 0 1], ?_, rfl⟩, by decide, by decide, by decide⟩
  refine .step 0 _ [.fetchAdd 0 1] _ rfl (.step 0 _ [] _ rfl (.step 1 _ [.storeLast 1 1, .fetchAdd 0 1] _ rfl
    (.step 1 _ [.fetchAdd 0 1] _ rfl (.step 1 _ [] _ rfl (.done ?_)))))
  intro l hl
  simpa [List.set] using hl

end CRU.Life.Atomic
