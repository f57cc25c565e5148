import Verif.Parallel.Props
/-
  C98: exceptions thrown by the functor of a parallel loop (parallelism.hpp:142-234, 239-299, 423-465).

  The asynchronous dispatcher of the dynamic loop is in Model.lean (`mainStep`, C07).
-/
namespace CRU.Parallel

variable {ε : Type}

/-! ### Model -/

/-- parallelism.hpp:430-438 / 453-461: the calls that one work range makes, up to the first that throws, and what it threw; `throws i` is what the
functor throws on index `i`. -/
def runCalls (throws : Int → Option ε) : List Call → List Call × Option ε
  | [] => ([], none)
  | c :: cs =>
    match throws c.index with
    | some x => ([c], some x)
    | none => (c :: (runCalls throws cs).1, (runCalls throws cs).2)

/-- What threads do that others can see: a call, and (parallelism.hpp:196-200, 289-293) the assignment `loop_exception = std::current_exception()`. -/
inductive Event (ε : Type) where
  | call (c : Call)
  | caught (x : ε)

/-- parallelism.hpp:186-200, 282-293: what one iteration of an OpenMP loop does. -/
def ompEvents (throws : Int → Option ε) (cs : List Call) : List (Event ε) :=
  (runCalls throws cs).1.map .call ++ ((runCalls throws cs).2.map .caught).toList

/-- parallelism.hpp:181, 199, 203-206 (276, 292, 296-299): the value of `loop_exception` after the loop, which is rethrown. -/
def loopException : Option ε → List (Event ε) → Option ε
  | acc, [] => acc
  | _, .caught x :: evs => loopException (some x) evs
  | acc, .call _ :: evs => loopException acc evs

/-- The calls, in the order in which they start. (parallelism.hpp:186-200, 282-293) -/
def callsOf (evs : List (Event ε)) : List Call := evs.filterMap fun | .call c => some c | .caught _ => none

/-- parallelism.hpp:229-232: `worker.get()` for the workers in order: the first that holds an exception rethrows it. The futures come from
`std::async`, so that the destructors of the remaining ones wait: all calls have ended when the exception leaves the loop. -/
def firstGet (throws : Int → Option ε) : List (List Call) → Option ε
  | [] => none
  | w :: ws =>
    match (runCalls throws w).2 with
    | some x => some x
    | none => firstGet throws ws

/-- How the work ranges `ws` can run: the calls in the order in which they start, and the exception that leaves the loop. With a single work
range (parallelism.hpp:162-167, 258-263) the functor is called without any of this, which comes to the same. -/
def UnitsRun (omp : Bool) (throws : Int → Option ε) (ws : List (List Call)) (tr : List Call) (o : Option ε) : Prop :=
  if omp then ∃ evs, Interleaving (ws.map (ompEvents throws)) evs ∧ tr = callsOf evs ∧ o = loopException none evs
  else Interleaving (ws.map fun w => (runCalls throws w).1) tr ∧ o = firstGet throws ws

/-- parallelism.hpp:176-178, 272-274: whether the backend is OpenMP. -/
def Backend.isOmp : Backend → Bool
  | .omp _ => true
  | .async => false

/-- parallelism.hpp:423-442 `StaticParallelForIndexLoop` with a functor that may throw. -/
def StaticRun (b : Backend) (throws : Int → Option ε) (threads s e : Int) (tr : List Call) (o : Option ε) : Prop :=
  ∃ ws, staticIndexLoop b threads s e = .ok ws ∧ UnitsRun b.isOmp throws ws tr o

/-- parallelism.hpp:446-465 `DynamicParallelForIndexLoop` with the OpenMP backend and a functor that may throw. -/
def DynamicOmpRun (tid : Int → Nat) (throws : Int → Option ε) (threads s e : Int) (tr : List Call) (o : Option ε) : Prop :=
  ∃ ws, dynamicIndexLoop true tid threads s e = .ok (.units ws) ∧ UnitsRun true throws ws tr o

/-! ### Proofs -/

theorem runCalls_mem (throws : Int → Option ε) : ∀ cs : List Call, ((runCalls throws cs).2 = none ↔ ∀ c ∈ cs, throws c.index = none) ∧
    ((runCalls throws cs).2 = none → (runCalls throws cs).1 = cs) ∧ (runCalls throws cs).1 <+: cs ∧
    ∀ x, (runCalls throws cs).2 = some x → ∃ pre c post, cs = pre ++ c :: post ∧ (runCalls throws cs).1 = pre ++ [c] ∧ throws c.index = some x ∧
      ∀ d ∈ pre, throws d.index = none
  | [] => by simp [runCalls]
  | c :: cs => by
    obtain ⟨h1, h2, h3, h4⟩ := runCalls_mem throws cs
    unfold runCalls
    cases hc : throws c.index with
    | some x =>
      refine ⟨by simp [hc], by simp, by simp, fun y hy => ?_⟩
      refine ⟨[], c, cs, rfl, rfl, ?_, by simp⟩
      rw [hc]; exact hy
    | none =>
      refine ⟨by simp [hc, h1], fun h => by simp [h2 h], by simpa using h3, fun y hy => ?_⟩
      obtain ⟨pre, d, post, e1, e2, e3, e4⟩ := h4 y hy
      refine ⟨c :: pre, d, post, by simp [e1], by simp [e2], e3, ?_⟩
      intro d' hd
      rcases List.mem_cons.mp hd with rfl | hd
      · exact hc
      · exact e4 d' hd

theorem loopException_spec : ∀ (evs : List (Event ε)) (acc : Option ε),
    (loopException acc evs = none ↔ acc = none ∧ ∀ x, Event.caught x ∉ evs) ∧
      ∀ x, loopException acc evs = some x → acc = some x ∨ Event.caught x ∈ evs
  | [], acc => by simp [loopException]
  | .call c :: evs, acc => by
    obtain ⟨h1, h2⟩ := loopException_spec evs acc
    refine ⟨by simp [loopException, h1], fun x hx => ?_⟩
    rcases h2 x hx with h | h
    · exact .inl h
    · exact .inr (List.mem_cons_of_mem _ h)
  | .caught y :: evs, acc => by
    obtain ⟨h1, h2⟩ := loopException_spec evs (some y)
    refine ⟨?_, fun x hx => ?_⟩
    · simp only [loopException, h1, reduceCtorEq, false_and, false_iff, not_and, not_forall, not_not]
      exact fun _ => ⟨y, by simp⟩
    · rcases h2 x hx with h | h
      · cases h; exact .inr (by simp)
      · exact .inr (List.mem_cons_of_mem _ h)

theorem mem_ompEvents (throws : Int → Option ε) (cs : List Call) :
    (∀ c, Event.call c ∈ ompEvents throws cs ↔ c ∈ (runCalls throws cs).1) ∧
    (∀ x, Event.caught x ∈ ompEvents throws cs ↔ (runCalls throws cs).2 = some x) ∧
    callsOf (ompEvents throws cs) = (runCalls throws cs).1 := by
  unfold ompEvents
  refine ⟨by simp, by simp, ?_⟩
  unfold callsOf
  rw [List.filterMap_append, List.filterMap_map]
  have h1 : List.filterMap ((fun | Event.call c => some c | Event.caught _ => none) ∘ (Event.call (ε := ε))) (runCalls throws cs).1 =
      (runCalls throws cs).1 := by
    rw [show ((fun | Event.call c => some c | Event.caught _ => none) ∘ (Event.call (ε := ε))) = (some : Call → Option Call) from rfl, List.filterMap_some]
  rw [h1]
  cases (runCalls throws cs).2 <;> simp

theorem firstGet_spec (throws : Int → Option ε) : ∀ ws : List (List Call),
    (firstGet throws ws = none ↔ ∀ w ∈ ws, (runCalls throws w).2 = none) ∧
    ∀ x, firstGet throws ws = some x → ∃ pre w post, ws = pre ++ w :: post ∧ (runCalls throws w).2 = some x ∧ ∀ u ∈ pre, (runCalls throws u).2 = none
  | [] => by simp [firstGet]
  | w :: ws => by
    obtain ⟨h1, h2⟩ := firstGet_spec throws ws
    unfold firstGet
    cases hw : (runCalls throws w).2 with
    | some x => exact ⟨by simp [hw], fun y hy => ⟨[], w, ws, rfl, by rw [hw]; exact hy, by simp⟩⟩
    | none =>
      refine ⟨by simp [hw, h1], fun y hy => ?_⟩
      obtain ⟨pre, u, post, e1, e2, e3⟩ := h2 y hy
      refine ⟨w :: pre, u, post, by simp [e1], e2, ?_⟩
      intro v hv
      rcases List.mem_cons.mp hv with rfl | hv
      · exact hw
      · exact e3 v hv

/-- Everything about one run, for any work ranges. -/
theorem units_spec {omp : Bool} {throws : Int → Option ε} {ws : List (List Call)} {tr : List Call} {o : Option ε} (h : UnitsRun omp throws ws tr o) :
    tr.Perm (ws.map fun w => (runCalls throws w).1).flatten ∧
    (o = none ↔ ∀ w ∈ ws, (runCalls throws w).2 = none) ∧
    ∀ x, o = some x → ∃ w ∈ ws, (runCalls throws w).2 = some x := by
  unfold UnitsRun at h
  cases omp with
  | true =>
    simp only [if_true] at h
    obtain ⟨evs, h1, rfl, rfl⟩ := h
    have hp := h1.perm
    obtain ⟨k1, k2⟩ := loopException_spec evs none
    have hmem : ∀ x, Event.caught x ∈ evs ↔ ∃ w ∈ ws, (runCalls throws w).2 = some x := by
      intro x
      rw [hp.mem_iff, List.mem_flatten]
      simp only [List.mem_map]
      constructor
      · rintro ⟨_, ⟨w, hw, rfl⟩, hx⟩
        exact ⟨w, hw, (mem_ompEvents throws w).2.1 x |>.mp hx⟩
      · rintro ⟨w, hw, hx⟩
        exact ⟨_, ⟨w, hw, rfl⟩, (mem_ompEvents throws w).2.1 x |>.mpr hx⟩
    refine ⟨?_, ?_, ?_⟩
    · have := hp.filterMap (fun | Event.call c => some c | Event.caught _ => none)
      refine this.trans (List.Perm.of_eq ?_)
      clear hp h1 k1 k2 hmem this
      induction ws with
      | nil => rfl
      | cons w ws ih =>
        simp only [List.map_cons, List.flatten_cons, List.filterMap_append]
        rw [ih]
        congr 1
        exact (mem_ompEvents throws w).2.2
    · rw [k1]
      simp only [hmem, true_and]
      constructor
      · intro h w hw
        cases hx : (runCalls throws w).2 with
        | none => rfl
        | some x => exact absurd ⟨w, hw, hx⟩ (h x)
      · rintro h x ⟨w, hw, hx⟩
        rw [h w hw] at hx
        cases hx
    · intro x hx
      rcases k2 x hx with h | h
      · cases h
      · exact (hmem x).mp h
  | false =>
    simp only [Bool.false_eq_true, if_false] at h
    obtain ⟨h1, rfl⟩ := h
    obtain ⟨k1, k2⟩ := firstGet_spec throws ws
    refine ⟨h1.perm, k1, fun x hx => ?_⟩
    obtain ⟨pre, w, post, e1, e2, -⟩ := k2 x hx
    exact ⟨w, by rw [e1]; simp, e2⟩

theorem flatten_prefix_sublist {α β : Type} (f : β → List α) (g : β → List α) : ∀ ws : List β, (∀ w ∈ ws, f w <+: g w) →
    (ws.map f).flatten.Sublist (ws.map g).flatten
  | [], _ => by simp
  | w :: ws, h => by
    simp only [List.map_cons, List.flatten_cons]
    exact (h w (by simp)).sublist.append (flatten_prefix_sublist f g ws (fun u hu => h u (List.mem_cons_of_mem _ hu)))

/-- Work ranges whose indices are `s, …, e-1` in order. -/
theorem ordered_spec {omp : Bool} {throws : Int → Option ε} {ws : List (List Call)} {tr : List Call} {o : Option ε} {s e : Int}
    (h : UnitsRun omp throws ws tr o) (hw : (ws.flatten.map (·.index)) = irange s e) :
    (tr.map (·.index)).Nodup ∧ (∀ c ∈ tr, s ≤ c.index ∧ c.index < e) ∧
    (o = none ↔ ∀ i, s ≤ i → i < e → throws i = none) ∧
    (∀ x, o = some x → ∃ c ∈ tr, throws c.index = some x) ∧
    (o = none → (tr.map (·.index)).Perm (irange s e)) := by
  obtain ⟨h1, h2, h3⟩ := units_spec h
  have hsub : (ws.map fun w => (runCalls throws w).1).flatten.Sublist ws.flatten := by
    have := flatten_prefix_sublist (fun w => (runCalls throws w).1) id ws (fun w _ => (runCalls_mem throws w).2.2.1)
    simpa using this
  have hmem : ∀ c ∈ tr, c ∈ ws.flatten := fun c hc => hsub.subset (h1.subset hc)
  have hidx : ∀ i, i ∈ ws.flatten.map (·.index) ↔ s ≤ i ∧ i < e := by intro i; rw [hw, mem_irange]
  have hnone : o = none ↔ ∀ i, s ≤ i → i < e → throws i = none := by
    rw [h2]
    constructor
    · intro hh i hi1 hi2
      obtain ⟨c, hc, rfl⟩ := List.mem_map.mp ((hidx i).mpr ⟨hi1, hi2⟩)
      obtain ⟨w, hw', hcw⟩ := List.mem_flatten.mp hc
      exact ((runCalls_mem throws w).1.mp (hh w hw')) c hcw
    · intro hh w hw'
      refine (runCalls_mem throws w).1.mpr fun c hc => ?_
      obtain ⟨a1, a2⟩ := (hidx c.index).mp (List.mem_map.mpr ⟨c, List.mem_flatten.mpr ⟨w, hw', hc⟩, rfl⟩)
      exact hh _ a1 a2
  refine ⟨?_, ?_, hnone, ?_, ?_⟩
  · have : (((ws.map fun w => (runCalls throws w).1).flatten).map (·.index)).Nodup := (hw ▸ irange_nodup s e : (ws.flatten.map (·.index)).Nodup).sublist (hsub.map _)
    exact (h1.map _).nodup_iff.mpr this
  · intro c hc
    exact (hidx _).mp (List.mem_map.mpr ⟨c, hmem c hc, rfl⟩)
  · intro x hx
    obtain ⟨w, hw', hwx⟩ := h3 x hx
    obtain ⟨pre, c, post, e1, e2, e3, -⟩ := (runCalls_mem throws w).2.2.2 x hwx
    refine ⟨c, h1.symm.subset (List.mem_flatten.mpr ⟨_, List.mem_map.mpr ⟨w, hw', rfl⟩, by rw [e2]; simp⟩), e3⟩
  · intro ho
    have hall := h2.mp ho
    have : (ws.map fun w => (runCalls throws w).1) = ws := by
      conv_rhs => rw [← List.map_id ws]
      exact List.map_congr_left fun w hw' => (runCalls_mem throws w).2.1 (hall w hw')
    rw [this] at h1
    rw [← hw]
    exact h1.map _

/-- The first throwing index, in order. -/
theorem ordered_first {throws : Int → Option ε} {ws : List (List Call)} {s e : Int} (hw : (ws.flatten.map (·.index)) = irange s e) {x : ε}
    (h : firstGet throws ws = some x) : ∃ i, s ≤ i ∧ i < e ∧ throws i = some x ∧ ∀ j, s ≤ j → j < i → throws j = none := by
  obtain ⟨pre, w, post, e1, e2, e3⟩ := (firstGet_spec throws ws).2 x h
  obtain ⟨p, c, q, f1, -, f3, f4⟩ := (runCalls_mem throws w).2.2.2 x e2
  have hsplit : ws.flatten = (pre.flatten ++ p) ++ c :: (q ++ post.flatten) := by
    rw [e1, List.flatten_append, List.flatten_cons, f1]; simp
  have hno : ∀ d ∈ pre.flatten ++ p, throws d.index = none := by
    intro d hd
    rcases List.mem_append.mp hd with hd | hd
    · obtain ⟨u, hu, hdu⟩ := List.mem_flatten.mp hd
      exact (runCalls_mem throws u).1.mp (e3 u hu) d hdu
    · exact f4 d hd
  rw [hsplit, List.map_append, List.map_cons] at hw
  have hc : s ≤ c.index ∧ c.index < e := by rw [← mem_irange, ← hw]; simp
  refine ⟨c.index, hc.1, hc.2, f3, fun j h1 h2 => ?_⟩
  have hpos : c.index = s + ((pre.flatten ++ p).map (·.index)).length := by
    have hlen : ((pre.flatten ++ p).map (·.index)).length < (irange s e).length := by rw [← hw]; simp
    have := irange_get s e _ hlen
    rw [← this]
    simp only [← hw]
    simp
  have hj : j ∈ (pre.flatten ++ p).map (·.index) := by
    have hk : (j - s).toNat < ((pre.flatten ++ p).map (·.index)).length := by omega
    have hlen : (j - s).toNat < (irange s e).length := by rw [← hw]; simp at hk ⊢; omega
    have h5 := irange_get s e _ hlen
    have h6 : (irange s e)[(j - s).toNat] = ((pre.flatten ++ p).map (·.index))[(j - s).toNat] := by
      simp only [← hw]
      rw [List.getElem_append_left hk]
    rw [h5] at h6
    rw [show s + ((j - s).toNat : Int) = j by omega] at h6
    rw [h6]
    exact List.getElem_mem hk
  obtain ⟨d, hd, rfl⟩ := List.mem_map.mp hj
  exact hno d hd

theorem static_ordered (b : Backend) (threads s e : Int) (hs : InI64 s) (he : InI64 e) (hth : InI64 threads) (hsz : InI64 (e - s)) (h1 : 1 ≤ threads)
    (hse : s ≤ e) (htid : ∀ t : Nat, (t : Int) < min threads (e - s) → (b.tid t : Int) < min threads (e - s)) {ws : List (List Call)}
    (h : staticIndexLoop b threads s e = .ok ws) :
    (ws.flatten.map (·.index)) = irange s e := by
  obtain ⟨rs, hr, hfl, -⟩ := C05_static_range_loop b threads s e hs he hth hsz h1 hse htid
  have : ws = rs.map expand := by
    unfold staticIndexLoop at h
    rw [hr] at h
    simpa using h.symm
  rw [this, List.map_flatten, List.map_map]
  have : (List.map (fun c => c.index) ∘ expand) = fun w => irange w.start w.stop := by
    funext w; exact expand_index w
  rw [this, hfl]

/-! ### Theorems -/

/-- C98, static loops. However the threads are scheduled, no index is visited twice and none outside the range; the loop throws exactly if the
functor throws on some index of the range, and what it throws was thrown by one of the calls made; if it does not throw, every index has been
visited. -/
theorem C98_static (b : Backend) (throws : Int → Option ε) (threads s e : Int) (hs : InI64 s) (he : InI64 e) (hth : InI64 threads)
    (hsz : InI64 (e - s)) (h1 : 1 ≤ threads) (hse : s ≤ e)
    (htid : ∀ t : Nat, (t : Int) < min threads (e - s) → (b.tid t : Int) < min threads (e - s)) (tr : List Call) (o : Option ε)
    (h : StaticRun b throws threads s e tr o) :
    (tr.map (·.index)).Nodup ∧ (∀ c ∈ tr, s ≤ c.index ∧ c.index < e) ∧
    (o = none ↔ ∀ i, s ≤ i → i < e → throws i = none) ∧
    (∀ x, o = some x → ∃ c ∈ tr, throws c.index = some x) ∧
    (o = none → (tr.map (·.index)).Perm (irange s e)) := by
  obtain ⟨ws, hw, hu⟩ := h
  exact ordered_spec hu (static_ordered b threads s e hs he hth hsz h1 hse htid hw)

/-- C98, static loops, which indices are still visited: the range is cut into the work ranges of C05, and an index is visited exactly if the functor
throws on no index before it in its work range. -/
theorem C98_static_visited (b : Backend) (throws : Int → Option ε) (threads s e : Int) (hs : InI64 s) (he : InI64 e) (hth : InI64 threads)
    (hsz : InI64 (e - s)) (h1 : 1 ≤ threads) (hse : s ≤ e)
    (htid : ∀ t : Nat, (t : Int) < min threads (e - s) → (b.tid t : Int) < min threads (e - s)) (tr : List Call) (o : Option ε)
    (h : StaticRun b throws threads s e tr o) :
    ∃ rs, staticRangeLoop b threads s e = .ok rs ∧ (rs.map fun w => irange w.start w.stop).flatten = irange s e ∧
      ∀ w ∈ rs, ∀ i, w.start ≤ i → i < w.stop → ((∃ c ∈ tr, c.index = i) ↔ ∀ j, w.start ≤ j → j < i → throws j = none) := by
  obtain ⟨rs, hr, hfl, -⟩ := C05_static_range_loop b threads s e hs he hth hsz h1 hse htid
  obtain ⟨ws, hw, hu⟩ := h
  have hws : ws = rs.map expand := by
    unfold staticIndexLoop at hw
    rw [hr] at hw
    simpa using hw.symm
  refine ⟨rs, hr, hfl, fun w hwr i hi1 hi2 => ?_⟩
  obtain ⟨hp, -, -⟩ := units_spec hu
  -- the calls of this work range
  have key : ∀ (k : Nat) (st : Int) (cs : List Call), cs.map (·.index) = irange st (st + k) → ∀ i, st ≤ i → i < st + k →
      ((∃ c ∈ (runCalls throws cs).1, c.index = i) ↔ ∀ j, st ≤ j → j < i → throws j = none) := by
    intro k
    induction k with
    | zero => intro st cs _ i h1 h2; push_cast at h2; omega
    | succ k ih =>
      intro st cs hcs i h1 h2
      rw [irange_succ (by push_cast; omega)] at hcs
      obtain ⟨c, cs', rfl, hc, hcs'⟩ := List.map_eq_cons_iff.mp hcs
      rw [show st + ((k + 1 : Nat) : Int) = (st + 1) + (k : Nat) by push_cast; omega] at hcs' h2
      unfold runCalls
      cases ht : throws c.index with
      | some x =>
        simp only [List.mem_singleton, exists_eq_left]
        constructor
        · rintro rfl j hj1 hj2; omega
        · intro hall
          by_contra hne
          have := hall st (le_refl _) (by omega)
          rw [← hc, ht] at this
          cases this
      | none =>
        simp only [List.mem_cons, exists_eq_or_imp]
        by_cases hi : i = st
        · subst hi
          exact ⟨fun _ j hj1 hj2 => by omega, fun _ => .inl hc⟩
        · have := ih (st + 1) cs' hcs' i (by omega) (by omega)
          rw [this]
          constructor
          · rintro (h | h) j hj1 hj2
            · omega
            · by_cases hjs : j = st
              · rw [hjs, ← hc]; exact ht
              · exact h j (by omega) hj2
          · exact fun h => .inr fun j hj1 hj2 => h j (by omega) hj2
  have hle : w.start ≤ w.stop := by omega
  have hk := key (w.stop - w.start).toNat w.start (expand w)
    (by rw [expand_index, show w.start + ((w.stop - w.start).toNat : Int) = w.stop by omega]) i hi1 (by omega)
  rw [← hk]
  constructor
  · rintro ⟨c, hc, rfl⟩
    have hmem := hp.subset hc
    rw [hws, List.map_map] at hmem
    obtain ⟨_, hm, hcm⟩ := List.mem_flatten.mp hmem
    obtain ⟨w', hw', rfl⟩ := List.mem_map.mp hm
    have hc' : c ∈ expand w' := (runCalls_mem throws (expand w')).2.2.1.subset hcm
    -- the ranges are disjoint
    have hnd : ((rs.map fun w => irange w.start w.stop).flatten).Nodup := by rw [hfl]; exact irange_nodup s e
    have hin : c.index ∈ irange w'.start w'.stop := by rw [← expand_index]; exact List.mem_map.mpr ⟨c, hc', rfl⟩
    have hin2 : c.index ∈ irange w.start w.stop := mem_irange.mpr ⟨hi1, hi2⟩
    have heq : expand w' = expand w ∨ w' = w := by
      right
      rw [List.nodup_flatten, List.pairwise_map] at hnd
      by_contra hne
      obtain ⟨a, ha, haw⟩ := List.getElem_of_mem hw'
      obtain ⟨a', ha', haw'⟩ := List.getElem_of_mem hwr
      have hpair := List.pairwise_iff_getElem.mp hnd.2
      have haa : a ≠ a' := by rintro rfl; rw [haw] at haw'; exact hne haw'
      rcases lt_or_gt_of_ne haa with hlt | hlt
      · have := hpair a a' ha ha' hlt
        rw [haw, haw'] at this
        exact this hin hin2
      · have := hpair a' a ha' ha hlt
        rw [haw, haw'] at this
        exact this hin2 hin
    rcases heq with heq | rfl
    · exact ⟨c, by rw [← heq]; exact hcm, rfl⟩
    · exact ⟨c, hcm, rfl⟩
  · rintro ⟨c, hc, rfl⟩
    refine ⟨c, hp.symm.subset ?_, rfl⟩
    rw [hws, List.map_map]
    exact List.mem_flatten.mpr ⟨_, List.mem_map.mpr ⟨w, hwr, rfl⟩, hc⟩

/-- C98, which exception: with the async backend a static loop throws what the functor threw on the least index it throws on, whatever the number of
threads and the schedule, as does a loop on a single thread with either backend. -/
theorem C98_static_first (b : Backend) (throws : Int → Option ε) (threads s e : Int) (hs : InI64 s) (he : InI64 e) (hth : InI64 threads)
    (hsz : InI64 (e - s)) (h1 : 1 ≤ threads) (hse : s ≤ e)
    (htid : ∀ t : Nat, (t : Int) < min threads (e - s) → (b.tid t : Int) < min threads (e - s)) (tr : List Call) (x : ε)
    (h : StaticRun b throws threads s e tr (some x)) (hb : b = .async ∨ threads = 1) :
    ∃ i, s ≤ i ∧ i < e ∧ throws i = some x ∧ ∀ j, s ≤ j → j < i → throws j = none := by
  obtain ⟨ws, hw, hu⟩ := h
  have hord := static_ordered b threads s e hs he hth hsz h1 hse htid hw
  have hget : firstGet throws ws = some x := by
    rcases hb with rfl | rfl
    · unfold UnitsRun at hu
      simp only [Backend.isOmp, Bool.false_eq_true, if_false] at hu
      exact hu.2.symm
    · -- a single work range
      have hone : ws = [] ∨ ∃ w, ws = [w] := by
        by_cases h0 : s = e
        · subst h0
          left
          unfold staticIndexLoop staticRangeLoop at hw
          rw [if_neg (by omega), chk64_ok hsz] at hw
          simp at hw
          exact hw
        · right
          unfold staticIndexLoop at hw
          rw [staticRangeLoop_eq b 1 s e hs he hth hsz (by omega), if_pos (.inl (by omega))] at hw
          simp only [Res.ok_bind, List.map_cons, List.map_nil, Res.pure_eq, Res.ok.injEq] at hw
          exact ⟨_, hw.symm⟩
      obtain ⟨-, -, h3⟩ := units_spec hu
      obtain ⟨w, hwm, hwx⟩ := h3 x rfl
      rcases hone with rfl | ⟨w', rfl⟩
      · simp at hwm
      · obtain rfl : w = w' := by simpa using hwm
        simp [firstGet, hwx]
  exact ordered_first hord hget

/-- C98 is not the same with OpenMP: on two threads whose calls both throw, either exception may come out, also that of the later index. -/
theorem C98_omp_any_false (tid : Nat → Nat) :
    (∃ tr, StaticRun (.omp tid) (fun i : Int => some i) 2 0 2 tr (some 0)) ∧ ∃ tr, StaticRun (.omp tid) (fun i : Int => some i) 2 0 2 tr (some 1) := by
  have hw : staticIndexLoop (.omp tid) 2 0 2 = .ok [[⟨tid 0, 0⟩], [⟨tid 1, 1⟩]] := by
    have h0 : (0 : Int) ≤ ((Backend.omp tid).tid 0 : Nat) := by omega
    have h1 : (0 : Int) ≤ ((Backend.omp tid).tid (0 + 1) : Nat) := by omega
    unfold staticIndexLoop staticRangeLoop
    rw [if_neg (by decide), show chk64 (2 - 0) = .ok 2 by decide]
    simp only [Res.ok_bind]
    rw [if_neg (by decide), if_neg (by decide)]
    show (staticRanges (.omp tid) 0 2 2 2 0 >>= fun ws => pure (ws.map expand)) = _
    rw [staticRanges, show calcStatic 0 2 2 ((0 : Nat) : Int) = .ok (0, 1) by decide]
    simp only [Res.ok_bind]
    rw [mkWorkRange_ok (by decide) h0]
    simp only [Res.ok_bind]
    rw [staticRanges, show calcStatic 0 2 2 ((0 + 1 : Nat) : Int) = .ok (1, 2) by decide]
    simp only [Res.ok_bind]
    rw [mkWorkRange_ok (by decide) h1]
    simp only [Res.ok_bind, staticRanges, Res.pure_eq, List.map_cons, List.map_nil]
    simp [expand, Backend.tid]
  have hev : ∀ c : Call, ompEvents (fun i : Int => some i) [c] = [.call c, .caught c.index] := fun c => rfl
  constructor
  · refine ⟨[⟨tid 1, 1⟩, ⟨tid 0, 0⟩], _, hw, ?_⟩
    unfold UnitsRun
    simp only [Backend.isOmp, if_true]
    refine ⟨[.call ⟨tid 1, 1⟩, .caught 1, .call ⟨tid 0, 0⟩, .caught 0], ?_, rfl, rfl⟩
    simp only [List.map_cons, List.map_nil, hev]
    exact .step 1 _ _ _ rfl (.step 1 _ _ _ rfl (.step 0 _ _ _ rfl (.step 0 _ _ _ rfl (.done (by simp)))))
  · refine ⟨[⟨tid 0, 0⟩, ⟨tid 1, 1⟩], _, hw, ?_⟩
    unfold UnitsRun
    simp only [Backend.isOmp, if_true]
    refine ⟨[.call ⟨tid 0, 0⟩, .caught 0, .call ⟨tid 1, 1⟩, .caught 1], ?_, rfl, rfl⟩
    simp only [List.map_cons, List.map_nil, hev]
    exact .step 0 _ _ _ rfl (.step 0 _ _ _ rfl (.step 1 _ _ _ rfl (.step 1 _ _ _ rfl (.done (by simp)))))

theorem dynamicOmp_eq (tid : Int → Nat) : ∀ (k : Nat) (i : Int), dynamicOmpRanges tid k i =
    .ok ((List.range k).map fun j : Nat => (⟨i + (j : Int), i + (j : Int) + 1, tid (i + (j : Int))⟩ : WorkRange))
  | 0, i => rfl
  | k + 1, i => by
    unfold dynamicOmpRanges
    rw [mkWorkRange_ok (by omega) (by omega), dynamicOmp_eq tid k (i + 1)]
    simp only [Res.ok_bind, Res.pure_eq, List.range_succ_eq_map, List.map_cons, List.map_map]
    congr 2
    · simp
    · apply List.map_congr_left
      intro j _
      simp only [Function.comp]
      push_cast
      rw [show i + 1 + (j : Int) = i + (j + 1) by omega]

/-- C98, the dynamic loop with OpenMP on at least two threads: every index is visited exactly once even if the functor throws on others; the loop throws
exactly if it throws on some index, and then something that was thrown. -/
theorem C98_dynamic_omp (tid : Int → Nat) (throws : Int → Option ε) (threads s e : Int) (hsz : InI64 (e - s)) (h1 : 2 ≤ threads) (hse : s ≤ e)
    (tr : List Call) (o : Option ε) (h : DynamicOmpRun tid throws threads s e tr o) :
    (tr.map (·.index)).Perm (irange s e) ∧ (o = none ↔ ∀ i, s ≤ i → i < e → throws i = none) ∧
    ∀ x, o = some x → ∃ c ∈ tr, throws c.index = some x := by
  obtain ⟨ws, hw, hu⟩ := h
  have hws : ws.flatten.map (·.index) = irange s e ∧ ∀ w ∈ ws, w.length ≤ 1 := by
    unfold dynamicIndexLoop at hw
    rw [if_neg (by omega), chk64_ok hsz] at hw
    simp only [Res.ok_bind, if_true] at hw
    by_cases h0 : e - s = 0
    · rw [if_pos h0] at hw
      simp only [Res.pure_eq, Res.ok.injEq, DynPlan.units.injEq] at hw
      subst hw
      have : irange s e = [] := by unfold irange; rw [show (e - s).toNat = 0 by omega]; rfl
      simp [this]
    rw [if_neg h0] at hw
    by_cases hc : ¬ threads > 1 ∨ e - s = 1
    · rw [if_pos hc, mkWorkRange_ok (by omega) (by omega)] at hw
      simp only [Res.ok_bind, Res.pure_eq, Res.ok.injEq, DynPlan.units.injEq] at hw
      subst hw
      have he : e = s + 1 := by omega
      subst he
      simp only [List.flatten_cons, List.flatten_nil, List.append_nil, expand_index, List.mem_singleton]
      refine ⟨trivial, ?_⟩
      rintro w rfl
      rw [show (expand ⟨s, s + 1, 0⟩).length = ((expand ⟨s, s + 1, 0⟩).map (·.index)).length by simp, expand_index, length_irange]
      dsimp only; omega
    · rw [if_neg hc, dynamicOmp_eq] at hw
      simp only [Res.ok_bind, Res.pure_eq, Res.ok.injEq, DynPlan.units.injEq] at hw
      subst hw
      constructor
      · rw [List.map_flatten, List.map_map, List.map_map]
        have : ((List.map (fun c : Call => c.index) ∘ expand) ∘ fun j : Nat => (⟨s + j, s + j + 1, tid (s + j)⟩ : WorkRange)) =
            fun j : Nat => [s + (j : Int)] := by
          funext j
          simp only [Function.comp, expand_index]
          rw [irange_succ (by omega), irange_self]
        rw [this]
        unfold irange
        rw [← List.flatMap_def, ← List.map_eq_flatMap]
      · intro w hw'
        simp only [List.mem_map] at hw'
        obtain ⟨_, ⟨j, _, rfl⟩, rfl⟩ := hw'
        simp [expand]
  have hord := ordered_spec hu hws.1
  refine ⟨?_, hord.2.2.1, hord.2.2.2.1⟩
  obtain ⟨hp, -, -⟩ := units_spec hu
  have : (ws.map fun w => (runCalls throws w).1) = ws := by
    conv_rhs => rw [← List.map_id ws]
    refine List.map_congr_left fun w hw' => ?_
    have := hws.2 w hw'
    match w, this with
    | [], _ => rfl
    | [c], _ =>
      show (runCalls throws [c]).1 = [c]
      simp only [runCalls]
      cases throws c.index <;> rfl
  rw [this] at hp
  rw [← hws.1]
  exact hp.map _

/-- Runs exist, whatever the functor throws. -/
theorem unitsRun_exists (omp : Bool) (throws : Int → Option ε) (ws : List (List Call)) : ∃ tr o, UnitsRun omp throws ws tr o := by
  cases omp with
  | true =>
    obtain ⟨evs, h⟩ := Interleaving.exists_run (ws.map (ompEvents throws))
    exact ⟨_, _, by unfold UnitsRun; simp only [if_true]; exact ⟨evs, h, rfl, rfl⟩⟩
  | false =>
    obtain ⟨tr, h⟩ := Interleaving.exists_run (ws.map fun w => (runCalls throws w).1)
    exact ⟨tr, _, by unfold UnitsRun; simp only [Bool.false_eq_true, if_false]; exact ⟨h, rfl⟩⟩

/-- Non-vacuity: three threads, ten indices, two of which throw (5 and 8, in the second and third work range): the loop throws 5, whatever the
schedule, and 6 and 9 are not visited. -/
example : ∃ tr o, StaticRun .async (fun i : Int => if i = 5 ∨ i = 8 then some i else none) 3 0 10 tr o ∧ o = some 5 ∧
    ¬ (∃ c ∈ tr, c.index = 6) ∧ ∃ c ∈ tr, c.index = 3 := by
  obtain ⟨tr, o, h⟩ := unitsRun_exists false (fun i : Int => if i = 5 ∨ i = 8 then some i else none)
    ([⟨0, 4, 0⟩, ⟨4, 7, 1⟩, ⟨7, 10, 2⟩].map expand)
  have hr : staticRangeLoop .async 3 0 10 = .ok [⟨0, 4, 0⟩, ⟨4, 7, 1⟩, ⟨7, 10, 2⟩] := by decide
  have hs : StaticRun .async (fun i : Int => if i = 5 ∨ i = 8 then some i else none) 3 0 10 tr o := ⟨_, by simp [staticIndexLoop, hr], h⟩
  refine ⟨tr, o, hs, ?_, ?_, ?_⟩
  · obtain ⟨-, -, h3, -⟩ := C98_static .async _ 3 0 10 (by decide) (by decide) (by decide) (by decide) (by decide) (by decide) (by intro t h; exact h) tr o hs
    cases o with
    | none => have := h3.mp rfl 5 (by decide) (by decide); simp at this
    | some x =>
      obtain ⟨i, -, -, h6, h7⟩ := C98_static_first .async _ 3 0 10 (by decide) (by decide) (by decide) (by decide) (by decide) (by decide) (by intro t h; exact h)
        tr x hs (.inl rfl)
      split at h6
      · rename_i hi
        rcases hi with rfl | rfl
        · exact h6.symm
        · have := h7 5 (by decide) (by decide); simp at this
      · cases h6
  all_goals
    obtain ⟨rs, h4, -, h5⟩ := C98_static_visited .async _ 3 0 10 (by decide) (by decide) (by decide) (by decide) (by decide) (by decide) (by intro t h; exact h)
      tr o hs
    rw [hr] at h4
    cases h4
  · rw [h5 ⟨4, 7, 1⟩ (by simp) 6 (by decide) (by decide)]
    intro hall
    have := hall 5 (by decide) (by decide)
    simp at this
  · rw [h5 ⟨0, 4, 0⟩ (by simp) 3 (by decide) (by decide)]
    intro j hj1 hj2
    dsimp only at hj1
    rw [if_neg (by omega)]

/-- Non-vacuity of `C98_dynamic_omp`. -/
example : ∃ tr o, DynamicOmpRun (fun _ => 0) (fun i : Int => if i = 3 then some i else none) 2 1 5 tr o ∧ o ≠ none ∧ (tr.map (·.index)).Perm (irange 1 5) := by
  obtain ⟨tr, o, h⟩ := unitsRun_exists true (fun i : Int => if i = 3 then some i else none)
    ([⟨1, 2, 0⟩, ⟨2, 3, 0⟩, ⟨3, 4, 0⟩, ⟨4, 5, 0⟩].map expand)
  have hs : DynamicOmpRun (fun _ => 0) (fun i : Int => if i = 3 then some i else none) 2 1 5 tr o := ⟨_, by decide, h⟩
  obtain ⟨h1, h2, -⟩ := C98_dynamic_omp _ _ 2 1 5 (by decide) (by decide) (by decide) tr o hs
  refine ⟨tr, o, hs, ?_, h1⟩
  intro hc
  have := h2.mp hc 3 (by decide) (by decide)
  simp at this

end CRU.Parallel
