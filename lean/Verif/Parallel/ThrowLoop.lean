import Verif.Parallel.Exceptions
/-
  Parallel loops whose bodies have effects on shared data and may throw (parallelism.hpp:142-234, 423-442), for the loops of
  Distances/Throw.lean and Knn/Throw.lean. `κ` is what a body is called with: an index and a thread number, or a work range.
-/
namespace CRU.Parallel

variable {κ α ε σ : Type}

/-! ### Model -/

/-- What a body, or a thread, does: the effects in order, and what it threw in the end. -/
abbrev Effects (α ε : Type) := List α × Option ε

/-- parallelism.hpp:430-438: the bodies of one work range, up to the first that throws. -/
def unitOf (f : κ → Res (Effects α ε)) : List κ → Res (Effects α ε)
  | [] => .ok ([], none)
  | c :: cs => do
    let a ← f c
    match a.2 with
    | some x => pure (a.1, some x)
    | none =>
      let rest ← unitOf f cs
      pure (a.1 ++ rest.1, rest.2)

/-- parallelism.hpp:186-200, 211-226: all work ranges. -/
def unitsOf (f : κ → Res (Effects α ε)) : List (List κ) → Res (List (Effects α ε))
  | [] => .ok []
  | w :: ws => do
    let a ← unitOf f w
    let rest ← unitsOf f ws
    pure (a :: rest)

/-- What others can see of a thread: its effects, and (parallelism.hpp:196-200) the assignment `loop_exception = std::current_exception()`. -/
inductive Act (α ε : Type) where
  | effect (a : α)
  | caught (x : ε)

/-- parallelism.hpp:186-200: what one iteration of the OpenMP loop does. -/
def actsOf (u : Effects α ε) : List (Act α ε) := u.1.map .effect ++ (u.2.map .caught).toList

/-- parallelism.hpp:186-200: the effects, in order. -/
def effectsOf (l : List (Act α ε)) : List α := l.filterMap fun | .effect a => some a | .caught _ => none

/-- parallelism.hpp:181, 199, 203-206: `loop_exception` after the loop, which is rethrown. -/
def lastCaught : Option ε → List (Act α ε) → Option ε
  | acc, [] => acc
  | _, .caught x :: l => lastCaught (some x) l
  | acc, .effect _ :: l => lastCaught acc l

/-- parallelism.hpp:229-232: `worker.get()` in order; the first that holds an exception rethrows it, after all have ended. -/
def firstHeld : List (Effects α ε) → Option ε
  | [] => none
  | u :: us =>
    match u.2 with
    | some x => some x
    | none => firstHeld us

/-- parallelism.hpp:186-206, 211-232: the effects in some order that the threads allow, and the exception that leaves the loop. -/
def EffectsRun (omp : Bool) (us : List (Effects α ε)) (tr : List α) (o : Option ε) : Prop :=
  if omp then ∃ evs, Interleaving (us.map actsOf) evs ∧ tr = effectsOf evs ∧ o = lastCaught none evs
  else Interleaving (us.map (·.1)) tr ∧ o = firstHeld us

/-- A call that runs such a loop and then computes its result from the data the bodies worked on: `run` executes effects and computes it. If the
loop throws, the call does. (parallelism.hpp:142-234, and the callers) -/
def BodyRun (omp : Bool) (f : κ → Res (Effects α ε)) (ws : List (List κ)) (run : List α → Res σ) (r : Res (Except ε σ)) : Prop :=
  (∃ us tr o, unitsOf f ws = .ok us ∧ EffectsRun omp us tr o ∧
    r = (run tr >>= fun s => pure (match o with | some x => .error x | none => .ok s))) ∨
  (∃ e, unitsOf f ws = .throw e ∧ r = .throw e) ∨ (unitsOf f ws = .ub ∧ r = .ub)

/-! ### Proofs -/

/-- `unitOf` for bodies without undefined behaviour. -/
def pureUnit (u : κ → Effects α ε) : List κ → Effects α ε
  | [] => ([], none)
  | c :: cs =>
    match (u c).2 with
    | some x => ((u c).1, some x)
    | none => ((u c).1 ++ (pureUnit u cs).1, (pureUnit u cs).2)

theorem unitOf_ok {f : κ → Res (Effects α ε)} {u : κ → Effects α ε} : ∀ w : List κ, (∀ c ∈ w, f c = .ok (u c)) → unitOf f w = .ok (pureUnit u w)
  | [], _ => rfl
  | c :: cs, h => by
    unfold unitOf pureUnit
    rw [h c (by simp), Res.ok_bind]
    cases (u c).2 with
    | some x => rfl
    | none =>
      dsimp only
      rw [unitOf_ok cs (fun d hd => h d (by simp [hd]))]
      rfl

theorem unitsOf_ok {f : κ → Res (Effects α ε)} {u : κ → Effects α ε} : ∀ ws : List (List κ), (∀ c ∈ ws.flatten, f c = .ok (u c)) →
    unitsOf f ws = .ok (ws.map (pureUnit u))
  | [], _ => rfl
  | w :: ws, h => by
    unfold unitsOf
    rw [unitOf_ok w (fun c hc => h c (by simp [hc])), Res.ok_bind, unitsOf_ok ws (fun c hc => h c (by
      rw [List.flatten_cons]; exact List.mem_append_right _ hc))]
    rfl

theorem pureUnit_spec (u : κ → Effects α ε) : ∀ w : List κ,
    ((∀ c ∈ w, (u c).2 = none) ∧ pureUnit u w = (w.flatMap fun c => (u c).1, none)) ∨
    (∃ pre c post x, w = pre ++ c :: post ∧ (u c).2 = some x ∧ (pureUnit u w).2 = some x ∧ ∀ d ∈ pre, (u d).2 = none)
  | [] => .inl ⟨by simp, rfl⟩
  | c :: cs => by
    unfold pureUnit
    cases hc : (u c).2 with
    | some x => exact .inr ⟨[], c, cs, x, rfl, hc, rfl, by simp⟩
    | none =>
      rcases pureUnit_spec u cs with ⟨h1, h2⟩ | ⟨pre, d, post, x, h1, h2, h3, h4⟩
      · left
        rw [h2]
        exact ⟨by simpa [hc] using h1, by simp⟩
      · exact .inr ⟨c :: pre, d, post, x, by simp [h1], h2, h3, by simpa [hc] using h4⟩

theorem pureUnit_effects (u : κ → Effects α ε) : ∀ (w : List κ), ∀ a ∈ (pureUnit u w).1, ∃ c ∈ w, a ∈ (u c).1
  | [], a, h => by simp [pureUnit] at h
  | c :: cs, a, h => by
    unfold pureUnit at h
    cases hc : (u c).2 with
    | some x => rw [hc] at h; exact ⟨c, by simp, h⟩
    | none =>
      rw [hc] at h
      rcases List.mem_append.mp h with h | h
      · exact ⟨c, by simp, h⟩
      · obtain ⟨d, hd, ha⟩ := pureUnit_effects u cs a h
        exact ⟨d, by simp [hd], ha⟩

theorem lastCaught_spec : ∀ (l : List (Act α ε)) (acc : Option ε), (lastCaught acc l = none ↔ acc = none ∧ ∀ x, Act.caught x ∉ l) ∧
    ∀ x, lastCaught acc l = some x → acc = some x ∨ Act.caught x ∈ l
  | [], acc => by simp [lastCaught]
  | .effect c :: l, acc => by
    obtain ⟨h1, h2⟩ := lastCaught_spec l acc
    refine ⟨by simp [lastCaught, h1], fun x hx => ?_⟩
    rcases h2 x hx with h | h
    · exact .inl h
    · exact .inr (List.mem_cons_of_mem _ h)
  | .caught y :: l, acc => by
    obtain ⟨h1, h2⟩ := lastCaught_spec l (some y)
    refine ⟨?_, fun x hx => ?_⟩
    · simp only [lastCaught, h1, reduceCtorEq, false_and, false_iff, not_and, not_forall, not_not]
      exact fun _ => ⟨y, by simp⟩
    · rcases h2 x hx with h | h
      · cases h; exact .inr (by simp)
      · exact .inr (List.mem_cons_of_mem _ h)

theorem firstHeld_spec : ∀ us : List (Effects α ε), (firstHeld us = none ↔ ∀ u ∈ us, u.2 = none) ∧
    ∀ x, firstHeld us = some x → ∃ pre u post, us = pre ++ u :: post ∧ u.2 = some x ∧ ∀ v ∈ pre, v.2 = none
  | [] => by simp [firstHeld]
  | u :: us => by
    obtain ⟨h1, h2⟩ := firstHeld_spec us
    unfold firstHeld
    cases hu : u.2 with
    | some x => exact ⟨by simp [hu], fun y hy => ⟨[], u, us, rfl, by rw [hu]; exact hy, by simp⟩⟩
    | none =>
      refine ⟨by simp [hu, h1], fun y hy => ?_⟩
      obtain ⟨pre, v, post, e1, e2, e3⟩ := h2 y hy
      exact ⟨u :: pre, v, post, by simp [e1], e2, by simpa [hu] using e3⟩

/-- An interleaving of mapped threads is a mapped interleaving. -/
theorem interleaving_map_inv {β γ : Type} (f : β → γ) {ls : List (List β)} {tr : List γ} (h : Interleaving (ls.map (List.map f)) tr) :
    ∃ tr', Interleaving ls tr' ∧ tr = tr'.map f := by
  generalize hls : ls.map (List.map f) = m at h
  induction h generalizing ls with
  | @done m h =>
    subst hls
    refine ⟨[], .done fun l hl => ?_, rfl⟩
    have := h _ (List.mem_map.mpr ⟨l, hl, rfl⟩)
    simpa using this
  | @step m i x t tr h _ ih =>
    subst hls
    rw [List.getElem?_map] at h
    obtain ⟨l, hl, hx⟩ := Option.map_eq_some_iff.mp h
    obtain ⟨y, l', rfl, rfl, rfl⟩ := List.map_eq_cons_iff.mp hx
    obtain ⟨tr', h1, rfl⟩ := ih (ls := ls.set i l') (by rw [List.map_set])
    exact ⟨y :: tr', .step i y l' tr' hl h1, rfl⟩

theorem effects_normal {omp : Bool} {us : List (Effects α ε)} (hn : ∀ u ∈ us, u.2 = none) {tr : List α} {o : Option ε}
    (h : EffectsRun omp us tr o) : Interleaving (us.map (·.1)) tr := by
  unfold EffectsRun at h
  cases omp with
  | false => simp only [Bool.false_eq_true, if_false] at h; exact h.1
  | true =>
    simp only [if_true] at h
    obtain ⟨evs, h1, rfl, -⟩ := h
    have hm : us.map actsOf = (us.map (·.1)).map (List.map .effect) := by
      rw [List.map_map]
      refine List.map_congr_left fun u hu => ?_
      unfold actsOf
      rw [hn u hu]
      simp
    rw [hm] at h1
    obtain ⟨tr, h2, rfl⟩ := interleaving_map_inv _ h1
    have : effectsOf (tr.map (Act.effect (ε := ε))) = tr := by
      unfold effectsOf
      rw [List.filterMap_map]
      exact List.filterMap_some
    rw [this]
    exact h2

/-- Everything about one run of a loop. -/
theorem effects_spec {omp : Bool} {us : List (Effects α ε)} {tr : List α} {o : Option ε} (h : EffectsRun omp us tr o) :
    (∀ a ∈ tr, ∃ u ∈ us, a ∈ u.1) ∧ (o = none ↔ ∀ u ∈ us, u.2 = none) ∧
    ∀ x, o = some x → ∃ pre u post, us = pre ++ u :: post ∧ u.2 = some x ∧ (omp = false ∨ us.length ≤ 1 → ∀ v ∈ pre, v.2 = none) := by
  unfold EffectsRun at h
  cases omp with
  | false =>
    simp only [Bool.false_eq_true, if_false] at h
    obtain ⟨h1, rfl⟩ := h
    obtain ⟨h2, h3⟩ := firstHeld_spec us
    refine ⟨fun a ha => ?_, h2, fun x hx => ?_⟩
    · obtain ⟨l, hl, hal⟩ := List.mem_flatten.mp (h1.perm.subset ha)
      obtain ⟨u, hu, rfl⟩ := List.mem_map.mp hl
      exact ⟨u, hu, hal⟩
    · obtain ⟨pre, u, post, e1, e2, e3⟩ := h3 x hx
      exact ⟨pre, u, post, e1, e2, fun _ => e3⟩
  | true =>
    simp only [if_true] at h
    obtain ⟨evs, h1, rfl, rfl⟩ := h
    have hmem : ∀ e, e ∈ evs ↔ ∃ u ∈ us, e ∈ actsOf u := by
      intro e
      rw [h1.perm.mem_iff, List.mem_flatten]
      simp only [List.mem_map]
      constructor
      · rintro ⟨_, ⟨u, hu, rfl⟩, he⟩; exact ⟨u, hu, he⟩
      · rintro ⟨u, hu, he⟩; exact ⟨_, ⟨u, hu, rfl⟩, he⟩
    have hc : ∀ (u : Effects α ε) x, Act.caught x ∈ actsOf u ↔ u.2 = some x := by intro u x; simp [actsOf]
    obtain ⟨k1, k2⟩ := lastCaught_spec evs none
    refine ⟨fun a ha => ?_, ?_, fun x hx => ?_⟩
    · obtain ⟨e, he, hea⟩ := List.mem_filterMap.mp ha
      obtain ⟨u, hu, hue⟩ := (hmem e).mp he
      refine ⟨u, hu, ?_⟩
      cases e with
      | caught x => simp at hea
      | effect b =>
        simp only [Option.some.injEq] at hea
        subst hea
        simpa [actsOf] using hue
    · rw [k1]
      constructor
      · rintro ⟨-, hall⟩ u hu
        cases hx : u.2 with
        | none => rfl
        | some x => exact absurd ((hmem _).mpr ⟨u, hu, (hc u x).mpr hx⟩) (hall x)
      · refine fun hall => ⟨rfl, fun x hx => ?_⟩
        obtain ⟨u, hu, hux⟩ := (hmem _).mp hx
        have := (hc u x).mp hux
        rw [hall u hu] at this
        cases this
    · rcases k2 x hx with h | h
      · cases h
      · obtain ⟨u, hu, hux⟩ := (hmem _).mp h
        obtain ⟨pre, post, rfl⟩ := List.append_of_mem hu
        refine ⟨pre, u, post, rfl, (hc u x).mp hux, ?_⟩
        rintro (h | h)
        · cases h
        · have : pre = [] := by
            cases pre with
            | nil => rfl
            | cons a pre => simp at h
          simp [this]

/-- The outcome of a call that runs such a loop, if bodies have no undefined behaviour and effects can be executed: either no body throws, and the
call returns what it computes after all effects, in some order that the threads allow; or some body throws, and the call throws what one of the
bodies has thrown; with `std::async`, or on a single work range, the first body, in the order of work ranges, that throws. -/
theorem bodyRun_spec {omp : Bool} {f : κ → Res (Effects α ε)} {u : κ → Effects α ε} {ws : List (List κ)} {run : List α → Res σ}
    (hf : ∀ c ∈ ws.flatten, f c = .ok (u c)) (hrun : ∀ tr, (∀ a ∈ tr, ∃ c ∈ ws.flatten, a ∈ (u c).1) → ∃ s, run tr = .ok s)
    {r : Res (Except ε σ)} (h : BodyRun omp f ws run r) :
    ((∀ c ∈ ws.flatten, (u c).2 = none) ∧
      ∃ tr s, Interleaving (ws.map fun w => w.flatMap fun c => (u c).1) tr ∧ run tr = .ok s ∧ r = .ok (.ok s)) ∨
    ∃ pre c post x, ws.flatten = pre ++ c :: post ∧ (u c).2 = some x ∧ r = .ok (.error x) ∧
      (omp = false ∨ ws.length ≤ 1 → ∀ d ∈ pre, (u d).2 = none) := by
  have hus := unitsOf_ok ws hf
  rcases h with ⟨us, tr, o, h1, h2, rfl⟩ | ⟨e, h1, -⟩ | ⟨h1, -⟩
  · rw [hus] at h1
    cases h1
    obtain ⟨k1, k2, k3⟩ := effects_spec h2
    obtain ⟨s, hs⟩ := hrun tr (fun a ha => by
      obtain ⟨_, hu, hau⟩ := k1 a ha
      obtain ⟨w, hw, rfl⟩ := List.mem_map.mp hu
      obtain ⟨c, hc, hac⟩ := pureUnit_effects u w a hau
      exact ⟨c, List.mem_flatten.mpr ⟨w, hw, hc⟩, hac⟩)
    rw [hs, Res.ok_bind]
    cases o with
    | none =>
      left
      have hall := k2.mp rfl
      have hno : ∀ w ∈ ws, (∀ c ∈ w, (u c).2 = none) ∧ pureUnit u w = (w.flatMap fun c => (u c).1, none) := by
        intro w hw
        rcases pureUnit_spec u w with h | ⟨_, _, _, x, -, -, h3, -⟩
        · exact h
        · rw [hall _ (List.mem_map.mpr ⟨w, hw, rfl⟩)] at h3; cases h3
      refine ⟨fun c hc => ?_, tr, s, ?_, hs, rfl⟩
      · obtain ⟨w, hw, hcw⟩ := List.mem_flatten.mp hc
        exact (hno w hw).1 c hcw
      · have := effects_normal hall h2
        rw [List.map_map] at this
        have he : List.map ((fun x : Effects α ε => x.1) ∘ pureUnit u) ws = ws.map fun w => w.flatMap fun c => (u c).1 :=
          List.map_congr_left fun w hw => by simp only [Function.comp]; rw [(hno w hw).2]
        rwa [he] at this
    | some x =>
      right
      obtain ⟨pre, v, post, e1, e2, e3⟩ := k3 x rfl
      obtain ⟨ws1, ws', rfl, hp1, hp2⟩ := List.map_eq_append_iff.mp e1
      obtain ⟨w, ws2, rfl, rfl, rfl⟩ := List.map_eq_cons_iff.mp hp2
      rcases pureUnit_spec u w with ⟨-, h2⟩ | ⟨p, c, q, y, h1, h2, h3, h4⟩
      · rw [h2] at e2; cases e2
      · rw [e2] at h3
        cases h3
        refine ⟨ws1.flatten ++ p, c, q ++ ws2.flatten, x, ?_, h2, rfl, ?_⟩
        · rw [List.flatten_append, List.flatten_cons, h1]; simp
        · intro ho d hd
          have e3' := e3 (by rcases ho with h | h; exact .inl h; right; simpa using h)
          rcases List.mem_append.mp hd with hd | hd
          · obtain ⟨w', hw', hdw⟩ := List.mem_flatten.mp hd
            have := e3' (pureUnit u w') (by rw [← hp1]; exact List.mem_map.mpr ⟨w', hw', rfl⟩)
            rcases pureUnit_spec u w' with ⟨h, -⟩ | ⟨_, _, _, z, -, -, h3, -⟩
            · exact h d hdw
            · rw [this] at h3; cases h3
          · exact h4 d hd
  · rw [hus] at h1; cases h1
  · rw [hus] at h1; cases h1

/-- Runs exist. -/
theorem effectsRun_exists (omp : Bool) (us : List (Effects α ε)) : ∃ tr o, EffectsRun omp us tr o := by
  unfold EffectsRun
  cases omp with
  | true => obtain ⟨evs, h⟩ := Interleaving.exists_run (us.map actsOf); exact ⟨_, _, by simp only [if_true]; exact ⟨evs, h, rfl, rfl⟩⟩
  | false => obtain ⟨tr, h⟩ := Interleaving.exists_run (us.map (·.1)); exact ⟨tr, _, by simp only [Bool.false_eq_true, if_false]; exact ⟨h, rfl⟩⟩

theorem bodyRun_exists (omp : Bool) (f : κ → Res (Effects α ε)) (ws : List (List κ)) (run : List α → Res σ) : ∃ r, BodyRun omp f ws run r := by
  unfold BodyRun
  cases h : unitsOf f ws with
  | ok us => obtain ⟨tr, o, ho⟩ := effectsRun_exists omp us; exact ⟨_, .inl ⟨us, tr, o, rfl, ho, rfl⟩⟩
  | throw e => exact ⟨_, .inr (.inl ⟨e, rfl, rfl⟩)⟩
  | ub => exact ⟨_, .inr (.inr ⟨rfl, rfl⟩)⟩

end CRU.Parallel
