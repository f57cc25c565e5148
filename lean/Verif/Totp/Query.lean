import Verif.Totp.Ext
import Mathlib.Tactic.Ring
import Mathlib.Tactic.FinCases
/-
  C79: asking a trajectory for its state (time_optimal_trajectory_parametrization.cpp:1091-1181): the cache, clones and lifetimes.
-/
namespace CRU.Totp
open Ext

/-! ### Model -/

/-- time_optimal_trajectory_parametrization.cpp:293-303 `TrajectoryStep`. -/
structure Step where
  pos : ℝ
  vel : ℝ

/-- The same with its time. (time_optimal_trajectory_parametrization.cpp:293-303) -/
structure Timed extends Step where
  time : Ext

/-- time_optimal_trajectory_parametrization.cpp:574-575: the time of a step from the step before. -/
noncomputable def nextTime (prev : Timed) (s : Step) : Ext :=
  prev.time.add (div (.fin (s.pos - prev.pos)) (.fin ((s.vel + prev.vel) / 2)))

/-- time_optimal_trajectory_parametrization.cpp:572-578: the loop. -/
noncomputable def timingLoop : Timed → List Step → List Timed
  | _, [] => []
  | prev, s :: ss =>
    let t : Timed := ⟨s, nextTime prev s⟩
    t :: timingLoop t ss

/-- time_optimal_trajectory_parametrization.cpp:567-578: calculate timing. -/
noncomputable def timing : List Step → List Timed
  | [] => []
  | s :: ss => ⟨s, .fin 0⟩ :: timingLoop ⟨s, .fin 0⟩ ss

/-- What a trajectory object keeps: its own list of steps, `cached_time_`, and `cached_trajectory_segment_`: an iterator into the list of
the object with the given number, at the given place; `none` as long as it was never assigned. (time_optimal_trajectory_parametrization.cpp:347-357) -/
structure Obj where
  steps : List Timed
  cachedTime : Ext
  cached : Option (Nat × Nat)

/-- The trajectory objects of a program, by number; `none` for destroyed ones. (time_optimal_trajectory_parametrization.cpp:1145-1181) -/
abbrev World := List (Option Obj)

/-- The object with the given number. (time_optimal_trajectory_parametrization.cpp:1145-1181) -/
def World.obj (w : World) (i : Nat) : Option Obj := (w[i]?).bind id

/-- A fresh trajectory (time_optimal_trajectory_parametrization.cpp:531). -/
noncomputable def fresh (steps : List Timed) : Obj := ⟨steps, .fin dblMax, none⟩

/-- time_optimal_trajectory_parametrization.cpp:1111-1114: move the iterator on; running off the end is undefined (the end is dereferenced). -/
noncomputable def scan (t : Ext) : List Timed → Nat → Res Nat
  | [], _ => .ub
  | s :: ss, k => open Classical in if le s.time t then scan t ss (k + 1) else .ok k

/-- time_optimal_trajectory_parametrization.cpp:1096-1118 `GetTrajectorySegment`: the state of the object afterwards, and the list and the
place the iterator points to. -/
noncomputable def getSegment (w : World) (i : Nat) (o : Obj) (t : Ext) : Res (Obj × List Timed × Nat) :=
  match o.steps.getLast? with
  | none => .ub
  | some last =>
    open Classical in
    if le last.time t then .ok (o, o.steps, o.steps.length - 1)
    else
      match (if lt t o.cachedTime then some (i, 0) else o.cached) with
      | none => .ub
      | some (owner, k) =>
        match w.obj owner with
        | none => .ub
        | some ow => do
          let k' ← scan t (ow.steps.drop k) k
          .ok (⟨o.steps, t, some (owner, k')⟩, ow.steps, k')

/-- time_optimal_trajectory_parametrization.cpp:1126-1136: path position and path velocity at time `t` between two steps. -/
noncomputable def evalBetween (prev it : Timed) (t : Ext) : Ext × Ext :=
  let dt := it.time.sub prev.time
  let acc := div (mul (.fin 2) (((Ext.fin it.pos).sub (.fin prev.pos)).sub (mul dt (.fin prev.vel)))) (mul dt dt)
  let dt' := t.sub prev.time
  (((Ext.fin prev.pos).add (mul dt' (.fin prev.vel))).add (mul (mul (mul (.fin (1 / 2)) dt') dt') acc),
    (Ext.fin prev.vel).add (mul dt' acc))

/-- time_optimal_trajectory_parametrization.cpp:1120-1139 `GetPositionVelocity`, up to the path functions applied at the end to the path
position and velocity. The iterator before the first step is undefined. -/
noncomputable def getPositionVelocity (w : World) (i : Nat) (o : Obj) (t : Ext) : Res (Obj × Ext × Ext) := do
  let r ← getSegment w i o t
  if r.2.2 = 0 then .ub
  else do
    let it ← atRaw r.2.1 r.2.2
    let prev ← atRaw r.2.1 (r.2.2 - 1)
    .ok (r.1, evalBetween prev it t)

/-- time_optimal_trajectory_parametrization.cpp:1170-1176 `GetPositionVelocityTimePoint`, with the constructor of the point
(time_optimal_trajectory_parametrization.hpp:21-34), which rejects a negative time. Position and velocity have the same size. -/
noncomputable def ask (w : World) (i : Nat) (o : Obj) (t : Ext) : Res (Obj × Ext × Ext) :=
  getPositionVelocity w i o t >>= fun r => open Classical in if lt t (.fin 0) then .throw .invalidArgument else .ok r

/-- What a program does with trajectories. (time_optimal_trajectory_parametrization.cpp:1102-1181) -/
inductive Op where
  | query (i : Nat) (t : Ext)
  | clone (i : Nat)
  | destroy (i : Nat)

/-- One operation: the new objects, and the answer. Operations that name objects that do not exist are not programs; they do nothing.
`Clone` (1162-1166) copies all members. An exception (negative time) leaves the object as the call left it; the cache may have
been moved, which is of no consequence here because such calls are undefined (`C79_negative_time`). (time_optimal_trajectory_parametrization.cpp:1102-1181) -/
noncomputable def Op.run (w : World) : Op → Res (World × Option (Ext × Ext))
  | .query i t => match w.obj i with
    | none => .ok (w, none)
    | some o => do
      let r ← ask w i o t
      .ok (w.set i (some r.1), some r.2)
  | .clone i => match w.obj i with
    | none => .ok (w, none)
    | some o => .ok (w ++ [some o], none)
  | .destroy i => .ok (w.set i none, none)

/-- A program. (time_optimal_trajectory_parametrization.cpp:1102-1181) -/
noncomputable def runOps (w : World) : List Op → Res World
  | [] => .ok w
  | o :: os => do
    let r ← o.run w
    runOps r.1 os

/-! ### Specification -/

/-- A trajectory as it is constructed: at least two steps, the first at time 0, the last at a time that is a `double`. -/
structure Usable (steps : List Timed) : Prop where
  two : 2 ≤ steps.length
  zero : ∀ s, steps[0]? = some s → s.time = .fin 0
  last : ∃ s T, steps.getLast? = some s ∧ s.time = .fin T ∧ T ≤ dblMax

/-- `k` is the place of the step that ends the stretch of the trajectory used at time `t`: the first step whose time is not over, or the last
step. -/
def EndsStretch (steps : List Timed) (t : Ext) (k : Nat) : Prop :=
  (∃ last, steps.getLast? = some last ∧ le last.time t ∧ k = steps.length - 1) ∨
  ((∀ last, steps.getLast? = some last → ¬ le last.time t) ∧ k < steps.length ∧ (∀ s, steps[k]? = some s → ¬ le s.time t) ∧
    ∀ (j : Nat) s, j < k → steps[j]? = some s → le s.time t)

/-- The answer as a function of the trajectory and the time alone. -/
def Answer (steps : List Timed) (t : Ext) (a : Ext × Ext) : Prop :=
  ∃ k prev it, EndsStretch steps t (k + 1) ∧ steps[k]? = some prev ∧ steps[k + 1]? = some it ∧ a = evalBetween prev it t

theorem EndsStretch.unique {steps : List Timed} {t : Ext} {k k' : Nat} (h : EndsStretch steps t k) (h' : EndsStretch steps t k') : k = k' := by
  rcases h with ⟨l, h1, h2, h3⟩ | ⟨h1, h2, h3, h4⟩ <;> rcases h' with ⟨l', g1, g2, g3⟩ | ⟨g1, g2, g3, g4⟩
  · omega
  · exact absurd h2 (g1 l h1)
  · exact absurd g2 (h1 l' g1)
  · rcases Nat.lt_trichotomy k k' with hc | hc | hc
    · exact absurd (g4 k _ hc (List.getElem?_eq_getElem h2)) (h3 _ (List.getElem?_eq_getElem h2))
    · exact hc
    · exact absurd (h4 k' _ hc (List.getElem?_eq_getElem g2)) (g3 _ (List.getElem?_eq_getElem g2))

/-- There is at most one answer. -/
theorem Answer.unique {steps : List Timed} {t : Ext} {a b : Ext × Ext} (h : Answer steps t a) (h' : Answer steps t b) : a = b := by
  obtain ⟨k, p, i, h1, h2, h3, rfl⟩ := h
  obtain ⟨k', p', i', g1, g2, g3, rfl⟩ := h'
  have := h1.unique g1
  obtain rfl : k = k' := by omega
  rw [h2] at g2
  rw [h3] at g3
  cases g2
  cases g3
  rfl

/-! ### Proofs -/

theorem le_trans' {a b c : Ext} (h1 : le a b) (h2 : le b c) : le a c := by
  cases a <;> cases b <;> cases c <;> simp_all [le]
  linarith

theorem not_lt_le {a b : Ext} (ha : a ≠ .nan) (hb : b ≠ .nan) (h : ¬ lt a b) : le b a := by
  cases a <;> cases b <;> simp_all [lt, le]

theorem scan_spec (t : Ext) : ∀ (l : List Timed) (k : Nat), (∃ s ∈ l, ¬ le s.time t) →
    ∃ m, scan t l k = .ok (k + m) ∧ m < l.length ∧ (∀ s, l[m]? = some s → ¬ le s.time t) ∧ ∀ (j : Nat) s, j < m → l[j]? = some s → le s.time t
  | [], k, h => by simp at h
  | s :: ss, k, h => by
    unfold scan
    by_cases hs : le s.time t
    · rw [if_pos hs]
      obtain ⟨x, hx, hx'⟩ := h
      rcases List.mem_cons.mp hx with rfl | hx
      · exact absurd hs hx'
      obtain ⟨m, h1, h2, h3, h4⟩ := scan_spec t ss (k + 1) ⟨x, hx, hx'⟩
      refine ⟨m + 1, by rw [h1]; congr 1; omega, by simpa using h2, fun y hy => h3 y (by simpa using hy), fun j y hj hy => ?_⟩
      cases j with
      | zero => simp at hy; rw [← hy]; exact hs
      | succ j => exact h4 j y (by omega) (by simpa using hy)
    · rw [if_neg hs]
      exact ⟨0, rfl, by simp, fun y hy => by simp at hy; rw [← hy]; exact hs, fun j y hj => by omega⟩

/-- The cache of an object is consistent with the list it points to. -/
structure CacheOk (l : List Timed) (w : World) (o : Obj) : Prop where
  steps : o.steps = l
  notNan : o.cachedTime ≠ .nan
  unset : o.cached = none → o.cachedTime = .fin dblMax
  set : ∀ ow k, o.cached = some (ow, k) → (∃ oo, w.obj ow = some oo) ∧
    ∀ (j : Nat) s, j < k → l[j]? = some s → le s.time o.cachedTime

open Classical in
theorem getSegment_spec {steps : List Timed} (hu : Usable steps) {w : World} {i : Nat} {o : Obj} (ho : w.obj i = some o)
    (hw : ∀ j oo, w.obj j = some oo → oo.steps = steps) (hc : CacheOk steps w o) {t : Ext} (ht : le (.fin 0) t) :
    ∃ o' k, getSegment w i o t = .ok (o', steps, k) ∧ EndsStretch steps t k ∧ 1 ≤ k ∧ k < steps.length ∧ CacheOk steps w o' ∧
      (o' = o ∨ ∃ ow, (ow = i ∨ ∃ k0, o.cached = some (ow, k0)) ∧ o'.cached = some (ow, k)) := by
  obtain ⟨last, T, hl, hT, hmax⟩ := hu.last
  have h2 := hu.two
  have htn : t ≠ .nan := by rintro rfl; exact ht.elim
  unfold getSegment
  rw [hc.steps, hl]
  dsimp only
  by_cases hlt : le last.time t
  · rw [if_pos hlt]
    exact ⟨o, _, rfl, Or.inl ⟨last, hl, hlt, rfl⟩, by omega, by omega, hc, Or.inl rfl⟩
  · rw [if_neg hlt]
    have hlast : ∀ s, steps.getLast? = some s → ¬ le s.time t := by
      intro s hs
      rw [hl] at hs
      cases hs
      exact hlt
    -- the place from which the search starts
    have hstart : ∃ ow k, (if lt t o.cachedTime then some (i, 0) else o.cached) = some (ow, k) ∧ (∃ oo, w.obj ow = some oo) ∧
        (∀ (j : Nat) s, j < k → steps[j]? = some s → le s.time t) ∧ (ow = i ∨ ∃ k0, o.cached = some (ow, k0)) := by
      by_cases hlt2 : lt t o.cachedTime
      · exact ⟨i, 0, by rw [if_pos hlt2], ⟨o, ho⟩, fun j s hj => by omega, Or.inl rfl⟩
      · rw [if_neg hlt2]
        cases hcc : o.cached with
        | none =>
          exfalso
          rw [hc.unset hcc] at hlt2
          refine hlt ?_
          have := not_lt_le htn (by simp) hlt2
          rw [hT]
          exact le_trans' (b := .fin dblMax) hmax this
        | some p =>
          obtain ⟨ow, k⟩ := p
          obtain ⟨g1, g2⟩ := hc.set ow k hcc
          exact ⟨ow, k, rfl, g1, fun j s hj hs => le_trans' (g2 j s hj hs) (not_lt_le htn hc.notNan hlt2), Or.inr ⟨k, rfl⟩⟩
    obtain ⟨ow, k, hs1, ⟨oo, hs2⟩, hs3, hs4⟩ := hstart
    rw [hs1]
    dsimp only
    rw [hs2]
    dsimp only
    rw [hw ow oo hs2]
    -- the search finds something
    have hk : k < steps.length := by
      by_contra hc'
      refine hlt (hs3 (steps.length - 1) last (by omega) ?_)
      rw [← List.getLast?_eq_getElem?]
      exact hl
    have hex : ∃ s ∈ steps.drop k, ¬ le s.time t := by
      refine ⟨last, ?_, hlt⟩
      have := List.getLast?_drop (l := steps) (i := k)
      rw [if_neg (by omega), hl] at this
      exact List.mem_of_getLast? this
    obtain ⟨m, hm1, hm2, hm3, hm4⟩ := scan_spec t (steps.drop k) k hex
    rw [hm1]
    rw [List.length_drop] at hm2
    have hbefore : ∀ (j : Nat) s, j < k + m → steps[j]? = some s → le s.time t := by
      intro j s hj hs
      rcases Nat.lt_or_ge j k with hjk | hjk
      · exact hs3 j s hjk hs
      · refine hm4 (j - k) s (by omega) ?_
        rw [List.getElem?_drop, show k + (j - k) = j by omega]
        exact hs
    have hat : ∀ s, steps[k + m]? = some s → ¬ le s.time t := by
      intro s hs
      refine hm3 s ?_
      rw [List.getElem?_drop]
      exact hs
    have hpos : 1 ≤ k + m := by
      by_contra h0
      have h0 : k + m = 0 := by omega
      have hs : steps[0]? = some steps[0] := List.getElem?_eq_getElem (by omega)
      refine hat steps[0] (by rw [h0]; exact hs) ?_
      rw [hu.zero _ hs]
      exact ht
    refine ⟨⟨o.steps, t, some (ow, k + m)⟩, k + m, by rw [hc.steps]; rfl, Or.inr ⟨hlast, by omega, hat, hbefore⟩, hpos, by omega, ⟨hc.steps, htn, by simp, ?_⟩,
      Or.inr ⟨ow, hs4, rfl⟩⟩
    intro ow' k' h'
    simp only [Option.some.injEq, Prod.mk.injEq] at h'
    obtain ⟨rfl, rfl⟩ := h'
    exact ⟨⟨oo, hs2⟩, hbefore⟩

theorem query_spec {steps : List Timed} (hu : Usable steps) {w : World} {i : Nat} {o : Obj} (ho : w.obj i = some o)
    (hw : ∀ j oo, w.obj j = some oo → oo.steps = steps) (hc : CacheOk steps w o) {t : Ext} (ht : le (.fin 0) t) :
    ∃ o' a, ask w i o t = .ok (o', a) ∧ Answer steps t a ∧ CacheOk steps w o' ∧
      (o' = o ∨ ∃ ow, (ow = i ∨ ∃ k0, o.cached = some (ow, k0)) ∧ ∃ k, o'.cached = some (ow, k)) := by
  obtain ⟨o', k, h1, h2, h3, h4, h5, h6⟩ := getSegment_spec hu ho hw hc ht
  have e1 : steps[k]? = some steps[k] := List.getElem?_eq_getElem h4
  have e2 : steps[k - 1]? = some (steps[k - 1]'(by omega)) := List.getElem?_eq_getElem (by omega)
  refine ⟨o', evalBetween (steps[k - 1]'(by omega)) steps[k] t, ?_, ⟨k - 1, _, _, ?_, e2, ?_, rfl⟩, h5, ?_⟩
  · unfold ask getPositionVelocity
    rw [h1]
    simp only [Res.ok_bind]
    rw [if_neg (by omega)]
    unfold atRaw
    rw [e1, e2]
    simp only [Res.ok_bind]
    rw [if_neg]
    intro hc'
    cases t <;> simp_all [le, lt]
    linarith
  · rw [Nat.sub_add_cancel h3]; exact h2
  · rw [Nat.sub_add_cancel h3]; exact e1
  · rcases h6 with h6 | ⟨ow, h6, h7⟩
    · exact Or.inl h6
    · exact Or.inr ⟨ow, h6, k, h7⟩

/-- All objects are copies of the same trajectory, and every cache points into an object that lives: the object itself, or one that
has been cloned. -/
structure Inv (steps : List Timed) (cloned : List Nat) (w : World) : Prop where
  same : ∀ j o, w.obj j = some o → CacheOk steps w o
  owner : ∀ j o ow k, w.obj j = some o → o.cached = some (ow, k) → ow = j ∨ ow ∈ cloned

theorem obj_set {w : World} {i j : Nat} {x : Option Obj} (hi : i < w.length) :
    World.obj (w.set i x) j = if i = j then x else w.obj j := by
  unfold World.obj
  rw [List.getElem?_set]
  split_ifs with h
  · rfl
  · rfl

theorem obj_lt {w : World} {i : Nat} {o : Obj} (h : w.obj i = some o) : i < w.length := by
  unfold World.obj at h
  by_contra hc
  rw [List.getElem?_eq_none (by omega)] at h
  simp at h

theorem obj_append {w : World} {x : Option Obj} {j : Nat} : World.obj (w ++ [x]) j = if j = w.length then x else w.obj j := by
  unfold World.obj
  rcases Nat.lt_trichotomy j w.length with h | h | h
  · rw [List.getElem?_append_left h, if_neg (by omega)]
  · subst h; simp
  · rw [if_neg (by omega), List.getElem?_eq_none (by simp; omega), List.getElem?_eq_none (by omega)]

theorem CacheOk.mono {steps : List Timed} {w w' : World} {o : Obj} (h : CacheOk steps w o)
    (hw : ∀ ow k, o.cached = some (ow, k) → (∃ oo, w.obj ow = some oo) → ∃ oo, w'.obj ow = some oo) : CacheOk steps w' o :=
  ⟨h.steps, h.notNan, h.unset, fun ow k hk => ⟨hw ow k hk (h.set ow k hk).1, (h.set ow k hk).2⟩⟩

/-- The times asked for are numbers or infinity, and not negative. -/
def Op.Ok : Op → Prop
  | .query _ t => le (.fin 0) t
  | _ => True

/-- One operation keeps the invariant; the answer is the one that depends on trajectory and time alone. -/
theorem step_inv {steps : List Timed} (hu : Usable steps) {cloned : List Nat} {w : World} (h : Inv steps cloned w) {op : Op} (hop : op.Ok)
    (hd : ∀ i, op = .destroy i → i ∉ cloned) :
    ∃ w' a, op.run w = .ok (w', a) ∧ Inv steps (match op with | .clone i => i :: cloned | _ => cloned) w' ∧
      (∀ i t, op = .query i t → ∀ o, w.obj i = some o → ∃ x, a = some x ∧ Answer steps t x) := by
  cases op with
  | query i t =>
    unfold Op.run
    dsimp only
    cases ho : w.obj i with
    | none => exact ⟨w, none, rfl, h, by intro j s hj o ho'; cases hj; rw [ho] at ho'; cases ho'⟩
    | some o =>
      obtain ⟨o', a, h1, h2, h3, h4⟩ := query_spec hu ho (fun j oo hj => (h.same j oo hj).steps) (h.same i o ho) hop
      dsimp only
      rw [h1]
      have hlt := obj_lt ho
      have hlive : ∀ ow, (∃ oo, w.obj ow = some oo) → ∃ oo, World.obj (w.set i (some o')) ow = some oo := by
        rintro ow ⟨oo, hoo⟩
        rw [obj_set hlt]
        split_ifs
        · exact ⟨o', rfl⟩
        · exact ⟨oo, hoo⟩
      refine ⟨_, _, rfl, ⟨?_, ?_⟩, ?_⟩
      · intro j oj hj
        rw [obj_set hlt] at hj
        split_ifs at hj with hij
        · cases hj
          exact h3.mono fun ow k _ => hlive ow
        · exact (h.same j oj hj).mono fun ow k _ => hlive ow
      · intro j oj ow k hj hk
        rw [obj_set hlt] at hj
        split_ifs at hj with hij
        · cases hj
          subst hij
          rcases h4 with rfl | ⟨ow', h5, k', h6⟩
          · exact h.owner i o' ow k ho hk
          · rw [h6] at hk
            cases hk
            rcases h5 with rfl | ⟨k0, h5⟩
            · exact Or.inl rfl
            · exact h.owner i o _ _ ho h5
        · exact h.owner j oj ow k hj hk
      · intro j s hj o2 ho2
        cases hj
        exact ⟨a, rfl, h2⟩
  | clone i =>
    unfold Op.run
    dsimp only
    cases ho : w.obj i with
    | none =>
      refine ⟨w, none, rfl, ⟨h.same, fun j o ow k hj hk => ?_⟩, by intro j s hj; cases hj⟩
      rcases h.owner j o ow k hj hk with h' | h'
      · exact Or.inl h'
      · exact Or.inr (List.mem_cons_of_mem _ h')
    | some o =>
      have hlive : ∀ ow, (∃ oo, w.obj ow = some oo) → ∃ oo, World.obj (w ++ [some o]) ow = some oo := by
        rintro ow ⟨oo, hoo⟩
        have := obj_lt hoo
        rw [obj_append, if_neg (by omega)]
        exact ⟨oo, hoo⟩
      refine ⟨_, _, rfl, ⟨?_, ?_⟩, by intro j s hj; cases hj⟩
      · intro j oj hj
        rw [obj_append] at hj
        split_ifs at hj with hij
        · cases hj
          exact (h.same i o ho).mono fun ow k _ => hlive ow
        · exact (h.same j oj hj).mono fun ow k _ => hlive ow
      · intro j oj ow k hj hk
        rw [obj_append] at hj
        split_ifs at hj with hij
        · cases hj
          rcases h.owner i o ow k ho hk with rfl | h'
          · exact Or.inr List.mem_cons_self
          · exact Or.inr (List.mem_cons_of_mem _ h')
        · rcases h.owner j oj ow k hj hk with h' | h'
          · exact Or.inl h'
          · exact Or.inr (List.mem_cons_of_mem _ h')
  | destroy i =>
    have hni := hd i rfl
    unfold Op.run
    refine ⟨_, _, rfl, ?_, by intro j s hj; cases hj⟩
    by_cases hlt : i < w.length
    · refine ⟨?_, ?_⟩
      · intro j oj hj
        rw [obj_set hlt] at hj
        split_ifs at hj with hij
        refine (h.same j oj hj).mono ?_
        rintro ow k hk ⟨oo, hoo⟩
        rw [obj_set hlt, if_neg]
        · exact ⟨oo, hoo⟩
        · rintro rfl
          rcases h.owner j oj i k hj hk with h' | h'
          · exact hij h'
          · exact hni h'
      · intro j oj ow k hj hk
        rw [obj_set hlt] at hj
        split_ifs at hj with hij
        exact h.owner j oj ow k hj hk
    · rw [List.set_eq_of_length_le (by omega)]
      exact h

theorem runOps_inv {steps : List Timed} (hu : Usable steps) : ∀ (ops : List Op) (cloned : List Nat) (w : World), Inv steps cloned w →
    (∀ op ∈ ops, op.Ok) → (∀ i, .destroy i ∈ ops → .clone i ∉ ops ∧ i ∉ cloned) →
    ∃ w' cloned', runOps w ops = .ok w' ∧ Inv steps cloned' w'
  | [], cloned, w, h, _, _ => ⟨w, cloned, rfl, h⟩
  | op :: ops, cloned, w, h, hok, hd => by
    obtain ⟨w', a, h1, h2, _⟩ := step_inv hu h (hok op List.mem_cons_self) (by
      rintro i rfl
      exact (hd i List.mem_cons_self).2)
    unfold runOps
    rw [h1]
    refine runOps_inv hu ops _ w' h2 (fun op hop => hok op (List.mem_cons_of_mem _ hop)) ?_
    intro i hi
    obtain ⟨g1, g2⟩ := hd i (List.mem_cons_of_mem _ hi)
    refine ⟨fun hc => g1 (List.mem_cons_of_mem _ hc), ?_⟩
    cases op with
    | clone j =>
      intro hc
      rcases List.mem_cons.mp hc with rfl | hc
      · exact g1 List.mem_cons_self
      · exact g2 hc
    | query j t => exact g2
    | destroy j => exact g2

theorem inv_fresh {steps : List Timed} : Inv steps [] [some (fresh steps)] := by
  have h : ∀ j o, World.obj [some (fresh steps)] j = some o → o = fresh steps := by
    intro j o hj
    have := obj_lt hj
    simp at this
    subst this
    simpa [World.obj] using hj.symm
  refine ⟨fun j o hj => ?_, fun j o ow k hj hk => ?_⟩
  · rw [h j o hj]
    exact ⟨rfl, by simp [fresh], fun _ => rfl, fun ow k hk => by simp [fresh] at hk⟩
  · rw [h j o hj] at hk
    simp [fresh] at hk

/-- C79, proved part. In every history of queries, clones and destructions in which no object is destroyed that was cloned before or is
cloned later, nothing is undefined, and a query at a time that is not negative gives the answer that depends on trajectory and time alone (not on
earlier queries, nor on the object that is asked). Missing: destruction of the original of a clone, see `C79_clone_false`. -/
theorem C79_history_independent_partial {steps : List Timed} (hu : Usable steps) (ops : List Op) (hok : ∀ op ∈ ops, op.Ok)
    (hd : ∀ i, .destroy i ∈ ops → .clone i ∉ ops) :
    ∃ w, runOps [some (fresh steps)] ops = .ok w ∧
      ∀ i o t, w.obj i = some o → le (.fin 0) t → ∃ w' a, (Op.query i t).run w = .ok (w', some a) ∧ Answer steps t a := by
  obtain ⟨w, cl, h1, h2⟩ := runOps_inv hu ops [] _ inv_fresh hok (fun i hi => ⟨hd i hi, by simp⟩)
  refine ⟨w, h1, fun i o t ho ht => ?_⟩
  obtain ⟨w', a, h3, _, h5⟩ := step_inv hu h2 (op := .query i t) ht (by intro j hj; cases hj)
  obtain ⟨x, rfl, hx⟩ := h5 i t rfl o ho
  exact ⟨w', x, h3, hx⟩

/-- C79. Asking for a negative time is undefined, whatever was asked before: the step before the first one is looked at before the time is
rejected. -/
theorem C79_negative_time_false {steps : List Timed} (hu : Usable steps) {T : ℝ} (hT : ∃ s, steps.getLast? = some s ∧ s.time = .fin T) (h0 : 0 ≤ T)
    {t : ℝ} (ht : t < 0) : ask [some (fresh steps)] 0 (fresh steps) (.fin t) = .ub := by
  obtain ⟨s, h1, h2⟩ := hT
  obtain ⟨s0, rest, rfl⟩ : ∃ s0 rest, steps = s0 :: rest := by
    cases steps with
    | nil => simp at h1
    | cons a b => exact ⟨a, b, rfl⟩
  have hz := hu.zero s0 rfl
  have hseg : getSegment [some (fresh (s0 :: rest))] 0 (fresh (s0 :: rest)) (.fin t) =
      .ok (⟨s0 :: rest, .fin t, some (0, 0)⟩, s0 :: rest, 0) := by
    unfold getSegment
    rw [show (fresh (s0 :: rest)).steps = s0 :: rest from rfl, h1]
    dsimp only
    rw [if_neg (by rw [h2, le_fin]; linarith), if_pos (show lt (.fin t) (fresh (s0 :: rest)).cachedTime from lt_trans ht dblMax_pos)]
    dsimp only
    rw [show World.obj [some (fresh (s0 :: rest))] 0 = some (fresh (s0 :: rest)) from rfl]
    dsimp only
    rw [show (fresh (s0 :: rest)).steps = s0 :: rest from rfl, List.drop_zero]
    unfold scan
    rw [if_neg (by rw [hz, le_fin]; linarith)]
    rfl
  unfold ask getPositionVelocity
  rw [hseg]
  rfl

/-- A trajectory of two steps: from 0 to 1 in two seconds. -/
noncomputable def twoSteps : List Timed := [⟨⟨0, 0⟩, .fin 0⟩, ⟨⟨1, 1⟩, .fin 2⟩]

theorem twoSteps_eq : timing [⟨0, 0⟩, ⟨1, 1⟩] = twoSteps := by
  simp only [timing, timingLoop, nextTime, twoSteps]
  rw [div_fin (by norm_num), add_fin]
  norm_num

theorem twoSteps_usable : Usable twoSteps := by
  refine ⟨by simp [twoSteps], fun s hs => by simp [twoSteps] at hs; rw [← hs], ⟨⟨⟨1, 1⟩, .fin 2⟩, 2, rfl, rfl, le_trans (by norm_num) dblMax_big⟩⟩

/-- C79 is false with the destruction of an original: query it, clone it, destroy it, and ask the clone for the same time. The clone's cached
iterator points into the steps of the destroyed object. -/
theorem C79_clone_false :
    runOps [some (fresh twoSteps)] [.query 0 (.fin 1), .clone 0, .destroy 0, .query 1 (.fin 1)] = .ub := by
  have hlast : twoSteps.getLast? = some ⟨⟨1, 1⟩, .fin 2⟩ := rfl
  have e1 : getSegment [some (fresh twoSteps)] 0 (fresh twoSteps) (.fin 1) = .ok (⟨twoSteps, .fin 1, some (0, 1)⟩, twoSteps, 1) := by
    unfold getSegment
    rw [show (fresh twoSteps).steps = twoSteps from rfl, hlast]
    dsimp only
    rw [if_neg (by rw [le_fin]; norm_num), if_pos (show lt (.fin 1) (fresh twoSteps).cachedTime from lt_of_lt_of_le (by norm_num) dblMax_big)]
    dsimp only
    rw [show World.obj [some (fresh twoSteps)] 0 = some (fresh twoSteps) from rfl]
    dsimp only
    rw [show (fresh twoSteps).steps = twoSteps from rfl, List.drop_zero]
    unfold twoSteps scan scan
    rw [if_pos (by rw [le_fin]; norm_num), if_neg (by rw [le_fin]; norm_num)]
    rfl
  have e2 : ∃ a, ask [some (fresh twoSteps)] 0 (fresh twoSteps) (.fin 1) = .ok (⟨twoSteps, .fin 1, some (0, 1)⟩, a) := by
    unfold ask getPositionVelocity
    rw [e1]
    refine ⟨evalBetween ⟨⟨0, 0⟩, .fin 0⟩ ⟨⟨1, 1⟩, .fin 2⟩ (.fin 1), ?_⟩
    simp only [Res.ok_bind]
    rw [if_neg (by norm_num), show atRaw twoSteps 1 = .ok ⟨⟨1, 1⟩, .fin 2⟩ from rfl, show atRaw twoSteps (1 - 1) = .ok ⟨⟨0, 0⟩, .fin 0⟩ from rfl]
    simp only [Res.ok_bind]
    rw [if_neg (by rw [lt_fin]; norm_num)]
  obtain ⟨a, e2⟩ := e2
  have r1 : (Op.query 0 (.fin 1)).run [some (fresh twoSteps)] = .ok ([some ⟨twoSteps, .fin 1, some (0, 1)⟩], some a) := by
    unfold Op.run
    dsimp only
    rw [show World.obj [some (fresh twoSteps)] 0 = some (fresh twoSteps) from rfl]
    dsimp only
    rw [e2]
    rfl
  unfold runOps
  rw [r1]
  simp only [Res.ok_bind]
  unfold runOps
  rw [show (Op.clone 0).run [some ⟨twoSteps, .fin 1, some (0, 1)⟩] =
    .ok ([some ⟨twoSteps, .fin 1, some (0, 1)⟩, some ⟨twoSteps, .fin 1, some (0, 1)⟩], none) from rfl]
  simp only [Res.ok_bind]
  unfold runOps
  rw [show (Op.destroy 0).run [some ⟨twoSteps, .fin 1, some (0, 1)⟩, some ⟨twoSteps, .fin 1, some (0, 1)⟩] =
    .ok ([none, some ⟨twoSteps, .fin 1, some (0, 1)⟩], none) from rfl]
  simp only [Res.ok_bind]
  unfold runOps
  have e3 : getSegment [none, some ⟨twoSteps, .fin 1, some (0, 1)⟩] 1 ⟨twoSteps, .fin 1, some (0, 1)⟩ (.fin 1) = .ub := by
    unfold getSegment
    dsimp only
    rw [hlast]
    dsimp only
    rw [if_neg (by rw [le_fin]; norm_num), if_neg (by rw [lt_fin]; norm_num)]
    rfl
  have r2 : (Op.query 1 (.fin 1)).run [none, some ⟨twoSteps, .fin 1, some (0, 1)⟩] = .ub := by
    unfold Op.run
    dsimp only
    rw [show World.obj [none, some ⟨twoSteps, .fin 1, some (0, 1)⟩] 1 = some ⟨twoSteps, .fin 1, some (0, 1)⟩ from rfl]
    dsimp only
    unfold ask getPositionVelocity
    rw [e3]
    rfl
  rw [r2]
  rfl

/-- The hypotheses of the theorems above are met: a history with queries in any order, a clone, and the destruction of the clone. -/
example : ∃ w, runOps [some (fresh twoSteps)] [.query 0 (.fin 1), .query 0 (.fin (1 / 2)), .clone 0, .query 1 .pinf, .destroy 1] = .ok w ∧
    ∀ i o t, w.obj i = some o → le (.fin 0) t → ∃ w' a, (Op.query i t).run w = .ok (w', some a) ∧ Answer twoSteps t a := by
  refine C79_history_independent_partial twoSteps_usable _ ?_ ?_
  · intro op hop
    fin_cases hop <;> simp [Op.Ok, le]
  · intro i hi hc
    simp at hi hc
    omega

example : ask [some (fresh twoSteps)] 0 (fresh twoSteps) (.fin (-1)) = .ub :=
  C79_negative_time_false twoSteps_usable ⟨_, rfl, rfl⟩ (by norm_num) (by norm_num)

end CRU.Totp
