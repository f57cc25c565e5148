import Verif.Totp.Query
import Verif.Totp.PathSwitch
/-
  C80: the state of a trajectory between its steps (time_optimal_trajectory_parametrization.cpp:567-578, 1091-1139), in exact arithmetic.
-/
namespace CRU.Totp
open Ext

variable {n : Nat}

/-! ### Specification -/

/-- From each step to the next the position advances, and the path velocities are not negative and not both zero. -/
def Advancing (steps : List Step) : Prop :=
  steps.IsChain (fun a b => a.pos < b.pos ∧ 0 ≤ a.vel ∧ 0 ≤ b.vel ∧ 0 < a.vel + b.vel)

/-- `a` and `b` are consecutive steps. -/
def Consecutive {α : Type} (l : List α) (a b : α) : Prop := ∃ pre post, l = pre ++ a :: b :: post

/-- The constant acceleration that leads from one step to the next. -/
noncomputable def stretchAcceleration (a b : Step) : ℝ := (b.vel ^ 2 - a.vel ^ 2) / (2 * (b.pos - a.pos))

/-! ### Proofs: one stretch -/

/-- The time from one step to the next. -/
noncomputable def stretchTime (a b : Step) : ℝ := (b.pos - a.pos) / ((b.vel + a.vel) / 2)

/-- A step with a time that is a number. -/
structure RT extends Step where
  time : ℝ

def RT.timed (r : RT) : Timed := ⟨r.toStep, .fin r.time⟩

noncomputable def quadPos (a b : RT) (t : ℝ) : ℝ :=
  a.pos + (t - a.time) * a.vel + 1 / 2 * (t - a.time) * (t - a.time) * stretchAcceleration a.toStep b.toStep

noncomputable def quadVel (a b : RT) (t : ℝ) : ℝ := a.vel + (t - a.time) * stretchAcceleration a.toStep b.toStep

/-- Two timed steps in succession. -/
def Succ (a b : RT) : Prop := a.pos ≠ b.pos ∧ 0 < a.vel + b.vel ∧ b.time = a.time + stretchTime a.toStep b.toStep

/-- The same, possibly at one place. -/
def Succ0 (a b : RT) : Prop := 0 < a.vel + b.vel ∧ b.time = a.time + stretchTime a.toStep b.toStep

theorem Succ0.succ {a b : RT} (h : Succ0 a b) (ht : a.time < b.time) : Succ a b ∧ a.pos < b.pos := by
  have h1 : 0 < stretchTime a.toStep b.toStep := by linarith [h.2]
  have h2 : a.pos < b.pos := by
    by_contra hc
    have : stretchTime a.toStep b.toStep ≤ 0 :=
      div_nonpos_of_nonpos_of_nonneg (by linarith [not_lt.mp hc]) (by linarith [h.1])
    linarith
  exact ⟨⟨h2.ne, h.1, h.2⟩, h2⟩

theorem Succ.dt {a b : RT} (h : Succ a b) : b.time - a.time = (b.pos - a.pos) / ((b.vel + a.vel) / 2) := by
  rw [h.2.2, stretchTime]; ring

theorem Succ.dt_ne {a b : RT} (h : Succ a b) : b.time - a.time ≠ 0 := by
  rw [h.dt]
  have := h.2.1
  exact div_ne_zero (sub_ne_zero.mpr h.1.symm) (by linarith)

theorem Succ.eval {a b : RT} (h : Succ a b) (t : ℝ) : evalBetween a.timed b.timed (.fin t) = (.fin (quadPos a b t), .fin (quadVel a b t)) := by
  have hd := h.dt_ne
  have hs := h.2.1
  have hp : b.pos - a.pos ≠ 0 := sub_ne_zero.mpr h.1.symm
  have hacc : 2 * (b.pos - a.pos - (b.time - a.time) * a.vel) / ((b.time - a.time) * (b.time - a.time)) =
      stretchAcceleration a.toStep b.toStep := by
    rw [h.dt, stretchAcceleration]
    have hv : b.vel + a.vel ≠ 0 := by linarith
    field_simp
    ring
  unfold evalBetween RT.timed
  simp only [sub_fin, mul_fin]
  rw [div_fin (mul_ne_zero hd hd)]
  simp only [add_fin, mul_fin, hacc]
  rfl

theorem Succ.acc_eq {a b : RT} (h : Succ a b) : (b.time - a.time) * stretchAcceleration a.toStep b.toStep = b.vel - a.vel := by
  have hs := h.2.1
  have hp : b.pos - a.pos ≠ 0 := sub_ne_zero.mpr h.1.symm
  rw [h.dt, stretchAcceleration]
  have hv : b.vel + a.vel ≠ 0 := by linarith
  field_simp
  ring

theorem quadVel_end {a b : RT} (h : Succ a b) : quadVel a b b.time = b.vel := by
  rw [quadVel, h.acc_eq]; ring

theorem quadPos_end {a b : RT} (h : Succ a b) : quadPos a b b.time = b.pos := by
  have h1 := h.acc_eq
  have h2 : (b.time - a.time) * (b.vel + a.vel) = 2 * (b.pos - a.pos) := by
    rw [h.dt]
    have hv : b.vel + a.vel ≠ 0 := by have := h.2.1; linarith
    field_simp
  rw [quadPos, mul_assoc (1 / 2 * (b.time - a.time)), h1]
  linarith

theorem quadPos_start (a b : RT) : quadPos a b a.time = a.pos := by simp [quadPos]
theorem quadVel_start (a b : RT) : quadVel a b a.time = a.vel := by simp [quadVel]

theorem quadPos_deriv (a b : RT) (t : ℝ) : HasDerivAt (quadPos a b) (quadVel a b t) t := by
  have h1 : HasDerivAt (fun t : ℝ => t - a.time) 1 t := (hasDerivAt_id t).sub_const _
  have h2 := ((h1.mul_const a.vel).const_add a.pos).add ((((h1.const_mul (1 / 2)).mul h1)).mul_const (stretchAcceleration a.toStep b.toStep))
  refine h2.congr_deriv ?_
  unfold quadVel
  ring

theorem quadVel_deriv (a b : RT) (t : ℝ) : HasDerivAt (quadVel a b) (stretchAcceleration a.toStep b.toStep) t := by
  have h1 : HasDerivAt (fun t : ℝ => t - a.time) 1 t := (hasDerivAt_id t).sub_const _
  have := (h1.mul_const (stretchAcceleration a.toStep b.toStep)).const_add a.vel
  exact this.congr_deriv (one_mul _)

/-- Between the two times the velocity is between the two velocities. -/
theorem quadVel_between {a b : RT} (h : Succ a b) {t : ℝ} (h0 : a.time ≤ t) (h1 : t ≤ b.time) :
    min a.vel b.vel ≤ quadVel a b t ∧ quadVel a b t ≤ max a.vel b.vel := by
  have hlt : 0 < b.time - a.time := lt_of_le_of_ne (by linarith) h.dt_ne.symm
  have hacc := h.acc_eq
  have e : quadVel a b t = a.vel + (t - a.time) / (b.time - a.time) * (b.vel - a.vel) := by
    rw [quadVel, ← hacc]
    field_simp
  have r0 : 0 ≤ (t - a.time) / (b.time - a.time) := div_nonneg (by linarith) hlt.le
  have r1 : (t - a.time) / (b.time - a.time) ≤ 1 := by rw [div_le_one hlt]; linarith
  rw [e]
  generalize (t - a.time) / (b.time - a.time) = r at r0 r1
  constructor
  · rcases le_total a.vel b.vel with hc | hc
    · rw [min_eq_left hc]; nlinarith
    · rw [min_eq_right hc]; nlinarith
  · rcases le_total a.vel b.vel with hc | hc
    · rw [max_eq_right hc]; nlinarith
    · rw [max_eq_left hc]; nlinarith

/-! ### The list of steps with times -/

noncomputable def rtLoop : RT → List Step → List RT
  | _, [] => []
  | prev, s :: ss =>
    let t : RT := ⟨s, prev.time + stretchTime prev.toStep s⟩
    t :: rtLoop t ss

/-- Of two consecutive steps, one has some velocity. -/
def Moving (steps : List Step) : Prop := steps.IsChain (fun a b => 0 < a.vel + b.vel)

theorem Advancing.moving {steps : List Step} (h : Advancing steps) : Moving steps :=
  List.IsChain.imp (fun _ _ h => h.2.2.2) h

theorem timingLoop_rt : ∀ (ss : List Step) (prev : RT), Moving (prev.toStep :: ss) → timingLoop prev.timed ss = (rtLoop prev ss).map RT.timed
  | [], _, _ => rfl
  | s :: ss, prev, h => by
    have h' := List.isChain_cons_cons.mp h
    have hs := h'.1
    have e : nextTime prev.timed s = .fin (prev.time + stretchTime prev.toStep s) := by
      unfold nextTime RT.timed stretchTime
      rw [div_fin (by dsimp only; linarith), add_fin]
    simp only [timingLoop, rtLoop, List.map_cons, e]
    have := timingLoop_rt ss ⟨s, prev.time + stretchTime prev.toStep s⟩ h'.2
    rw [← this]
    rfl

theorem rtLoop_chain : ∀ (ss : List Step) (prev : RT), Moving (prev.toStep :: ss) → (prev :: rtLoop prev ss).IsChain Succ0
  | [], _, _ => List.isChain_singleton _
  | s :: ss, prev, h => by
    have h' := List.isChain_cons_cons.mp h
    rw [rtLoop]
    exact List.isChain_cons_cons.mpr ⟨⟨h'.1, rfl⟩, rtLoop_chain ss ⟨s, prev.time + stretchTime prev.toStep s⟩ h'.2⟩

theorem rtLoop_steps : ∀ (ss : List Step) (prev : RT), (rtLoop prev ss).map RT.toStep = ss
  | [], _ => rfl
  | s :: ss, prev => by simp [rtLoop, rtLoop_steps ss]

/-- The steps with their times. -/
theorem timing_rt {s : Step} {ss : List Step} (h : Moving (s :: ss)) : ∃ l : List RT,
    timing (s :: ss) = (⟨s, 0⟩ :: l).map RT.timed ∧ l.map RT.toStep = ss ∧ ((⟨s, 0⟩ : RT) :: l).IsChain Succ0 := by
  refine ⟨rtLoop ⟨s, 0⟩ ss, ?_, rtLoop_steps _ _, rtLoop_chain ss ⟨s, 0⟩ h⟩
  rw [timing, List.map_cons]
  congr 1
  exact timingLoop_rt ss ⟨s, 0⟩ h

theorem isChain_get {α : Type} {R : α → α → Prop} {l : List α} (h : l.IsChain R) {k : Nat} {a b : α} (ha : l[k]? = some a) (hb : l[k + 1]? = some b) :
    R a b := by
  rw [List.isChain_iff_getElem] at h
  obtain ⟨h1, rfl⟩ := List.getElem?_eq_some_iff.mp ha
  obtain ⟨h2, rfl⟩ := List.getElem?_eq_some_iff.mp hb
  exact h k h2

theorem consecutive_get {α : Type} {l : List α} {k : Nat} {a b : α} (ha : l[k]? = some a) (hb : l[k + 1]? = some b) : Consecutive l a b := by
  obtain ⟨h1, rfl⟩ := List.getElem?_eq_some_iff.mp ha
  obtain ⟨h2, rfl⟩ := List.getElem?_eq_some_iff.mp hb
  refine ⟨l.take k, l.drop (k + 2), ?_⟩
  rw [← List.drop_eq_getElem_cons h2, ← List.drop_eq_getElem_cons h1, List.take_append_drop]

theorem Consecutive.map {α β : Type} (f : α → β) {l : List α} {a b : α} (h : Consecutive l a b) : Consecutive (l.map f) (f a) (f b) := by
  obtain ⟨pre, post, rfl⟩ := h
  exact ⟨pre.map f, post.map f, by simp⟩

/-- C80 (no assumption on the order of positions). Before the end, the trajectory is on a stretch between two consecutive steps: there the path
position and velocity are those of a motion with the constant acceleration that leads from one step to the other, the velocity is between
those of the two steps, and is the derivative of the position. -/
theorem C80_between_steps {steps : List Step} (h : Moving steps) {last : Timed} {T t : ℝ} (hl : (timing steps).getLast? = some last)
    (hT : last.time = .fin T) (h0 : 0 ≤ t) (h1 : t < T) :
    ∃ a b S V, Consecutive steps a b ∧ a.pos < b.pos ∧ Answer (timing steps) (.fin t) (.fin (S t), .fin (V t)) ∧
      min a.vel b.vel ≤ V t ∧ V t ≤ max a.vel b.vel ∧ (∀ u, HasDerivAt S (V u) u ∧ HasDerivAt V (stretchAcceleration a b) u) ∧
      ∃ e, t < e ∧ ∀ u, t ≤ u → u < e → Answer (timing steps) (.fin u) (.fin (S u), .fin (V u)) := by
  cases steps with
  | nil => simp [timing] at hl
  | cons s ss =>
    obtain ⟨l, e1, e2, e3⟩ := timing_rt h
    rw [e1] at hl ⊢
    generalize hL : ((⟨s, 0⟩ : RT) :: l) = L at *
    have hhead : L[0]? = some ⟨s, 0⟩ := by rw [← hL]; rfl
    -- the first step that is not over
    rw [List.getLast?_map, Option.map_eq_some_iff] at hl
    obtain ⟨lr, hlr, hlt⟩ := hl
    have hlT : lr.time = T := by
      rw [← hlt] at hT
      have : Ext.fin lr.time = .fin T := hT
      injection this
    have hex : ∃ k : Nat, ∃ x : RT, L[k]? = some x ∧ t < x.time := by
      rw [List.getLast?_eq_getElem?] at hlr
      exact ⟨_, lr, hlr, by rw [hlT]; exact h1⟩
    classical
    obtain ⟨x, hx, hxt⟩ := Nat.find_spec hex
    have hmin : ∀ j y, j < Nat.find hex → L[j]? = some y → y.time ≤ t := by
      intro j y hj hy
      have := Nat.find_min hex hj
      push Not at this
      exact this y hy
    generalize Nat.find hex = k at *
    cases k with
    | zero =>
      rw [hhead] at hx
      cases hx
      exact absurd hxt (not_lt.mpr h0)
    | succ k =>
      obtain ⟨hk1, -⟩ := List.getElem?_eq_some_iff.mp hx
      have ha : L[k]? = some L[k] := List.getElem?_eq_getElem (by omega)
      have hat := hmin k _ (by omega) ha
      obtain ⟨hs, hpos⟩ := (isChain_get e3 ha hx).succ (lt_of_le_of_lt hat hxt)
      obtain ⟨hb1, hb2⟩ := quadVel_between hs hat hxt.le
      have hans : ∀ u, t ≤ u → u < min x.time T → Answer (L.map RT.timed) (.fin u) (.fin (quadPos L[k] x u), .fin (quadVel L[k] x u)) := by
        intro u h3 h4
        have h4' := lt_min_iff.mp h4
        refine ⟨k, L[k].timed, x.timed, ?_, by rw [List.getElem?_map, ha]; rfl, by rw [List.getElem?_map, hx]; rfl, (hs.eval u).symm⟩
        refine .inr ⟨?_, by simpa using hk1, ?_, ?_⟩
        · intro lst hlst
          rw [List.getLast?_map, hlr, Option.map_some, Option.some_inj] at hlst
          rw [← hlst]
          show ¬ lr.time ≤ u
          rw [hlT]; linarith [h4'.2]
        · intro y hy
          rw [List.getElem?_map, hx, Option.map_some, Option.some_inj] at hy
          rw [← hy]
          show ¬ x.time ≤ u
          linarith [h4'.1]
        · intro j y hj hy
          rw [List.getElem?_map, Option.map_eq_some_iff] at hy
          obtain ⟨z, hz, rfl⟩ := hy
          exact le_trans (hmin j z hj hz) h3
      refine ⟨L[k].toStep, x.toStep, quadPos L[k] x, quadVel L[k] x, ?_, hpos, hans t (le_refl _) (lt_min hxt h1), hb1, hb2,
        fun u => ⟨quadPos_deriv _ _ u, quadVel_deriv _ _ u⟩, min x.time T, lt_min hxt h1, hans⟩
      have := (consecutive_get ha hx).map RT.toStep
      have hm : L.map RT.toStep = s :: ss := by rw [← hL, List.map_cons, e2]
      rwa [hm] at this

/-! ### Advancing steps -/

/-- A function given stretch by stretch. -/
noncomputable def profile (f : RT → RT → ℝ → ℝ) : RT → List RT → ℝ → ℝ
  | _, [], _ => 0
  | a, [b], t => f a b t
  | a, b :: c :: rest, t => open Classical in if b.time ≤ t then profile f b (c :: rest) t else f a b t

def Adv (a b : RT) : Prop := Succ a b ∧ a.time < b.time ∧ a.pos < b.pos ∧ 0 ≤ a.vel ∧ 0 ≤ b.vel

theorem adv_chain {s : Step} {ss : List Step} (h : Advancing (s :: ss)) {l : List RT} (e2 : l.map RT.toStep = ss)
    (e3 : ((⟨s, 0⟩ : RT) :: l).IsChain Succ0) : ((⟨s, 0⟩ : RT) :: l).IsChain Adv := by
  have h' : (((⟨s, 0⟩ : RT) :: l).map RT.toStep).IsChain (fun a b => a.pos < b.pos ∧ 0 ≤ a.vel ∧ 0 ≤ b.vel ∧ 0 < a.vel + b.vel) := by
    rw [List.map_cons, e2]; exact h
  rw [List.isChain_map] at h'
  rw [List.isChain_iff_getElem] at h' e3 ⊢
  intro i hi
  have h1 := h' i hi
  have h2 := e3 i hi
  have h3 : Succ ((⟨s, 0⟩ : RT) :: l)[i] ((⟨s, 0⟩ : RT) :: l)[i + 1] := ⟨h1.1.ne, h2.1, h2.2⟩
  refine ⟨h3, ?_, h1.1, h1.2.1, h1.2.2.1⟩
  have := h3.dt
  have : 0 < (((⟨s, 0⟩ : RT) :: l)[i + 1].pos - ((⟨s, 0⟩ : RT) :: l)[i].pos) / ((((⟨s, 0⟩ : RT) :: l)[i + 1].vel + ((⟨s, 0⟩ : RT) :: l)[i].vel) / 2) :=
    div_pos (by linarith [h1.1]) (by linarith [h1.2.2.2])
  linarith

theorem profile_start (f : RT → RT → ℝ → ℝ) {a b : RT} {l : List RT} (h : (a :: b :: l).IsChain Adv) : profile f a (b :: l) a.time = f a b a.time := by
  have hlt := (List.isChain_cons_cons.mp h).1.2.1
  cases l with
  | nil => rfl
  | cons c l => rw [profile, if_neg (not_le.mpr hlt)]

theorem profile_deriv : ∀ (l : List RT) (a b : RT), (a :: b :: l).IsChain Adv → ∀ t,
    HasDerivAt (profile quadPos a (b :: l)) (profile quadVel a (b :: l) t) t
  | [], a, b, h, t => quadPos_deriv a b t
  | c :: l, a, b, h, t => by
    have h' := List.isChain_cons_cons.mp h
    have ih := profile_deriv l b c h'.2
    have hbc := (List.isChain_cons_cons.mp h'.2).1.2.1
    rcases lt_trichotomy t b.time with hlt | heq | hgt
    · have e : profile quadVel a (b :: c :: l) t = quadVel a b t := by rw [profile, if_neg (not_le.mpr hlt)]
      rw [e]
      refine (quadPos_deriv a b t).congr_of_eventuallyEq ?_
      filter_upwards [Iio_mem_nhds hlt] with u hu
      rw [profile, if_neg (not_le.mpr hu)]
    · subst heq
      have e : profile quadVel a (b :: c :: l) b.time = b.vel := by
        rw [profile, if_pos (le_refl _), profile_start _ h'.2, quadVel_start]
      rw [e]
      have hr : HasDerivWithinAt (profile quadPos a (b :: c :: l)) b.vel (Set.Ici b.time) b.time := by
        have h1 := (ih b.time).hasDerivWithinAt (s := Set.Ici b.time)
        rw [profile_start _ h'.2, quadVel_start] at h1
        refine h1.congr (fun u hu => ?_) ?_
        · rw [profile, if_pos (Set.mem_Ici.mp hu)]
        · rw [profile, if_pos (le_refl _)]
      have hl : HasDerivWithinAt (profile quadPos a (b :: c :: l)) b.vel (Set.Iic b.time) b.time := by
        have h1 := (quadPos_deriv a b b.time).hasDerivWithinAt (s := Set.Iic b.time)
        rw [quadVel_end h'.1.1] at h1
        have hb : profile quadPos a (b :: c :: l) b.time = quadPos a b b.time := by
          rw [profile, if_pos (le_refl _), profile_start _ h'.2, quadPos_start, quadPos_end h'.1.1]
        refine h1.congr (fun u hu => ?_) hb
        rcases (Set.mem_Iic.mp hu).eq_or_lt with rfl | hlt
        · exact hb
        · rw [profile, if_neg (not_le.mpr hlt)]
      have := hl.union hr
      rw [Set.Iic_union_Ici] at this
      exact this.hasDerivAt Filter.univ_mem
    · have e : profile quadVel a (b :: c :: l) t = profile quadVel b (c :: l) t := by rw [profile, if_pos hgt.le]
      rw [e]
      refine (ih t).congr_of_eventuallyEq ?_
      filter_upwards [Ioi_mem_nhds hgt] with u hu
      rw [profile, if_pos (le_of_lt hu)]

theorem profile_continuous : ∀ (l : List RT) (a b : RT), (a :: b :: l).IsChain Adv → Continuous (profile quadVel a (b :: l))
  | [], a, b, h => continuous_iff_continuousAt.mpr fun t => (quadVel_deriv a b t).continuousAt
  | c :: l, a, b, h => by
    have h' := List.isChain_cons_cons.mp h
    have ih := profile_continuous l b c h'.2
    have : profile quadVel a (b :: c :: l) = fun t => open Classical in if b.time ≤ t then profile quadVel b (c :: l) t else quadVel a b t := by
      funext t; rw [profile]
    rw [this]
    refine Continuous.if_le ih (continuous_iff_continuousAt.mpr fun t => (quadVel_deriv a b t).continuousAt) continuous_const continuous_id ?_
    intro t ht
    rw [← ht, profile_start _ h'.2, quadVel_start, quadVel_end h'.1.1]

theorem endsStretch_shift {a : Timed} {l : List Timed} {t : Ext} {k : Nat} (h : EndsStretch l t k) (hne : l ≠ []) (ha : le a.time t) :
    EndsStretch (a :: l) t (k + 1) := by
  have hg : (a :: l).getLast? = l.getLast? := by
    cases l with
    | nil => exact absurd rfl hne
    | cons b l => exact List.getLast?_cons_cons
  have hlen : l.length ≠ 0 := by simpa using hne
  rcases h with ⟨x, h1, h2, h3⟩ | ⟨h1, h2, h3, h4⟩
  · exact .inl ⟨x, by rw [hg]; exact h1, h2, by rw [List.length_cons]; omega⟩
  · refine .inr ⟨fun x hx => h1 x (by rw [← hg]; exact hx), by simpa using h2, fun s hs => h3 s (by simpa using hs), fun j s hj hs => ?_⟩
    cases j with
    | zero =>
      simp only [List.getElem?_cons_zero, Option.some_inj] at hs
      rw [← hs]; exact ha
    | succ j => exact h4 j s (by omega) (by simpa using hs)

theorem answer_shift {a : Timed} {l : List Timed} {t : Ext} {x : Ext × Ext} (h : Answer l t x) (ha : le a.time t) : Answer (a :: l) t x := by
  obtain ⟨k, p, i, h1, h2, h3, h4⟩ := h
  refine ⟨k + 1, p, i, endsStretch_shift h1 (by rintro rfl; simp at h2) ha, by simpa using h2, by simpa using h3, h4⟩

theorem profile_answer : ∀ (l : List RT) (a b : RT), (a :: b :: l).IsChain Adv → ∀ t, a.time ≤ t →
    Answer ((a :: b :: l).map RT.timed) (.fin t) (.fin (profile quadPos a (b :: l) t), .fin (profile quadVel a (b :: l) t))
  | [], a, b, h, t, ht => by
    have hs := (List.isChain_cons_cons.mp h).1
    refine ⟨0, a.timed, b.timed, ?_, rfl, rfl, (hs.1.eval t).symm⟩
    rcases le_or_gt b.time t with hc | hc
    · exact .inl ⟨b.timed, rfl, hc, rfl⟩
    · refine .inr ⟨fun x hx => ?_, by simp, fun x hx => ?_, fun j s hj hs => ?_⟩
      · cases hx; exact not_le.mpr hc
      · cases hx; exact not_le.mpr hc
      · obtain rfl : j = 0 := by omega
        cases hs; exact ht
  | c :: l, a, b, h, t, ht => by
    have h' := List.isChain_cons_cons.mp h
    rcases le_or_gt b.time t with hc | hc
    · rw [profile, if_pos hc, profile, if_pos hc, List.map_cons]
      exact answer_shift (profile_answer l b c h'.2 t hc) ht
    · rw [profile, if_neg (not_le.mpr hc), profile, if_neg (not_le.mpr hc)]
      refine ⟨0, a.timed, b.timed, ?_, rfl, rfl, (h'.1.1.eval t).symm⟩
      have hlater : ∀ x ∈ b :: c :: l, ¬ x.time ≤ t := by
        have : (a :: b :: c :: l).Pairwise (fun x y => x.time < y.time) :=
          List.isChain_iff_pairwise.mp (List.IsChain.imp (fun _ _ h => h.2.1) h)
        have h2 := (List.pairwise_cons.mp this).2
        intro x hx
        rcases List.mem_cons.mp hx with rfl | hx
        · exact not_le.mpr hc
        · have := (List.pairwise_cons.mp h2).1 x hx
          linarith
      refine .inr ⟨fun x hx => ?_, by simp, fun x hx => ?_, fun j s hj hs => ?_⟩
      · rw [List.map_cons, List.map_cons, List.getLast?_cons_cons] at hx
        have := List.mem_of_getLast? hx
        rw [← List.map_cons] at this
        obtain ⟨y, hy, rfl⟩ := List.mem_map.mp this
        exact hlater y hy
      · cases hx; exact not_le.mpr hc
      · obtain rfl : j = 0 := by omega
        cases hs; exact ht

theorem profile_at : ∀ (l : List RT) (a b : RT), (a :: b :: l).IsChain Adv → ∀ x ∈ a :: b :: l,
    profile quadPos a (b :: l) x.time = x.pos ∧ profile quadVel a (b :: l) x.time = x.vel
  | [], a, b, h, x, hx => by
    have hs := (List.isChain_cons_cons.mp h).1
    rcases List.mem_cons.mp hx with rfl | hx
    · exact ⟨quadPos_start _ _, quadVel_start _ _⟩
    · obtain rfl : x = b := by simpa using hx
      exact ⟨quadPos_end hs.1, quadVel_end hs.1⟩
  | c :: l, a, b, h, x, hx => by
    have h' := List.isChain_cons_cons.mp h
    rcases List.mem_cons.mp hx with rfl | hx
    · rw [profile_start _ h, profile_start _ h]
      exact ⟨quadPos_start _ _, quadVel_start _ _⟩
    · have hbx : b.time ≤ x.time := by
        have : (b :: c :: l).Pairwise (fun x y => x.time < y.time) :=
          List.isChain_iff_pairwise.mp (List.IsChain.imp (fun _ _ h => h.2.1) h'.2)
        rcases List.mem_cons.mp hx with rfl | hx
        · exact le_refl _
        · exact ((List.pairwise_cons.mp this).1 x hx).le
      rw [profile, if_pos hbx, profile, if_pos hbx]
      exact profile_at l b c h'.2 x hx

theorem profile_vel : ∀ (l : List RT) (a b : RT), (a :: b :: l).IsChain Adv → ∀ t, a.time ≤ t →
    (∀ x ∈ (a :: b :: l).getLast?, t ≤ x.time) → 0 ≤ profile quadVel a (b :: l) t
  | [], a, b, h, t, h0, h1 => by
    have hs := (List.isChain_cons_cons.mp h).1
    exact le_trans (le_min hs.2.2.2.1 hs.2.2.2.2) (quadVel_between hs.1 h0 (h1 b rfl)).1
  | c :: l, a, b, h, t, h0, h1 => by
    have h' := List.isChain_cons_cons.mp h
    rcases le_or_gt b.time t with hc | hc
    · rw [profile, if_pos hc]
      exact profile_vel l b c h'.2 t hc (fun x hx => h1 x (by rw [List.getLast?_cons_cons]; exact hx))
    · rw [profile, if_neg (not_le.mpr hc)]
      exact le_trans (le_min h'.1.2.2.2.1 h'.1.2.2.2.2) (quadVel_between h'.1.1 h0 hc.le).1

/-- C80. The trajectory through steps whose positions advance: the times of the steps increase from 0 to the duration, and at each of them the
trajectory is in that step; the reported path velocity is the derivative of the reported path position at every time, without jumps, and not
negative up to the duration, so that the position never goes back. -/
theorem C80_profile {s s' : Step} {ss : List Step} (h : Advancing (s :: s' :: ss)) : ∃ (times : List ℝ) (T : ℝ) (S V : ℝ → ℝ),
    times.Pairwise (· < ·) ∧ times.head? = some 0 ∧ times.getLast? = some T ∧
    (∃ last, (timing (s :: s' :: ss)).getLast? = some last ∧ last.time = .fin T) ∧
    (∀ t, 0 ≤ t → Answer (timing (s :: s' :: ss)) (.fin t) (.fin (S t), .fin (V t))) ∧
    (∀ t, HasDerivAt S (V t) t) ∧ Continuous V ∧
    List.Forall₂ (fun t x => S t = x.pos ∧ V t = x.vel) times (s :: s' :: ss) ∧
    (∀ t, 0 ≤ t → t ≤ T → 0 ≤ V t) ∧ MonotoneOn S (Set.Icc 0 T) := by
  obtain ⟨l, e1, e2, e3⟩ := timing_rt h.moving
  have hc := adv_chain h e2 e3
  cases l with
  | nil => simp at e2
  | cons b l =>
    have hpw : (((⟨s, 0⟩ : RT) :: b :: l)).Pairwise (fun x y => x.time < y.time) :=
      List.isChain_iff_pairwise.mp (List.IsChain.imp (fun _ _ h => h.2.1) hc)
    obtain ⟨x, hx⟩ : ∃ x, ((⟨s, 0⟩ : RT) :: b :: l).getLast? = some x := ⟨_, List.getLast?_eq_some_getLast (by simp)⟩
    have hv : ∀ t, 0 ≤ t → t ≤ x.time → 0 ≤ profile quadVel ⟨s, 0⟩ (b :: l) t := by
      intro t h0 h1
      exact profile_vel l _ _ hc t h0 (fun y hy => by
        rw [hx] at hy; cases hy; exact h1)
    refine ⟨((⟨s, 0⟩ : RT) :: b :: l).map RT.time, x.time, profile quadPos ⟨s, 0⟩ (b :: l), profile quadVel ⟨s, 0⟩ (b :: l), ?_, rfl, ?_, ?_, ?_,
      profile_deriv l _ _ hc, profile_continuous l _ _ hc, ?_, hv, ?_⟩
    · rw [List.pairwise_map]; exact hpw
    · rw [List.getLast?_map, hx]; rfl
    · rw [e1, List.getLast?_map, hx]; exact ⟨_, rfl, rfl⟩
    · intro t ht
      rw [e1]
      exact profile_answer l _ _ hc t ht
    · have e : s :: s' :: ss = ((⟨s, 0⟩ : RT) :: b :: l).map RT.toStep := by rw [List.map_cons, e2]
      rw [e, List.forall₂_map_left_iff, List.forall₂_map_right_iff, List.forall₂_same]
      exact profile_at l _ _ hc
    · refine monotoneOn_of_deriv_nonneg (convex_Icc _ _) ?_ ?_ ?_
      · exact fun t _ => (profile_deriv l _ _ hc t).continuousAt.continuousWithinAt
      · exact fun t _ => (profile_deriv l _ _ hc t).differentiableAt.differentiableWithinAt
      · intro t ht
        rw [interior_Icc] at ht
        rw [(profile_deriv l _ _ hc t).deriv]
        exact hv t ht.1.le ht.2.le

/-- C80. What is reported as velocity is the derivative of what is reported as position, wherever the path is smooth
(by `C77_switching_points`: away from the switching points). -/
theorem C80_velocity_is_derivative {p : Path n} {S V : ℝ → ℝ} {t : ℝ} (hS : HasDerivAt S (V t) t)
    (hsm : SmoothAt p.config p.tangent p.curvature (S t)) :
    ∃ q, p.tangent (S t) = some q ∧ HasDerivAt (fun u => (p.config (S u)).getD 0) (V t • q) t := by
  obtain ⟨T, e1, e2, -, -⟩ := hsm
  exact ⟨T, e1, e2.scomp t hS⟩

/-- A motion from rest to rest. -/
noncomputable def restToRest : List Step := [⟨0, 0⟩, ⟨1 / 2, 1⟩, ⟨1, 0⟩]

theorem restToRest_advancing : Advancing restToRest := by
  unfold Advancing restToRest
  refine List.isChain_cons_cons.mpr ⟨by norm_num, List.isChain_cons_cons.mpr ⟨by norm_num, List.isChain_singleton _⟩⟩

/-- Non-vacuity of the theorems above. -/
example : ∃ T, (∃ last, (timing restToRest).getLast? = some last ∧ last.time = .fin T) ∧ ∃ S V : ℝ → ℝ, S T = 1 ∧ V T = 0 ∧
    ∀ t, HasDerivAt S (V t) t := by
  obtain ⟨times, T, S, V, -, -, h3, h4, -, h6, -, h8, -, -⟩ := C80_profile (s := ⟨0, 0⟩) (s' := ⟨1 / 2, 1⟩) (ss := [⟨1, 0⟩]) restToRest_advancing
  obtain ⟨t0, l1, -, g1, rfl⟩ := List.forall₂_cons_right_iff.mp h8
  obtain ⟨t1, l2, -, g2, rfl⟩ := List.forall₂_cons_right_iff.mp g1
  obtain ⟨t2, l3, e, g3, rfl⟩ := List.forall₂_cons_right_iff.mp g2
  obtain rfl := List.forall₂_nil_right_iff.mp g3
  simp at h3
  subst h3
  exact ⟨_, h4, S, V, e.1, e.2, h6⟩

/-- C80 is false after the end: the trajectory does not stay there; the last deceleration goes on, and one second after the end (the duration
is 2) the motion from 0 to 1 is back at 1/2, with velocity -1. -/
theorem C80_after_end_false : timing restToRest = [⟨⟨0, 0⟩, .fin 0⟩, ⟨⟨1 / 2, 1⟩, .fin 1⟩, ⟨⟨1, 0⟩, .fin 2⟩] ∧
    Answer (timing restToRest) (.fin 3) (.fin (1 / 2), .fin (-1)) := by
  have e : timing restToRest = [⟨⟨0, 0⟩, .fin 0⟩, ⟨⟨1 / 2, 1⟩, .fin 1⟩, ⟨⟨1, 0⟩, .fin 2⟩] := by
    unfold restToRest
    simp only [timing, timingLoop, nextTime]
    rw [div_fin (by norm_num), div_fin (by norm_num), add_fin, add_fin]
    norm_num
  refine ⟨e, ?_⟩
  rw [e]
  refine ⟨1, ⟨⟨1 / 2, 1⟩, .fin 1⟩, ⟨⟨1, 0⟩, .fin 2⟩, .inl ⟨_, rfl, ?_, rfl⟩, rfl, rfl, ?_⟩
  · show (2 : ℝ) ≤ 3; norm_num
  · unfold evalBetween
    simp only [sub_fin, mul_fin]
    rw [div_fin (by norm_num)]
    simp only [add_fin, mul_fin]
    norm_num

end CRU.Totp
