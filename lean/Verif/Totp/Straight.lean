import Verif.Totp.Construct
/-
  C82: trajectories along one straight line: the limits of the joints.
-/
namespace CRU.Totp
open Ext

variable {n : Nat}

/-! ### Proofs -/

/-- At its end a trajectory whose last stretch goes forward is in its last step. -/
theorem at_end {steps : List Step} (h : Moving steps) {pre : List Step} {a b : Step} (he : steps = pre ++ [a, b]) (hab : a.pos < b.pos)
    {last : Timed} {T : ℝ} (hl : (timing steps).getLast? = some last) (hT : last.time = .fin T) :
    Answer (timing steps) (.fin T) (.fin b.pos, .fin b.vel) := by
  cases steps with
  | nil => simp at he
  | cons s ss =>
    obtain ⟨l, e1, e2, e3⟩ := timing_rt h
    rw [e1] at hl ⊢
    have hL : ((⟨s, 0⟩ : RT) :: l).map RT.toStep = pre ++ [a, b] := by rw [List.map_cons, e2, he]
    generalize ((⟨s, 0⟩ : RT) :: l) = L at *
    obtain ⟨L1, L2, rfl, h1, h2⟩ := List.map_eq_append_iff.mp hL
    obtain ⟨x, L3, rfl, hx, h3⟩ := List.map_eq_cons_iff.mp h2
    obtain ⟨y, L4, rfl, hy, h4⟩ := List.map_eq_cons_iff.mp h3
    obtain rfl := List.map_eq_nil_iff.mp h4
    have hxy : Succ0 x y := (List.isChain_append_cons_cons.mp e3).2.1
    have hs : Succ x y := ⟨by rw [← hx, ← hy] at hab; exact hab.ne, hxy.1, hxy.2⟩
    have hlast : (L1 ++ [x, y]).getLast? = some y := by rw [List.getLast?_append_of_ne_nil _ (by simp)]; rfl
    rw [List.getLast?_map, hlast, Option.map_some, Option.some_inj] at hl
    have hyT : y.time = T := by
      rw [← hl] at hT
      exact Ext.fin.inj hT
    refine ⟨L1.length, x.timed, y.timed, .inl ⟨y.timed, ?_, ?_, ?_⟩, ?_, ?_, ?_⟩
    · rw [List.getLast?_map, hlast]; rfl
    · show y.time ≤ T; rw [hyT]
    · simp
    · simp
    · simp
    · rw [hs.eval, ← hyT, quadPos_end hs, quadVel_end hs, ← hy]

/-- At time 0 a trajectory whose first stretch goes forward is in its first step. -/
theorem at_start {a b : Step} {post : List Step} (h : Moving (a :: b :: post)) (hab : a.pos < b.pos)
    {last : Timed} {T : ℝ} (hl : (timing (a :: b :: post)).getLast? = some last) (hT : last.time = .fin T) (h0 : 0 < T) :
    Answer (timing (a :: b :: post)) (.fin 0) (.fin a.pos, .fin a.vel) := by
  obtain ⟨l, e1, e2, e3⟩ := timing_rt h
  obtain ⟨y, l', rfl, hy, h2⟩ := List.map_eq_cons_iff.mp e2
  rw [e1] at hl ⊢
  have hxy : Succ0 ⟨a, 0⟩ y := (List.isChain_cons_cons.mp e3).1
  have hs : Succ ⟨a, 0⟩ y := ⟨by rw [← hy] at hab; exact hab.ne, hxy.1, hxy.2⟩
  have hyt : 0 < y.time := by
    rw [hxy.2]
    have h3 : a.pos < y.pos := by rw [← hy] at hab; exact hab
    have h4 : 0 < a.vel + y.vel := hxy.1
    have : 0 < stretchTime a y.toStep := div_pos (by linarith) (by linarith)
    show (0 : ℝ) < 0 + stretchTime a y.toStep
    linarith
  refine ⟨0, (⟨a, 0⟩ : RT).timed, y.timed, .inr ⟨?_, by simp, ?_, ?_⟩, rfl, rfl, ?_⟩
  · intro x hx
    rw [hl, Option.some_inj] at hx
    rw [← hx, hT]
    show ¬ T ≤ 0
    linarith
  · intro x hx
    simp only [zero_add, List.map_cons, List.getElem?_cons_succ, List.getElem?_cons_zero, Option.some_inj] at hx
    rw [← hx]
    show ¬ y.time ≤ 0
    linarith
  · intro j x hj hx
    obtain rfl : j = 0 := by omega
    simp only [List.map_cons, List.getElem?_cons_zero, Option.some_inj] at hx
    rw [← hx]
    exact le_refl (0 : ℝ)
  · rw [hs.eval]
    have := quadPos_start ⟨a, 0⟩ y
    have := quadVel_start ⟨a, 0⟩ y
    simp_all

variable [NeZero n] {e : Setup n} {a v a0 : ℝ}

/-- How consecutive steps are related on a straight line. -/
structure Near (a v dt : ℝ) (x y : Step) : Prop where
  left : 0 ≤ x.vel
  right : 0 ≤ y.vel
  moving : 0 < x.vel + y.vel
  left_le : x.vel ≤ v + dt * a
  right_le : y.vel ≤ v + dt * a
  acc : x.pos < y.pos → |stretchAcceleration x y| ≤ a + 2 * eps / dt ^ 2

theorem acc_bound {x y : Step} {c : ℝ} (hxy : x.pos < y.pos) (h1 : y.vel ^ 2 - x.vel ^ 2 ≤ 2 * c * (y.pos - x.pos))
    (h2 : x.vel ^ 2 - y.vel ^ 2 ≤ 2 * c * (y.pos - x.pos)) : |stretchAcceleration x y| ≤ c := by
  unfold stretchAcceleration
  have hd : 0 < 2 * (y.pos - x.pos) := by linarith
  rw [abs_le]
  constructor
  · rw [le_div_iff₀ hd]; linarith
  · rw [div_le_iff₀ hd]; linarith

theorem behind_vels (h : Flat e (fun _ => a) (fun _ => v) a0) :
    ∀ (l : List Step) (m : Step), (m :: l).IsChain (fun m f => Behind (fun _ => a) e.dt m f) →
    ∀ c, m.vel ≤ c → ∀ x ∈ m :: l, x.vel ≤ c
  | [], m, _, c, hc => by simpa using hc
  | f :: l, m, hch, c, hc => by
    obtain ⟨h1, h2⟩ := List.isChain_cons_cons.mp hch
    intro x hx
    rcases List.mem_cons.mp hx with rfl | hx
    · exact hc
    · exact behind_vels h l f h2 c
        (le_trans (h1.lt h).1.le hc) x hx

theorem Made.straight (h : Flat e (fun _ => a) (fun _ => v) a0) {steps : List Step} {s2 s1 : Step} {below : List Step} {m f : Step}
    {ts : List Step} {i : Step} (hm : Made e (fun _ => a) (fun _ => v) steps s2 s1 below m f ts i) :
    steps.IsChain (Near a v e.dt) ∧ i.pos < f.pos := by
  have hdt := h.dt
  have ha : 0 < a := h.a_pos (le_refl (0 : ℝ))
  have hv : 0 < v := h.v_pos 0 (le_refl 0)
  have hda : 0 < e.dt * a := mul_pos hdt ha
  have heps := eps_pos
  have htol : 0 ≤ 2 * eps / e.dt ^ 2 := by positivity
  have h12 : Ahead (fun _ => a) (fun _ => v) e.dt s1 s2 := (List.isChain_cons_cons.mp hm.chain).1
  have hs1v : s1.vel ≤ v := hm.limit s1 List.mem_cons_self
  have hup : s1.vel ≤ s2.vel := by
    have := h12.limit
    rwa [min_eq_left hs1v] at this
  have hb : Behind (fun _ => a) e.dt m f := (List.isChain_cons_cons.mp hm.back.chain).1
  obtain ⟨sl1, sl2, sl3⟩ := hb.slope h
  obtain ⟨b1, b2, -⟩ := hb.lt h
  have hfv := hb.nonneg
  have hp12 := h12.pos
  have hσ : 0 ≤ slopeOf s1 s2 := div_nonneg (by linarith) (by linarith)
  have hleft := hm.cross.left_of (by linarith)
  have hi2 : i.pos < s2.pos := lt_of_lt_of_le hleft (min_le_left _ _)
  have hif : i.pos < f.pos := lt_of_lt_of_le hleft (min_le_right _ _)
  have on1 : i.vel = s1.vel + slopeOf s1 s2 * (i.pos - s1.pos) := hm.cross.on_start
  have on2 : i.vel = f.vel + slopeOf m f * (i.pos - f.pos) := by
    rw [hm.cross.on_back, ← lineThrough_right b2]; unfold lineThrough; ring
  have hs2e : s2.vel = s1.vel + slopeOf s1 s2 * (s2.pos - s1.pos) := (lineThrough_right hp12).symm
  have hi_f : f.vel < i.vel := by
    have := mul_pos_of_neg_of_neg sl1 (show i.pos - f.pos < 0 by linarith)
    linarith
  have hi_le : i.vel ≤ s2.vel := by
    rw [on1, hs2e]
    have := mul_le_mul_of_nonneg_left (show i.pos - s1.pos ≤ s2.pos - s1.pos by linarith) hσ
    linarith
  have hi_top : i.vel ≤ v + e.dt * a := by
    have := h12.vel_le
    linarith
  have hs1n := h12.nonneg
  refine ⟨hm.isChain ?_ ?_ ?_ ?_, hif⟩
  · -- forward
    intro s c hsc hs hc
    have hsv := hs.1
    have hcv := hc.1
    have hl := hsc.limit
    rw [min_eq_left hsv] at hl
    have h0 := hsc.nonneg
    have h1 := hsc.vel
    have hen := hsc.energy
    refine ⟨h0, h1.le, by linarith, by linarith, by linarith, fun hlt => ?_⟩
    have hd : 0 < c.pos - s.pos := by linarith
    refine le_trans (acc_bound (c := a) hlt hen ?_) (by linarith)
    have := mul_pos ha hd
    nlinarith
  · -- from the forward trajectory to the crossing
    refine ⟨hs1n, by linarith, by linarith, by linarith, hi_top, fun hlt => ?_⟩
    have hd : 0 < i.pos - s1.pos := by linarith
    have hen := h12.energy
    have hge : s1.vel ≤ i.vel := by
      rw [on1]
      have := mul_nonneg hσ hd.le
      linarith
    refine le_trans (acc_bound (c := a) hlt ?_ ?_) (by linarith)
    · -- the energy along the chord
      have hD : 0 < s2.pos - s1.pos := by linarith
      have k1 : slopeOf s1 s2 * (s2.vel + s1.vel) ≤ 2 * a := by
        have : (slopeOf s1 s2 * (s2.vel + s1.vel)) * (s2.pos - s1.pos) ≤ (2 * a) * (s2.pos - s1.pos) := by
          have e1 : (slopeOf s1 s2 * (s2.vel + s1.vel)) * (s2.pos - s1.pos) = s2.vel ^ 2 - s1.vel ^ 2 := by
            have : slopeOf s1 s2 * (s2.pos - s1.pos) = s2.vel - s1.vel := by linarith
            calc _ = (slopeOf s1 s2 * (s2.pos - s1.pos)) * (s2.vel + s1.vel) := by ring
              _ = _ := by rw [this]; ring
          rw [e1]; exact hen
        exact le_of_mul_le_mul_right this hD
      have k2 : slopeOf s1 s2 * (i.vel + s1.vel) ≤ 2 * a := by
        have := mul_le_mul_of_nonneg_left (show i.vel + s1.vel ≤ s2.vel + s1.vel by linarith) hσ
        linarith
      have e2 : i.vel ^ 2 - s1.vel ^ 2 = (slopeOf s1 s2 * (i.vel + s1.vel)) * (i.pos - s1.pos) := by
        have : slopeOf s1 s2 * (i.pos - s1.pos) = i.vel - s1.vel := by linarith
        calc _ = (i.vel - s1.vel) * (i.vel + s1.vel) := by ring
          _ = _ := by rw [← this]; ring
      rw [e2]
      exact mul_le_mul_of_nonneg_right k2 hd.le
    · have := mul_pos ha hd
      nlinarith
  · -- from the crossing to the backward trajectory
    refine ⟨by linarith, hfv, by linarith, hi_top, by linarith, fun hlt => ?_⟩
    have hd : 0 < f.pos - i.pos := by linarith
    have k1 : -(slopeOf m f) * (i.vel + f.vel) ≤ 2 * (a + 2 * eps / e.dt ^ 2) := by
      have hmv : m.vel = f.vel + slopeOf m f * (m.pos - f.pos) := by
        have := lineThrough_left m f
        rw [← this, ← lineThrough_right b2]; unfold lineThrough; ring
      have hlo : m.pos - i.pos ≤ eps := by
        have := hm.cross.lo
        have := le_max_right s1.pos m.pos
        linarith
      have hiv : i.vel ≤ m.vel + 2 / e.dt * eps := by
        have e1 : i.vel - m.vel = -(slopeOf m f) * (m.pos - i.pos) := by rw [on2, hmv]; ring
        have : -(slopeOf m f) * (m.pos - i.pos) ≤ 2 / e.dt * eps := by
          have hh : (0 : ℝ) ≤ 2 / e.dt := by positivity
          rcases le_total (m.pos - i.pos) 0 with hc | hc
          · have h1 : -(slopeOf m f) * (m.pos - i.pos) ≤ 0 := mul_nonpos_of_nonneg_of_nonpos (by linarith) hc
            have h2 : 0 ≤ 2 / e.dt * eps := by positivity
            linarith
          · exact mul_le_mul (by linarith) hlo hc hh
        linarith
      have h3 : -(slopeOf m f) * (m.vel + f.vel) = 2 * a := by linarith
      have h4 : -(slopeOf m f) * (2 / e.dt * eps) ≤ 2 / e.dt * (2 / e.dt * eps) :=
        mul_le_mul_of_nonneg_right (by linarith) (by positivity)
      have h5 : 2 / e.dt * (2 / e.dt * eps) = 2 * (2 * eps / e.dt ^ 2) := by field_simp
      have h6 := mul_le_mul_of_nonneg_left hiv (show 0 ≤ -(slopeOf m f) by linarith)
      have : -(slopeOf m f) * (i.vel + f.vel) = -(slopeOf m f) * i.vel + -(slopeOf m f) * f.vel := by ring
      nlinarith
    refine acc_bound hlt ?_ ?_
    · have h1 : 0 < 2 * (a + 2 * eps / e.dt ^ 2) * (f.pos - i.pos) := by positivity
      nlinarith
    · have e2 : i.vel ^ 2 - f.vel ^ 2 = (-(slopeOf m f) * (i.vel + f.vel)) * (f.pos - i.pos) := by
        have : -(slopeOf m f) * (f.pos - i.pos) = i.vel - f.vel := by linarith
        calc _ = (i.vel - f.vel) * (i.vel + f.vel) := by ring
          _ = _ := by rw [← this]; ring
      rw [e2]
      exact mul_le_mul_of_nonneg_right k1 hd.le
  · -- backward
    have hch := hm.back.chain.tail
    have hvel := behind_vels h ts f hch (v + e.dt * a) (by linarith)
    refine List.IsChain.imp ?_ (isChain_with hch hvel)
    rintro x y ⟨hxy, hxv, hyv⟩
    obtain ⟨c1, c2, -⟩ := hxy.lt h
    have hn := hxy.nonneg
    refine ⟨by linarith, hn, by linarith, hxv, hyv, fun hlt => ?_⟩
    have hd : 0 < y.pos - x.pos := by linarith
    have hve := hxy.vel
    have hpe := hxy.pos
    have e1 : x.vel ^ 2 - y.vel ^ 2 = 2 * a * (y.pos - x.pos) := by
      have : y.pos - x.pos = e.dt * (1 / 2) * (x.vel + y.vel) := by linarith
      rw [this, hve]; ring
    refine le_trans (acc_bound (c := a) hlt ?_ e1.le) (by linarith)
    have := mul_pos ha hd
    linarith

/-! ### The duration -/

/-- The time for the steps after `s`. -/
noncomputable def duration : Step → List Step → ℝ
  | _, [] => 0
  | s, b :: l => stretchTime s b + duration b l

theorem duration_append : ∀ (l1 : List Step) (s b : Step) (l2 : List Step), duration s (l1 ++ b :: l2) = duration s (l1 ++ [b]) + duration b l2
  | [], s, b, l2 => by simp [duration]
  | x :: l1, s, b, l2 => by
    simp only [List.cons_append, duration]
    rw [duration_append l1 x b l2]
    ring

theorem duration_nonneg : ∀ (l : List Step) (s : Step), (s :: l).IsChain (fun x y => x.pos ≤ y.pos ∧ 0 ≤ x.vel + y.vel) → 0 ≤ duration s l
  | [], _, _ => le_refl 0
  | b :: l, s, h => by
    obtain ⟨h1, h2⟩ := List.isChain_cons_cons.mp h
    have := duration_nonneg l b h2
    have : 0 ≤ stretchTime s b := div_nonneg (by linarith [h1.1]) (by linarith [h1.2])
    simp only [duration]
    linarith

theorem rt_duration : ∀ (l : List RT) (r : RT), (r :: l).IsChain Succ0 → ∃ x, (r :: l).getLast? = some x ∧ x.time = r.time + duration r.toStep (l.map RT.toStep)
  | [], r, _ => ⟨r, rfl, by simp [duration]⟩
  | b :: l, r, h => by
    obtain ⟨h1, h2⟩ := List.isChain_cons_cons.mp h
    obtain ⟨x, hx, ht⟩ := rt_duration l b h2
    refine ⟨x, by rw [List.getLast?_cons_cons]; exact hx, ?_⟩
    rw [ht, h1.2]
    simp only [List.map_cons, duration]
    ring

theorem timing_duration {s : Step} {ss : List Step} (h : Moving (s :: ss)) :
    ∃ last, (timing (s :: ss)).getLast? = some last ∧ last.time = .fin (duration s ss) := by
  obtain ⟨l, e1, e2, e3⟩ := timing_rt h
  obtain ⟨x, hx, ht⟩ := rt_duration l ⟨s, 0⟩ e3
  refine ⟨x.timed, by rw [e1, List.getLast?_map, hx]; rfl, ?_⟩
  show Ext.fin x.time = _
  rw [ht, e2]
  simp

theorem Made.duration_pos (h : Flat e (fun _ => a) (fun _ => v) a0) {steps : List Step} {s2 s1 : Step} {below : List Step} {m f : Step}
    {ts : List Step} {i : Step} (hm : Made e (fun _ => a) (fun _ => v) steps s2 s1 below m f ts i) {s : Step} {ss : List Step}
    (he : steps = s :: ss) : 0 < duration s ss := by
  obtain ⟨hnear, hif⟩ := hm.straight h
  have heq := hm.eq
  -- the three parts
  have hmid : 0 < stretchTime s1 i + stretchTime i f := by
    rw [heq, show (s1 :: below).reverse ++ i :: f :: ts = below.reverse ++ s1 :: i :: f :: ts by simp] at hnear
    obtain ⟨-, h1, h2⟩ := List.isChain_append_cons_cons.mp hnear
    obtain ⟨h2, -⟩ := List.isChain_cons_cons.mp h2
    have hs1f : s1.pos ≤ f.pos := le_trans (le_max_left _ _) (le_trans hm.cross.order (min_le_right _ _))
    have h12 : Ahead (fun _ => a) (fun _ => v) e.dt s1 s2 := (List.isChain_cons_cons.mp hm.chain).1
    have hs1v : s1.vel ≤ v := hm.limit s1 List.mem_cons_self
    have hup : s1.vel ≤ s2.vel := by
      have := h12.limit
      rwa [min_eq_left hs1v] at this
    have hp12 := h12.pos
    have hσ : 0 ≤ slopeOf s1 s2 := div_nonneg (by linarith) (by linarith)
    have on1 : i.vel = s1.vel + slopeOf s1 s2 * (i.pos - s1.pos) := hm.cross.on_start
    have hb : Behind (fun _ => a) e.dt m f := (List.isChain_cons_cons.mp hm.back.chain).1
    obtain ⟨sl1, -, -⟩ := hb.slope h
    have on2 : i.vel = f.vel + slopeOf m f * (i.pos - f.pos) := by
      rw [hm.cross.on_back, ← lineThrough_right (hb.lt h).2.1]; unfold lineThrough; ring
    have hi_f : f.vel < i.vel := by
      have := mul_pos_of_neg_of_neg sl1 (show i.pos - f.pos < 0 by linarith)
      linarith
    have p2 : 0 < stretchTime i f := div_pos (by linarith) (by linarith [h2.moving])
    rcases le_or_gt s1.pos i.pos with hc | hc
    · have : 0 ≤ stretchTime s1 i := div_nonneg (by linarith) (by linarith [h1.moving])
      linarith
    · have hle : i.vel ≤ s1.vel := by
        have := mul_nonpos_of_nonneg_of_nonpos hσ (show i.pos - s1.pos ≤ 0 by linarith)
        linarith
      have hfn := h2.right
      have k1 : (s1.pos - i.pos) / ((i.vel + s1.vel) / 2) < (s1.pos - i.pos) / ((f.vel + i.vel) / 2) := by
        apply div_lt_div_of_pos_left (by linarith) (by linarith) (by linarith)
      have k2 : (s1.pos - i.pos) / ((f.vel + i.vel) / 2) ≤ (f.pos - i.pos) / ((f.vel + i.vel) / 2) := by
        apply div_le_div_of_nonneg_right (by linarith) (by linarith)
      have k3 : stretchTime s1 i = -((s1.pos - i.pos) / ((i.vel + s1.vel) / 2)) := by unfold stretchTime; ring
      have k4 : stretchTime i f = (f.pos - i.pos) / ((f.vel + i.vel) / 2) := rfl
      rw [k3, k4]
      linarith
  have hback : 0 ≤ duration f ts := by
    apply duration_nonneg
    refine List.IsChain.imp ?_ hm.back.chain.tail
    intro x y hxy
    obtain ⟨c1, c2, -⟩ := hxy.lt h
    have := hxy.nonneg
    exact ⟨c2.le, by linarith⟩
  have hchain : (below.reverse ++ [s1]).IsChain (fun x y => x.pos ≤ y.pos ∧ 0 ≤ x.vel + y.vel) := by
    rw [← List.reverse_cons, List.isChain_reverse]
    refine List.IsChain.imp ?_ (List.isChain_cons_cons.mp hm.chain).2
    intro c s hcs
    have := hcs.pos; have := hcs.nonneg; have := hcs.vel
    exact ⟨by linarith, by linarith⟩
  have hsteps : s :: ss = below.reverse ++ s1 :: i :: f :: ts := by rw [← he, heq]; simp
  cases hr : below.reverse with
  | nil =>
    rw [hr, List.nil_append] at hsteps
    obtain ⟨rfl, rfl⟩ := List.cons.inj hsteps
    simp only [duration]
    linarith
  | cons x xs =>
    rw [hr, List.cons_append] at hsteps hchain
    obtain ⟨rfl, rfl⟩ := List.cons.inj hsteps
    rw [duration_append]
    have := duration_nonneg _ _ hchain
    simp only [duration]
    linarith

/-- The first stretch goes forward. -/
theorem Made.first_stretch (h : Flat e (fun _ => a) (fun _ => v) a0) {steps : List Step} {s2 s1 : Step} {below : List Step} {m f : Step}
    {ts : List Step} {i : Step} (hm : Made e (fun _ => a) (fun _ => v) steps s2 s1 below m f ts i) :
    ∃ b post, steps = ⟨0, 0⟩ :: b :: post ∧ 0 < b.pos := by
  have hsteps : steps = below.reverse ++ s1 :: i :: f :: ts := by rw [hm.eq]; simp
  have hhead := hm.head_last.1
  cases hr : below.reverse with
  | nil =>
    rw [hr, List.nil_append] at hsteps
    rw [hsteps, List.head?_cons, Option.some_inj] at hhead
    subst hhead
    refine ⟨i, f :: ts, hsteps, ?_⟩
    obtain ⟨hnear, hif⟩ := hm.straight h
    have h12 : Ahead (fun _ => a) (fun _ => v) e.dt ⟨0, 0⟩ s2 := (List.isChain_cons_cons.mp hm.chain).1
    have hb : Behind (fun _ => a) e.dt m f := (List.isChain_cons_cons.mp hm.back.chain).1
    obtain ⟨sl1, -, -⟩ := hb.slope h
    have on2 : i.vel = f.vel + slopeOf m f * (i.pos - f.pos) := by
      rw [hm.cross.on_back, ← lineThrough_right (hb.lt h).2.1]; unfold lineThrough; ring
    have hi_f : f.vel < i.vel := by
      have := mul_pos_of_neg_of_neg sl1 (show i.pos - f.pos < 0 by linarith)
      linarith
    have hfn := hb.nonneg
    have hσ : 0 ≤ slopeOf ⟨0, 0⟩ s2 := by
      have h1 := h12.vel
      have h2 := h12.pos
      dsimp only at h2
      unfold slopeOf
      exact div_nonneg (by simpa using h1.le) (by simpa using h2.le)
    have on1 : i.vel = slopeOf ⟨0, 0⟩ s2 * i.pos := by
      have := hm.cross.on_start
      simpa [lineThrough] using this
    by_contra hc
    have := mul_nonpos_of_nonneg_of_nonpos hσ (not_lt.mp hc)
    linarith
  | cons x xs =>
    rw [hr, List.cons_append] at hsteps
    rw [hsteps, List.head?_cons, Option.some_inj] at hhead
    subst hhead
    have hchain : (⟨0, 0⟩ :: (xs ++ [s1])).IsChain (fun x y : Step => x.pos < y.pos) := by
      rw [← List.cons_append, ← hr, ← List.reverse_cons, List.isChain_reverse]
      exact List.IsChain.imp (fun c s hcs => hcs.pos) (List.isChain_cons_cons.mp hm.chain).2
    cases xs with
    | nil =>
      exact ⟨s1, i :: f :: ts, hsteps, (List.isChain_cons_cons.mp hchain).1⟩
    | cons y ys =>
      exact ⟨y, ys ++ s1 :: i :: f :: ts, hsteps, (List.isChain_cons_cons.mp hchain).1⟩

/-- The last stretch goes forward. -/
theorem Made.last_stretch (h : Flat e (fun _ => a) (fun _ => v) a0) {steps : List Step} {s2 s1 : Step} {below : List Step} {m f : Step}
    {ts : List Step} {i : Step} (hm : Made e (fun _ => a) (fun _ => v) steps s2 s1 below m f ts i) :
    ∃ pre x, steps = pre ++ [x, ⟨e.path.length, 0⟩] ∧ x.pos < e.path.length := by
  have hchain : (i :: f :: ts).IsChain (fun x y : Step => x.pos < y.pos) :=
    List.isChain_cons_cons.mpr ⟨(hm.straight h).2, List.IsChain.imp (fun x y hxy => (hxy.lt h).2.1) hm.back.chain.tail⟩
  have hl := hm.head_last.2
  obtain ⟨init, x, y, hxy⟩ : ∃ init x y, i :: f :: ts = init ++ [x, y] := by
    have h1 : (i :: f :: ts) = (i :: f :: ts).dropLast ++ [(i :: f :: ts).getLast (by simp)] := (List.dropLast_append_getLast _).symm
    have hne : (i :: f :: ts).dropLast ≠ [] := by simp
    refine ⟨(i :: f :: ts).dropLast.dropLast, (i :: f :: ts).dropLast.getLast hne, (i :: f :: ts).getLast (by simp), ?_⟩
    conv_lhs => rw [h1]
    conv_lhs => rw [← List.dropLast_append_getLast hne]
    simp
  have hsteps : steps = ((s1 :: below).reverse ++ init) ++ [x, y] := by rw [hm.eq, hxy, List.append_assoc]
  rw [hsteps, List.getLast?_append_of_ne_nil _ (by simp)] at hl
  have hy : y = ⟨e.path.length, 0⟩ := by simpa using hl
  subst hy
  rw [hxy] at hchain
  exact ⟨_, x, hsteps, (List.isChain_append_cons_cons.mp hchain).2.1⟩

/-! ### Theorem -/

/-- C82. The trajectory along the straight line from `p` to `q` (which differ; limits and timestep are positive, any deviation): the construction ends;
the motion is from rest at `p` to rest at `q`, and at every time in between the path position `S` and velocity `W` are those of a motion with some
constant acceleration `A`; it never moves back; the velocity of each joint is at most its limit plus its acceleration limit times the timestep, and the
acceleration of each joint is at most its limit plus 2e-6 divided by the square of the timestep.

Missing: the limits themselves (see `C82_velocity_limit_false`). -/
theorem C82_straight_line_partial (p q : V n) (hpq : p ≠ q) (dev : ℝ) (vmax amax : Fin n → ℝ) (hv : ∀ i, 0 < vmax i) (ha : ∀ i, 0 < amax i)
    (hvm : ∀ i, n * vmax i < dblMax) (dt : ℝ) (hdt : 0 < dt) : ∃ path steps N T,
    (∀ M, N ≤ M → parametrize M [p, q] (fun i => .fin (vmax i)) (fun i => .fin (amax i)) (.fin dev) (.fin dt) = some (.ok (path, timing steps))) ∧
    0 < T ∧ (∃ last, (timing steps).getLast? = some last ∧ last.time = .fin T) ∧
    path.length = dist p q ∧ path.config 0 = some p ∧ path.config path.length = some q ∧
    Answer (timing steps) (.fin 0) (.fin 0, .fin 0) ∧ Answer (timing steps) (.fin T) (.fin path.length, .fin 0) ∧
    ∀ t, 0 ≤ t → t < T → ∃ (S W : ℝ → ℝ) (A : ℝ) (dir : V n), Answer (timing steps) (.fin t) (.fin (S t), .fin (W t)) ∧
      (∃ e, t < e ∧ ∀ u, t ≤ u → u < e → Answer (timing steps) (.fin u) (.fin (S u), .fin (W u))) ∧
      (∀ u, HasDerivAt S (W u) u ∧ HasDerivAt W A u) ∧ 0 ≤ W t ∧
      path.tangent (S t) = some dir ∧ q - p = dist p q • dir ∧
      ∀ i, |W t * dir i| ≤ vmax i + dt * amax i ∧ |A * dir i| ≤ amax i + 2 / 1000000 / dt ^ 2 := by
  set path := assemble (buildSegments dev p p [q]) with hpath
  have hp : Path.make [p, q] (.fin dev) = .ok path := rfl
  have hl : ‖q - p‖ ≠ 0 := norm_ne_zero_iff.mpr (sub_ne_zero.mpr hpq.symm)
  have hlp : 0 < ‖q - p‖ := lt_of_le_of_ne (norm_nonneg _) hl.symm
  set dir : V n := ‖q - p‖⁻¹ • (q - p) with hdir
  have hunit : ‖dir‖ = 1 := by rw [hdir, norm_smul, norm_inv, norm_norm, inv_mul_cancel₀ hl]
  have htan : ∀ s, path.tangent s = some dir := by
    intro s
    rw [hpath, assemble_tangent]
    simp only [buildSegments, along, Seg.tangent]
    rw [if_neg hl]
  have hcurv : ∀ s, path.curvature s = 0 := by
    intro s
    rw [hpath, assemble_curvature]
    rfl
  have hlen : path.length = ‖q - p‖ := by
    rw [hpath, (assemble_segments _).2]
    simp [buildSegments, totalLength, Seg.length]
  have hcfg : ∀ s, path.config s = some (p + CRU.Math.clamp01 (s / ‖q - p‖) • (q - p)) := by
    intro s
    rw [hpath, assemble_config]
    simp only [buildSegments, along, Seg.config]
    rw [if_neg hl]
  obtain ⟨a0, hf⟩ := flatCore (e := ⟨path, vmax, amax, dt⟩) hv ha hvm (by rw [hlen]; exact hlp) (fun _ => dir) (fun s _ => htan s) (fun _ _ => hunit)
    (fun s _ => hcurv s)
  have hflat : Flat ⟨path, vmax, amax, dt⟩ (fun _ => lineAcc amax dir) (fun _ => lineVel vmax dir) a0 := ⟨hf, hdt⟩
  obtain ⟨N, steps, s2, s1, below, m, f, ts, i, hb, hm⟩ := hflat.build
  obtain ⟨hnear, -⟩ := hm.straight hflat
  have hmov : Moving steps := List.IsChain.imp (fun _ _ hxy => hxy.moving) hnear
  obtain ⟨b, post, hst, hb0⟩ := hm.first_stretch hflat
  obtain ⟨pre, x, hen, hx⟩ := hm.last_stretch hflat
  have hTpos := hm.duration_pos hflat hst
  obtain ⟨last, hlast, hT⟩ : ∃ last, (timing steps).getLast? = some last ∧ last.time = .fin (duration ⟨0, 0⟩ (b :: post)) := by
    rw [hst]; rw [hst] at hmov; exact timing_duration hmov
  refine ⟨path, steps, N, duration ⟨0, 0⟩ (b :: post), ?_, hTpos, ⟨last, hlast, hT⟩, ?_, ?_, ?_, ?_, ?_, ?_⟩
  · intro M hM
    refine parametrize_later hM _ _ _ _ _ _ ?_
    rw [parametrize_ok hp, hb]
    rfl
  · rw [hlen, dist_comm, dist_eq_norm]
  · rw [hcfg]
    simp [CRU.Math.clamp01]
  · rw [hcfg, hlen, div_self hl]
    simp [CRU.Math.clamp01]
  · have h1 := hlast
    rw [hst] at hmov h1 ⊢
    exact at_start hmov hb0 h1 hT hTpos
  · exact at_end hmov hen hx hlast hT
  · intro t h0 h1
    obtain ⟨y, z, S, W, hc, hyz, hans, hv1, hv2, hder, hnext⟩ := C80_between_steps hmov hlast hT h0 h1
    have hn := consecutive_of_isChain hnear hc
    have hV0 : 0 ≤ W t := le_trans (le_min hn.left hn.right) hv1
    have hVle : W t ≤ lineVel vmax dir + dt * lineAcc amax dir := le_trans hv2 (max_le hn.left_le hn.right_le)
    refine ⟨S, W, stretchAcceleration y z, dir, hans, hnext, hder, hV0, htan _, ?_, ?_⟩
    · rw [hdir, smul_smul, dist_comm, dist_eq_norm, mul_inv_cancel₀ hl, one_smul]
    · intro j
      have hA := hn.acc hyz
      by_cases hj : dir j = 0
      · rw [hj, mul_zero, mul_zero, abs_zero]
        have := hv j; have := ha j
        constructor <;> positivity
      · have hjp : 0 < |dir j| := abs_pos.mpr hj
        have hj1 : |dir j| ≤ 1 := coord_le_one dir hunit j
        have l1 : lineVel vmax dir * |dir j| ≤ vmax j := by
          have := ((le_lineVel vmax dir (fun i => (hv i).le) _).mp (le_refl _)).2 j hj
          rwa [le_div_iff₀ hjp] at this
        have l2 : lineAcc amax dir * |dir j| ≤ amax j := by
          have := ((le_lineAcc amax dir _).mp (le_refl _)).2 j hj
          rwa [le_div_iff₀ hjp] at this
        constructor
        · rw [abs_mul, abs_of_nonneg hV0]
          have k1 := mul_le_mul_of_nonneg_right hVle hjp.le
          have k2 := mul_le_mul_of_nonneg_left l2 hdt.le
          nlinarith
        · rw [abs_mul]
          have k1 := mul_le_mul_of_nonneg_right hA hjp.le
          dsimp only at k1
          have k3 : 2 * eps / dt ^ 2 = 2 / 1000000 / dt ^ 2 := by unfold eps; ring
          rw [k3] at k1
          have k4 : 0 ≤ 2 / 1000000 / dt ^ 2 := by positivity
          have k5 : 2 / 1000000 / dt ^ 2 * |dir j| ≤ 2 / 1000000 / dt ^ 2 := mul_le_of_le_one_right k4 hj1
          nlinarith

end CRU.Totp
