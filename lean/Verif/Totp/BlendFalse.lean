import Verif.Totp.StraightFalse
import Verif.Totp.Defined
import Mathlib.Analysis.Real.Pi.Bounds
/-
  C81: a path with a blend whose construction fails: along a right angle with one circular blend the backward and forward parts do not fit
  together, and the code throws.
-/
namespace CRU.Totp
open Ext Real

/-- The waypoints: a right angle with legs of length 2. -/
noncomputable def bendPath : List (V 2) := [!₂[-1, 0], !₂[1, 0], !₂[1, 2]]

/-- The blend of the corner, with a permitted deviation of 1: a quarter of a circle of radius 1. -/
noncomputable def bendArc : Arc 2 := cornerBlend !₂[-1, 0] !₂[1, 0] !₂[1, 2] 1

/-- Velocities at most 10, accelerations at most 1, timestep 3/2. -/
noncomputable def bend : Setup 2 := ⟨assemble (buildSegments 1 !₂[-1, 0] !₂[-1, 0] [!₂[1, 0], !₂[1, 2]]), fun _ => 10, fun _ => 1, 3 / 2⟩

theorem bendArc_eq : bendArc = ⟨π / 2, 1, !₂[0, 1], !₂[0, -1], !₂[1, 0]⟩ := by
  have e1 : ((1 / 2 : ℝ) • ((!₂[-1, 0] : V 2) + !₂[1, 0])) = !₂[0, 0] := by ext j; fin_cases j <;> simp
  have e2 : ((1 / 2 : ℝ) • ((!₂[1, 0] : V 2) + !₂[1, 2])) = !₂[1, 1] := by ext j; fin_cases j <;> simp; norm_num
  have hb : bendArc = Arc.make !₂[0, 0] !₂[1, 0] !₂[1, 1] 1 := by
    unfold bendArc cornerBlend
    rw [e1, e2]
  obtain ⟨-, -, al, d, r, F⟩ := square_corner.blend (dev := 1) one_pos
  rw [← hb] at F
  have n1 : ‖(!₂[1, 0] : V 2)‖ = 1 := by rw [EuclideanSpace.norm_eq]; simp
  have n2 : ‖(!₂[0, 1] : V 2)‖ = 1 := by rw [EuclideanSpace.norm_eq]; simp
  have f1 : (!₂[1, 0] - !₂[0, 0] : V 2) = !₂[1, 0] := by ext j; fin_cases j <;> simp
  have f2 : (!₂[1, 1] - !₂[1, 0] : V 2) = !₂[0, 1] := by ext j; fin_cases j <;> simp
  have f3 : (!₂[0, 0] - !₂[1, 0] : V 2) = -!₂[1, 0] := by ext j; fin_cases j <;> simp
  have d1 : normalized (!₂[1, 0] : V 2) = !₂[1, 0] := by unfold normalized; rw [n1]; simp
  have d2 : normalized (!₂[0, 1] : V 2) = !₂[0, 1] := by unfold normalized; rw [n2]; simp
  rw [f1, f2, d1, d2] at F
  have hcos : cos al = 0 := by
    rw [← F.cosal]
    simp [PiLp.inner_apply, Fin.sum_univ_two]
  have hal : al = π / 2 := by
    have h0 := F.al0
    have h1 := F.al1
    have h2 := Real.arccos_cos h0.le h1.le
    rw [hcos, Real.arccos_zero] at h2
    exact h2.symm
  have hd : d = 1 := by
    have h1 := F.dval
    rw [f3, norm_neg, n1, f2, n2, min_self, hal, show π / 2 / 2 = π / 4 by ring, sin_pi_div_four, cos_pi_div_four, one_mul] at h1
    rw [h1, min_eq_left]
    have hs : √2 ^ 2 = 2 := Real.sq_sqrt (by norm_num)
    have hs0 : 0 ≤ √2 := Real.sqrt_nonneg 2
    rw [le_div_iff₀ (by nlinarith)]
    nlinarith
  have hr : r = 1 := by
    have h1 := F.hr
    rw [hd, hal, show π / 2 / 2 = π / 4 by ring, sin_pi_div_four, cos_pi_div_four, one_mul] at h1
    have : √2 / 2 ≠ 0 := by positivity
    exact mul_right_cancel₀ this (by rw [h1, one_mul])
  have hx : bendArc.x = !₂[0, -1] := by
    have h1 := F.hx
    rw [hcos, hal, sin_pi_div_two, one_smul] at h1
    rw [h1]
    ext j; fin_cases j <;> simp
  have hc : bendArc.center = !₂[0, 1] := by
    rw [F.cen, hd, hr, hx]
    ext j; fin_cases j <;> simp
  have hl : bendArc.length = π / 2 := by rw [F.len, hal, hr, mul_one]
  have key : ∀ a : Arc 2, a.length = π / 2 → a.radius = 1 → a.center = !₂[0, 1] → a.x = !₂[0, -1] → a.y = !₂[1, 0] →
      a = ⟨π / 2, 1, !₂[0, 1], !₂[0, -1], !₂[1, 0]⟩ := by
    rintro ⟨_, _, _, _, _⟩ h1 h2 h3 h4 h5
    dsimp only at h1 h2 h3 h4 h5
    rw [h1, h2, h3, h4, h5]
  exact key _ hl (F.rad.trans hr) hc hx F.hy

theorem bend_segments : buildSegments 1 (!₂[-1, 0] : V 2) !₂[-1, 0] [!₂[1, 0], !₂[1, 2]] =
    [.lin !₂[-1, 0] !₂[0, 0], .arc bendArc, .lin !₂[1, 1] !₂[1, 2]] := by
  have c0 : bendArc.config 0 = !₂[0, 0] := by
    rw [bendArc_eq]
    unfold Arc.config
    ext j; fin_cases j <;> simp
  have c1 : bendArc.config bendArc.length = !₂[1, 1] := by
    rw [bendArc_eq]
    unfold Arc.config
    ext j; fin_cases j <;> simp
  simp only [buildSegments]
  rw [if_pos one_pos]
  change lineTo _ (bendArc.config 0) ++ Seg.arc bendArc :: [Seg.lin (bendArc.config bendArc.length) _] = _
  rw [c0, c1]
  unfold lineTo
  have : ‖(!₂[0, 0] - !₂[-1, 0] : V 2)‖ = 1 := by
    rw [EuclideanSpace.norm_eq]; simp
  rw [if_pos (by rw [this]; norm_num)]
  rfl

theorem bend_len0 : (Seg.lin (!₂[-1, 0] : V 2) !₂[0, 0]).length = 1 := by
  show ‖(!₂[0, 0] - !₂[-1, 0] : V 2)‖ = 1
  rw [EuclideanSpace.norm_eq]; simp

theorem bend_len1 : (Seg.arc bendArc).length = π / 2 := by
  show bendArc.length = _
  rw [bendArc_eq]

theorem bend_len2 : (Seg.lin (!₂[1, 1] : V 2) !₂[1, 2]).length = 1 := by
  show ‖(!₂[1, 2] - !₂[1, 1] : V 2)‖ = 1
  rw [EuclideanSpace.norm_eq]; simp; norm_num

theorem bend_length : bend.path.length = 2 + π / 2 := by
  unfold bend
  rw [(assemble_segments _).2, bend_segments]
  simp only [totalLength, List.map_cons, List.map_nil, List.sum_cons, List.sum_nil, bend_len0, bend_len1, bend_len2]
  ring

theorem bend_points : (Seg.arc bendArc).switchingPoints = [] := by
  refine List.eq_nil_iff_forall_not_mem.mpr fun s hs => ?_
  obtain ⟨h1, k, h2⟩ := (mem_switchingPoints _ _).mp hs
  rw [bendArc_eq] at h1 h2
  unfold Arc.switchingPoint at h2
  dsimp only at h1 h2
  rw [mul_one] at h2
  have a0 : atan2 1 0 = π / 2 := Complex.arg_I
  have a1 : atan2 0 (-1) = π := by
    show Complex.arg ⟨-1, 0⟩ = π
    rw [show (⟨-1, 0⟩ : ℂ) = -1 by apply Complex.ext <;> simp]
    exact Complex.arg_neg_one
  have hp := Real.pi_pos
  fin_cases k
  · change (if atan2 1 0 < 0 then atan2 1 0 + π else atan2 1 0) = s at h2
    rw [a0, if_neg (by linarith)] at h2
    linarith
  · change (if atan2 0 (-1) < 0 then atan2 0 (-1) + π else atan2 0 (-1)) = s at h2
    rw [a1, if_neg (by linarith)] at h2
    linarith

theorem bend_switching : bend.path.switching = [(1, true), (1 + π / 2, true)] := by
  have hp := Real.pi_pos
  unfold bend
  rw [bend_segments]
  unfold assemble
  simp only [List.foldl_cons, List.foldl_nil, addSegment, bend_len0, bend_len1, bend_len2, bend_points]
  simp only [Seg.switchingPoints, List.map_nil, List.append_nil, List.nil_append, List.rdropWhile_nil]
  have e0 : List.rdropWhile (fun x : ℝ × Bool => decide (0 + 1 + π / 2 ≤ x.1)) [(0 + 1, true)] = [(0 + 1, true)] :=
    List.rdropWhile_concat_neg (fun x : ℝ × Bool => decide (0 + 1 + π / 2 ≤ x.1)) [] _ (by simp [hp])
  have e1 : List.rdropWhile (fun x : ℝ × Bool => decide (0 + 1 + π / 2 + 1 ≤ x.1)) ([(0 + 1, true)] ++ [(0 + 1 + π / 2, true)]) =
      [(0 + 1, true)] ++ [(0 + 1 + π / 2, true)] :=
    List.rdropWhile_concat_neg (fun x : ℝ × Bool => decide (0 + 1 + π / 2 + 1 ≤ x.1)) _ _ (by simp)
  rw [e0, e1, List.dropLast_concat]
  simp

theorem bend_line {s : ℝ} (hs : s < 1) : bend.path.tangent s = some !₂[1, 0] ∧ bend.path.curvature s = 0 := by
  unfold bend
  rw [assemble_tangent, assemble_curvature, bend_segments]
  rw [(along_cons Seg.tangent none _ (by simp) s).2 (by rw [bend_len0]; exact hs), (along_cons Seg.curvature 0 _ (by simp) s).2 (by rw [bend_len0]; exact hs)]
  refine ⟨?_, rfl⟩
  simp only [Seg.tangent]
  have h := bend_len0
  simp only [Seg.length] at h
  rw [if_neg (by rw [h]; norm_num), h]
  congr 1
  ext j; fin_cases j <;> simp

theorem bend_curve {f : ℝ} (h0 : 0 ≤ f) (h1 : f < π / 2) :
    bend.path.tangent (1 + f) = some !₂[cos f, sin f] ∧ bend.path.curvature (1 + f) = !₂[-sin f, cos f] := by
  unfold bend
  rw [assemble_tangent, assemble_curvature, bend_segments]
  rw [(along_cons Seg.tangent none _ (by simp) _).1 (by rw [bend_len0]; linarith), (along_cons Seg.curvature 0 _ (by simp) _).1 (by rw [bend_len0]; linarith)]
  rw [bend_len0, add_sub_cancel_left]
  rw [(along_cons Seg.tangent none _ (by simp) _).2 (by rw [bend_len1]; exact h1), (along_cons Seg.curvature 0 _ (by simp) _).2 (by rw [bend_len1]; exact h1)]
  simp only [Seg.tangent, Seg.curvature, bendArc_eq, Arc.tangent, Arc.curvature, div_one]
  constructor
  · congr 1
    ext j; fin_cases j <;> simp
  · ext j; fin_cases j <;> simp

/-! ### Two joints -/

theorem two_joints : List.finRange 2 = [0, 1] := by decide

theorem acc_one {a t c : Fin 2 → ℝ} (h0 : t 0 ≠ 0) (h1 : t 1 = 0) (v : ℝ) (m : Bool) :
    minMaxAcc a t c (.fin v) m = .fin (factor m * min dblMax (a 0 / |t 0| - factor m * c 0 * v * v / t 0)) := by
  unfold minMaxAcc
  rw [two_joints, accLoop, if_pos h0, accLoop, if_neg (by simpa using h1), accLoop, jointAcc_fin h0, stdMin_fin, mul_fin]

theorem acc_two {a t c : Fin 2 → ℝ} (h0 : t 0 ≠ 0) (h1 : t 1 ≠ 0) (v : ℝ) (m : Bool) :
    minMaxAcc a t c (.fin v) m = .fin (factor m * min (min dblMax (a 0 / |t 0| - factor m * c 0 * v * v / t 0))
      (a 1 / |t 1| - factor m * c 1 * v * v / t 1)) := by
  unfold minMaxAcc
  rw [two_joints, accLoop, if_pos h0, accLoop, if_pos h1, accLoop, jointAcc_fin h0, jointAcc_fin h1, stdMin_fin, stdMin_fin, mul_fin]

theorem accVel_one {a t c : Fin 2 → ℝ} (h0 : t 0 ≠ 0) (h1 : t 1 = 0) (ha : 0 ≤ a 1) :
    accMaxVel a t c = if c 1 = 0 then .pinf else .fin √(a 1 / |c 1|) := by
  unfold accMaxVel
  rw [two_joints, accVelLoop, if_pos h0, pairLoop, if_neg (by simpa using h1), pairLoop, accVelLoop, if_neg (by simpa using h1), accVelLoop]
  by_cases hc : c 1 = 0
  · rw [if_neg (by simpa using hc), if_pos hc]
  · rw [if_pos hc, if_neg hc, div_fin (abs_ne_zero.mpr hc), sqrt_fin (div_nonneg ha (abs_nonneg _)), pinf_stdMin]

theorem accVel_two {a t c : Fin 2 → ℝ} (h0 : t 0 ≠ 0) (h1 : t 1 ≠ 0) (ha : ∀ i, 0 ≤ a i) (hc : c 0 / t 0 - c 1 / t 1 ≠ 0) :
    accMaxVel a t c = .fin √((a 0 / |t 0| + a 1 / |t 1|) / |c 0 / t 0 - c 1 / t 1|) := by
  unfold accMaxVel
  have hn : 0 ≤ (a 0 / |t 0| + a 1 / |t 1|) / |c 0 / t 0 - c 1 / t 1| := by
    have := ha 0
    have := ha 1
    positivity
  rw [two_joints, accVelLoop, if_pos h0, pairLoop, if_pos h1, pairVel, if_pos hc, pairLoop, accVelLoop, if_pos h1, pairLoop, accVelLoop]
  dsimp only
  rw [div_fin (abs_ne_zero.mpr hc), sqrt_fin hn, pinf_stdMin]

/-! ### The limits along the path -/

theorem acc_line {s : ℝ} (hs : s < 1) (v : ℝ) (m : Bool) : bend.acc s (.fin v) m = .fin (factor m) := by
  unfold Setup.acc
  obtain ⟨h1, h2⟩ := bend_line hs
  rw [h1]
  dsimp only
  rw [h2, acc_one (by simp) (by simp)]
  have := dblMax_one
  simp [bend, this]

theorem accVel_line {s : ℝ} (hs : s < 1) : bend.accVel s = .pinf := by
  unfold Setup.accVel
  obtain ⟨h1, h2⟩ := bend_line hs
  rw [h1]
  dsimp only
  rw [h2, accVel_one (by simp) (by simp) (by simp [bend])]
  simp

theorem dblMax_ten : 20 ≤ dblMax := le_trans (by norm_num) dblMax_big

open Classical in
/-- Where the first joint is the faster one, it limits the velocity. -/
theorem vel_first {t c : Fin 2 → ℝ} (h0 : 1 / 2 ≤ t 0) (h1 : 0 ≤ t 1) (h2 : t 1 ≤ t 0) :
    velMaxVel (fun _ => 10) t = .fin (10 / t 0) ∧ velMaxVelDeriv (fun _ => 10) t c = .fin (-(10 * c 0) / (t 0 * t 0)) := by
  have hd := dblMax_ten
  have hp : 0 < t 0 := by linarith
  have e0 : div (.fin 10) (.fin |t 0|) = .fin (10 / t 0) := by rw [abs_of_pos hp, div_fin hp.ne']
  have hle : 10 / t 0 ≤ 20 := by rw [div_le_iff₀ hp]; linarith
  have e1 : ¬ lt (div (.fin 10) (.fin |t 1|)) (.fin (10 / t 0)) := by
    rw [abs_of_nonneg h1]
    rcases h1.eq_or_lt with hz | hz
    · rw [← hz]; simp [div, lt]
    · rw [div_fin hz.ne', lt_fin, not_lt]
      exact div_le_div_of_nonneg_left (by norm_num) hz h2
  have hlt : 10 / t 0 ≤ dblMax := by linarith
  constructor
  · unfold velMaxVel
    rw [two_joints, velLoop, velLoop, velLoop, e0, stdMin_fin, min_eq_right hlt]
    unfold stdMin
    rw [if_neg e1]
  · unfold velMaxVelDeriv
    dsimp only
    rw [two_joints, activeLoop, activeLoop, activeLoop, e0]
    have hk : (if lt (div (.fin 10) (.fin |t 1|)) (if lt (.fin (10 / t 0)) (.fin dblMax) then (Ext.fin (10 / t 0), (0 : Fin 2)) else (.fin dblMax, 0)).1 then
        (div (.fin 10) (.fin |t 1|), 1) else (if lt (.fin (10 / t 0)) (.fin dblMax) then (Ext.fin (10 / t 0), (0 : Fin 2)) else (.fin dblMax, 0))).2 = 0 := by
      by_cases hc : lt (.fin (10 / t 0)) (.fin dblMax)
      · rw [if_pos hc, if_neg e1]
      · rw [lt_fin] at hc
        have : 10 / t 0 = dblMax := le_antisymm hlt (not_lt.mp hc)
        rw [this] at e1
        rw [if_neg (show ¬ lt (.fin (10 / t 0)) (.fin dblMax) from hc), if_neg e1]
    rw [hk, abs_of_pos hp, div_fin (by positivity)]

theorem vel_line {s : ℝ} (hs : s < 1) : bend.velVel s = .fin 10 ∧ bend.velVelDeriv s = .fin 0 := by
  unfold Setup.velVel Setup.velVelDeriv
  obtain ⟨h1, h2⟩ := bend_line hs
  rw [h1]
  dsimp only
  rw [h2]
  obtain ⟨e1, e2⟩ := vel_first (t := (!₂[1, 0] : V 2)) (c := (0 : V 2)) (by norm_num) (by simp) (by simp)
  constructor
  · rw [show bend.vmax = fun _ => 10 from rfl, e1]; simp
  · rw [show bend.vmax = fun _ => 10 from rfl, e2]; simp

/-- The first part of the bend. -/
theorem trig {f : ℝ} (h0 : 0 ≤ f) (h1 : f ≤ 1 / 2) : 7 / 8 ≤ cos f ∧ cos f ≤ 1 ∧ 0 ≤ sin f ∧ sin f ≤ 1 / 2 ∧ f < π / 2 := by
  have hp := Real.pi_gt_three
  refine ⟨?_, cos_le_one f, sin_nonneg_of_nonneg_of_le_pi h0 (by linarith), le_trans (sin_le h0) h1, by linarith⟩
  have := one_sub_sq_div_two_le_cos (x := f)
  nlinarith

theorem vel_curve {f : ℝ} (h0 : 0 ≤ f) (h1 : f ≤ 1 / 2) :
    bend.velVel (1 + f) = .fin (10 / cos f) ∧ bend.velVelDeriv (1 + f) = .fin (10 * sin f / (cos f * cos f)) := by
  obtain ⟨c1, c2, s1, s2, hf⟩ := trig h0 h1
  unfold Setup.velVel Setup.velVelDeriv
  obtain ⟨e1, e2⟩ := bend_curve h0 hf
  rw [e1]
  dsimp only
  rw [e2]
  obtain ⟨e1, e2⟩ := vel_first (t := (!₂[cos f, sin f] : V 2)) (c := (!₂[-sin f, cos f] : V 2)) (by simp; linarith) (by simpa using s1) (by simp; linarith)
  constructor
  · rw [show bend.vmax = fun _ => 10 from rfl, e1]; simp
  · rw [show bend.vmax = fun _ => 10 from rfl, e2]; simp

theorem accVel_curve {f : ℝ} (h0 : 0 ≤ f) (h1 : f ≤ 1 / 2) : bend.accVel (1 + f) = .fin √(sin f + cos f) := by
  obtain ⟨c1, c2, s1, s2, hf⟩ := trig h0 h1
  unfold Setup.accVel
  obtain ⟨e1, e2⟩ := bend_curve h0 hf
  rw [e1]
  dsimp only
  rw [e2]
  rcases h0.eq_or_lt with hz | hz
  · rw [accVel_one (by simp; linarith) (by simp [← hz]) (by simp [bend])]
    simp [← hz, bend]
  · have hs : 0 < sin f := sin_pos_of_pos_of_lt_pi hz (by linarith [Real.pi_pos])
    have hc : 0 < cos f := by linarith
    have hd : -sin f / cos f - cos f / sin f = -(1 / (sin f * cos f)) := by
      have := sin_sq_add_cos_sq f
      field_simp
      linarith
    rw [accVel_two (by simp; linarith) (by simp; linarith) (by simp [bend]) (by
      simp only [PiLp.toLp_apply, Matrix.cons_val_zero, Matrix.cons_val_one]
      rw [hd]
      have : 0 < 1 / (sin f * cos f) := by positivity
      linarith)]
    congr 2
    simp only [PiLp.toLp_apply, Matrix.cons_val_zero, Matrix.cons_val_one, bend]
    rw [hd, abs_neg, abs_of_pos hs, abs_of_pos hc, abs_of_pos (show 0 < 1 / (sin f * cos f) by positivity)]
    field_simp

/-- Braking along the velocity limit. -/
theorem brake_curve {f : ℝ} (h0 : 0 ≤ f) (h1 : f ≤ 1 / 2) :
    bend.slope (1 + f) (bend.velVel (1 + f)) false = .fin (10 * sin f / (cos f * cos f) - 1 / 10) := by
  obtain ⟨c1, c2, s1, s2, hf⟩ := trig h0 h1
  have hc : 0 < cos f := by linarith
  have hd := dblMax_ten
  rw [(vel_curve h0 h1).1]
  unfold Setup.slope
  have key : bend.acc (1 + f) (.fin (10 / cos f)) false = .fin (-(1 / cos f - sin f * (10 / cos f) * (10 / cos f) / cos f)) := by
    unfold Setup.acc
    obtain ⟨e1, e2⟩ := bend_curve h0 hf
    rw [e1]
    dsimp only
    rw [e2]
    have hx : 1 / cos f - sin f * (10 / cos f) * (10 / cos f) / cos f ≤ 2 := by
      have a1 : 1 / cos f ≤ 2 := by rw [div_le_iff₀ hc]; linarith
      have a2 : 0 ≤ sin f * (10 / cos f) * (10 / cos f) / cos f := by positivity
      linarith
    rcases h0.eq_or_lt with hz | hz
    · rw [acc_one (by simp; linarith) (by simp [← hz])]
      simp only [PiLp.toLp_apply, Matrix.cons_val_zero, Matrix.cons_val_one, bend, factor]
      congr 1
      rw [abs_of_pos hc, min_eq_right]
      · simp only [Bool.false_eq_true, if_false]; ring
      · simp [← hz]; linarith
    · have hs : 0 < sin f := sin_pos_of_pos_of_lt_pi hz (by linarith [Real.pi_pos])
      rw [acc_two (by simp; linarith) (by simp; linarith)]
      simp only [PiLp.toLp_apply, Matrix.cons_val_zero, Matrix.cons_val_one, bend, factor, Bool.false_eq_true, if_false]
      congr 1
      rw [abs_of_pos hc, abs_of_pos hs]
      have e3 : 1 / cos f - -1 * -sin f * (10 / cos f) * (10 / cos f) / cos f = 1 / cos f - sin f * (10 / cos f) * (10 / cos f) / cos f := by ring
      rw [e3, min_eq_right (show _ ≤ dblMax by linarith), min_eq_left]
      · ring
      · have a1 : 2 ≤ 1 / sin f := by rw [le_div_iff₀ hs]; linarith
        have a2 : 0 ≤ cos f * (10 / cos f) * (10 / cos f) / sin f := by positivity
        have e4 : 1 / sin f - -1 * cos f * (10 / cos f) * (10 / cos f) / sin f = 1 / sin f + cos f * (10 / cos f) * (10 / cos f) / sin f := by ring
        rw [e4]
        linarith
  rw [key, div_fin (by positivity)]
  congr 1
  field_simp
  ring

/-- Up to the first part of the bend, braking is possible along the velocity limit. -/
theorem not_leaving {s : ℝ} (hs : s ≤ 3 / 2) : ¬ (bend.velVelDeriv s).le (bend.slope s (bend.velVel s) false) := by
  rcases lt_or_ge s 1 with h | h
  · obtain ⟨e1, e2⟩ := vel_line h
    unfold Setup.slope
    rw [e1, e2, acc_line h, div_fin (by norm_num), le_fin]
    simp only [factor, Bool.false_eq_true, if_false]
    norm_num
  · obtain ⟨f, rfl⟩ : ∃ f, s = 1 + f := ⟨s - 1, by ring⟩
    rw [brake_curve (by linarith) (by linarith), (vel_curve (by linarith) (by linarith)).2, le_fin]
    linarith

/-- Full acceleration at the acceleration limit. -/
theorem acc_curve {f : ℝ} (h0 : 0 < f) (h1 : f ≤ 1 / 2) : bend.acc (1 + f) (.fin √(sin f + cos f)) true = .fin (sin f - cos f) := by
  obtain ⟨c1, c2, s1, s2, hf⟩ := trig h0.le h1
  have hc : 0 < cos f := by linarith
  have hs : 0 < sin f := sin_pos_of_pos_of_lt_pi h0 (by linarith [Real.pi_pos])
  have hd := dblMax_ten
  have hsq : √(sin f + cos f) * √(sin f + cos f) = sin f + cos f := Real.mul_self_sqrt (by linarith)
  unfold Setup.acc
  obtain ⟨e1, e2⟩ := bend_curve h0.le hf
  rw [e1]
  dsimp only
  rw [e2, acc_two (by simp; linarith) (by simp; linarith)]
  simp only [PiLp.toLp_apply, Matrix.cons_val_zero, Matrix.cons_val_one, bend, factor, if_true]
  congr 1
  rw [abs_of_pos hc, abs_of_pos hs]
  have e3 : 1 / sin f - 1 * cos f * √(sin f + cos f) * √(sin f + cos f) / sin f = sin f - cos f := by
    rw [mul_assoc (1 * cos f), hsq]
    have := sin_sq_add_cos_sq f
    field_simp
    linarith
  have e4 : 1 / cos f - 1 * -sin f * √(sin f + cos f) * √(sin f + cos f) / cos f = (1 + sin f * (sin f + cos f)) / cos f := by
    rw [mul_assoc (1 * -sin f), hsq]
    field_simp
    ring
  rw [e3, e4, one_mul, min_eq_right]
  have : 0 ≤ (1 + sin f * (sin f + cos f)) / cos f := by positivity
  exact le_min (by linarith) (by linarith)

/-! ### The run -/

theorem bend_eps : eps = 1 / 1000000 := rfl

/-- Forward along the first line: the bisection goes to its end. -/
theorem bend_bisect : ∀ (k : Nat) (b : ℝ), 0 ≤ b → b < 1 → 1 - b ≤ 2 ^ k * eps →
    ∃ x, bisectForward bend (k + 1) b (4 / 3 * b) 1 (4 / 3) = some (x, 4 / 3 * x, 1) ∧ 0 ≤ x ∧ x < 1 ∧ 1 - x ≤ eps
  | 0, b, h0, h1, h2 => by
    refine ⟨b, ?_, h0, h1, by simpa using h2⟩
    rw [bisectForward, if_neg (by simpa using h2)]
  | k + 1, b, h0, h1, h2 => by
    by_cases hc : eps < 1 - b
    · have hm : (1 / 2 : ℝ) * (b + 1) < 1 := by linarith
      obtain ⟨x, hx⟩ := bend_bisect k ((1 / 2 : ℝ) * (b + 1)) (by linarith) hm (by rw [pow_succ] at h2; linarith)
      refine ⟨x, ?_, hx.2⟩
      rw [← hx.1]
      conv_lhs => rw [bisectForward]
      rw [if_pos hc]
      dsimp only
      have hv : ¬ (bend.velVel ((1 / 2 : ℝ) * (b + 1))).lt (.fin ((1 / 2 : ℝ) * (4 / 3 * b + 4 / 3))) := by
        rw [(vel_line hm).1, lt_fin]; linarith
      have ha : ¬ (bend.accVel ((1 / 2 : ℝ) * (b + 1))).lt (.fin ((1 / 2 : ℝ) * (4 / 3 * b + 4 / 3))) := by
        rw [accVel_line hm]; exact id
      rw [if_neg (c := _ ∧ _) (fun h => hv h.1), if_neg (not_or.mpr ⟨ha, hv⟩)]
      congr 1
      ring
    · refine ⟨b, ?_, h0, h1, not_lt.mp hc⟩
      rw [bisectForward, if_neg hc]

theorem bend_at_one : bend.velVel 1 = .fin 10 ∧ bend.accVel 1 = .fin 1 := by
  have h1 := (vel_curve (f := 0) le_rfl (by norm_num)).1
  have h2 := accVel_curve (f := 0) le_rfl (by norm_num)
  simp at h1 h2
  exact ⟨h1, h2⟩

theorem bend_accVelDeriv {x : ℝ} (h0 : x < 1) (h1 : 1 - x ≤ eps) : bend.accVelDeriv x = .ninf := by
  unfold Setup.accVelDeriv
  have he := eps_pos
  have hb := bend_eps
  rw [accVel_line (s := x - eps) (by linarith), show x + eps = 1 + (x + eps - 1) by ring, accVel_curve (by linarith) (by linarith)]
  have : (0 : ℝ) ≤ 2 * eps := by linarith
  simp [Ext.sub, Ext.neg, Ext.add, Ext.div, this]

open Classical in
/-- The first part of the trajectory ends at the beginning of the bend. -/
theorem bend_forward {N : Nat} (hN : 21 ≤ N) : ∃ x, 0 ≤ x ∧ x < 1 ∧ 1 - x ≤ eps ∧
    integrateForward bend N [⟨0, 0⟩] 1 = some (.ok ([⟨x, 4 / 3 * x⟩, ⟨0, 0⟩], false)) := by
  obtain ⟨M, rfl⟩ : ∃ M, N = M + 1 := ⟨N - 1, by omega⟩
  have he := eps_pos
  obtain ⟨x, hx, x0, x1, x2⟩ := bend_bisect M 0 le_rfl one_pos (by
    have : (2 : ℝ) ^ 20 ≤ 2 ^ M := pow_le_pow_right₀ (by norm_num) (by omega)
    rw [bend_eps]
    norm_num at this ⊢
    linarith)
  refine ⟨x, x0, x1, x2, ?_⟩
  have hp := Real.pi_gt_three
  unfold integrateForward
  dsimp only
  rw [forward]
  have hrem : Fwd.remaining ⟨[⟨0, 0⟩], 0, 0, 1, bend.path.switching⟩ = [(1, true), (1 + π / 2, true)] := by
    unfold Fwd.remaining
    rw [bend_switching, List.dropWhile_cons_of_neg]
    simp
  have hnext : Fwd.next ⟨[⟨0, 0⟩], 0, 0, 1, bend.path.switching⟩ bend.dt [(1, true), (1 + π / 2, true)] = ⟨1, 4 / 3⟩ := by
    unfold Fwd.next
    dsimp only
    rw [show bend.dt = 3 / 2 from rfl, if_pos (by norm_num)]
    norm_num
  rw [hrem, hnext]
  dsimp only
  rw [bend_length, if_neg (by linarith), if_neg (by norm_num)]
  have hclip : bend.clip 0 ⟨1, 4 / 3⟩ = 4 / 3 := by
    unfold Setup.clip
    dsimp only
    rw [if_neg]
    rintro ⟨h, -⟩
    rw [bend_at_one.1, lt_fin] at h
    norm_num at h
  rw [hclip, if_pos (Or.inl (by rw [bend_at_one.2, lt_fin]; norm_num))]
  rw [mul_zero] at hx
  rw [hx]
  dsimp only
  have hstop : bend.stop [(1, true), (1 + π / 2, true)] x (4 / 3 * x) 1 = .ok true := by
    unfold Setup.stop
    rw [if_pos (by rw [bend_at_one.1, bend_at_one.2, lt_fin]; norm_num)]
    dsimp only
    rw [bend_accVelDeriv x1 x2]
    have hx0 : 0 < x := by rw [bend_eps] at x2; linarith
    have : bend.slope x (.fin (4 / 3 * x)) true = .fin (1 / (4 / 3 * x)) := by
      unfold Setup.slope
      rw [acc_line x1, div_fin (by positivity)]
      rfl
    rw [this, decide_eq_true (show lt .ninf (.fin (1 / (4 / 3 * x))) from trivial), Bool.or_true]
  rw [hstop]
  rfl

/-- The acceleration limit a little after the beginning of the bend. -/
noncomputable def bendVel : ℝ := √(sin eps + cos eps)

theorem bendVel_bounds : 1 ≤ bendVel ∧ bendVel ≤ 101 / 100 ∧ -1 ≤ sin eps - cos eps ∧ sin eps - cos eps ≤ -(99 / 100) := by
  have he := eps_pos
  have hb := bend_eps
  have s1 : sin eps ≤ eps := sin_le he.le
  have s2 : eps - eps ^ 3 / 6 < sin eps := sin_gt_sub_cube he
  have c1 := one_sub_sq_div_two_le_cos (x := eps)
  have c2 := cos_le_one eps
  rw [hb] at s1 s2 c1 c2
  rw [hb]
  refine ⟨?_, ?_, by norm_num at *; linarith, by norm_num at *; linarith⟩
  · unfold bendVel
    rw [hb]
    apply Real.le_sqrt_of_sq_le
    norm_num at *
    linarith
  · unfold bendVel
    rw [hb]
    apply Real.sqrt_le_iff.mpr
    norm_num at *
    linarith

theorem bend_nextAcc {x : ℝ} (x1 : x < 1) (N : Nat) :
    nextAccSwitch bend (N + 1) x = some (some ⟨1, .fin bendVel, .fin (-1), .fin (sin eps - cos eps)⟩) := by
  have he := eps_pos
  have hb := bend_eps
  have hp := Real.pi_gt_three
  rw [nextAccSwitch]
  have hn : bend.path.nextSwitchingPoint x = (1, true) := by
    unfold Path.nextSwitchingPoint
    rw [bend_switching, List.dropWhile_cons_of_neg (by simpa using x1)]
  rw [hn]
  dsimp only
  rw [bend_length, if_neg (by linarith), if_pos rfl]
  have hbv : bend.accVel (1 - eps) = .pinf := accVel_line (by linarith)
  have hav : bend.accVel (1 + eps) = .fin bendVel := accVel_curve he.le (by linarith)
  have hacc : bend.acc (1 + eps) (.fin bendVel) true = .fin (sin eps - cos eps) := acc_curve he (by linarith)
  rw [hbv, hav, pinf_stdMin, hacc, acc_line (by linarith)]
  obtain ⟨v1, v2, v3, v4⟩ := bendVel_bounds
  rw [if_pos]
  · rfl
  · refine ⟨.inl trivial, .inr ?_⟩
    unfold Setup.slope Setup.accVelDeriv
    rw [hacc, div_fin (by linarith), show 1 + 2 * eps - eps = 1 + eps by ring, hav, show 1 + 2 * eps + eps = 1 + 3 * eps by ring,
      accVel_curve (by linarith) (by linarith), sub_fin, div_fin (by linarith), lt_fin]
    have h1 : (sin eps - cos eps) / bendVel < 0 := div_neg_of_neg_of_pos (by linarith) (by linarith)
    have h2 : bendVel ≤ √(sin (3 * eps) + cos (3 * eps)) := by
      apply Real.sqrt_le_sqrt
      have e1 : sin (3 * eps) = sin (2 * eps) * cos eps + cos (2 * eps) * sin eps := by rw [← sin_add]; congr 1; ring
      have e2 : sin eps = sin (2 * eps) * cos eps - cos (2 * eps) * sin eps := by rw [← sin_sub]; congr 1; ring
      have e3 : cos (3 * eps) = cos (2 * eps) * cos eps - sin (2 * eps) * sin eps := by rw [← cos_add]; congr 1; ring
      have e4 : cos eps = cos (2 * eps) * cos eps + sin (2 * eps) * sin eps := by rw [← cos_sub]; congr 1; ring
      obtain ⟨t1, t2, t3, t4, -⟩ := trig (f := 2 * eps) (by linarith) (by linarith)
      obtain ⟨-, -, t5, -, -⟩ := trig (f := eps) (by linarith) (by linarith)
      nlinarith [mul_nonneg t5 (show 0 ≤ cos (2 * eps) - sin (2 * eps) by linarith)]
    have h3 : 0 ≤ (√(sin (3 * eps) + cos (3 * eps)) - bendVel) / (2 * eps) := div_nonneg (by linarith) (by linarith)
    linarith

open Classical in
/-- The search for a velocity switching point goes beyond the beginning of the bend. -/
theorem bend_scan : ∀ (k : Nat) (p : ℝ), p < bend.path.length → bend.path.length ≤ p + k / 1000 → ∀ st,
    (st = true → 3 / 2 ≤ p) → ∃ q, velScan bend k p st = some q ∧ 3 / 2 ≤ q
  | 0, p, h1, h2, st, _ => by simp at h2; linarith
  | k + 1, p, h1, h2, st, hst => by
    rw [velScan]
    have hL : (3 : ℝ) < bend.path.length := by rw [bend_length]; linarith [Real.pi_gt_three]
    have hst' : (st || decide ((bend.velVelDeriv (p + 1 / 1000)).le (bend.slope (p + 1 / 1000) (bend.velVel (p + 1 / 1000)) false))) = true →
        3 / 2 ≤ p + 1 / 1000 := by
      intro h
      rcases Bool.or_eq_true_iff.mp h with h | h
      · have := hst h; linarith
      · by_contra hc
        exact not_leaving (by linarith) (of_decide_eq_true h)
    split_ifs with hc
    · exact bend_scan k _ hc.2 (by push_cast at h2; linarith) _ hst'
    · refine ⟨_, rfl, ?_⟩
      by_contra hlt
      apply hc
      refine ⟨.inl ?_, by linarith⟩
      by_contra hs
      exact hlt (hst' (Bool.eq_true_of_not_eq_false hs))

theorem bend_velBisect : ∀ (k : Nat) (b a : ℝ), b ≤ a → a - b ≤ 2 ^ k * (1 / 1000000) → ∃ r, velBisect bend (k + 1) b a = some r ∧ b ≤ r.2
  | 0, b, a, h0, h => ⟨(b, a), by rw [velBisect, if_neg (by simpa using h)], h0⟩
  | k + 1, b, a, h0, h => by
    rw [velBisect]
    rw [pow_succ] at h
    dsimp only
    split_ifs with h1 h2
    · obtain ⟨r, hr, hb⟩ := bend_velBisect k ((b + a) / 2) a (by linarith) (by linarith)
      exact ⟨r, hr, by linarith⟩
    · obtain ⟨r, hr, hb⟩ := bend_velBisect k b ((b + a) / 2) (by linarith) (by linarith)
      exact ⟨r, hr, by linarith⟩
    · exact ⟨_, rfl, h0⟩

theorem bend_nextVel {N : Nat} (hN : 5000 ≤ N) {x : ℝ} (x0 : 0 ≤ x) (x1 : x < 1) :
    ∃ r, nextVelSwitch bend N x = some r ∧ ∀ s, r = some s → 1 < s.pos := by
  have hp4 := Real.pi_lt_four
  have hp := Real.pi_gt_three
  obtain ⟨q, hq, hq1⟩ := bend_scan N (x - 1 / 1000) (by rw [bend_length]; linarith) (by
    rw [bend_length]
    have : (5000 : ℝ) ≤ N := by exact_mod_cast hN
    linarith) false (by simp)
  unfold nextVelSwitch
  rw [hq]
  dsimp only
  split_ifs with h
  · exact ⟨none, rfl, by simp⟩
  · obtain ⟨M, rfl⟩ : ∃ M, N = M + 1 := ⟨N - 1, by omega⟩
    obtain ⟨r, hr, hb⟩ := bend_velBisect M (q - 1 / 1000) q (by linarith) (by
      have : (2 : ℝ) ^ 10 ≤ 2 ^ M := pow_le_pow_right₀ (by norm_num) (by omega)
      norm_num at this ⊢
      linarith)
    rw [hr]
    refine ⟨_, rfl, ?_⟩
    intro s hs
    cases hs
    dsimp only
    linarith

theorem bend_nextSwitch {N : Nat} (hN : 5000 ≤ N) {x : ℝ} (x0 : 0 ≤ x) (x1 : x < 1) :
    nextSwitch bend N x = some (some ⟨1, .fin bendVel, .fin (-1), .fin (sin eps - cos eps)⟩) := by
  obtain ⟨M, rfl⟩ : ∃ M, N = M + 1 := ⟨N - 1, by omega⟩
  have ha : accSwitchLoop bend (M + 1) (M + 1) ⟨x, .fin 0, .fin 0, .fin 0⟩ =
      some (false, ⟨1, .fin bendVel, .fin (-1), .fin (sin eps - cos eps)⟩) := by
    rw [accSwitchLoop, bend_nextAcc x1]
    dsimp only
    rw [if_neg]
    rw [bend_at_one.1, lt_fin]
    have := bendVel_bounds.2.1
    linarith
  obtain ⟨r, hr, hr1⟩ := bend_nextVel hN x0 x1
  unfold nextSwitch
  rw [ha]
  dsimp only
  rw [velSwitchLoop, hr]
  cases r with
  | none =>
    dsimp only
    rw [if_neg (by simp), if_pos (by simp)]
  | some s =>
    have h1 := hr1 s rfl
    dsimp only
    rw [if_neg (fun h => absurd h.1 (not_le.mpr h1))]
    dsimp only
    rw [if_neg (by simp), if_pos ⟨rfl, .inr h1.le⟩]

theorem bend_backward {x : ℝ} (x1 : x < 1) (x2 : 1 - x ≤ eps) (N : Nat) :
    ∃ y, integrateBackward bend (N + 1) [⟨x, 4 / 3 * x⟩, ⟨0, 0⟩] 1 bendVel (-1) = some (.ok [⟨1, bendVel⟩, y, ⟨0, 0⟩]) := by
  obtain ⟨v1, v2, v3, v4⟩ := bendVel_bounds
  have he := eps_pos
  have hb := bend_eps
  have hx0 : 0 < x := by linarith
  unfold integrateBackward
  dsimp only
  rw [if_neg (by norm_num), backward]
  dsimp only
  rw [if_pos (Or.inr (by norm_num)), if_pos (by norm_num)]
  have hpush : ∃ acc, Bwd.push ⟨⟨x, 4 / 3 * x⟩, ⟨0, 0⟩, [], [], 1, bendVel, -1, .fin 0⟩ bend =
      ⟨⟨x, 4 / 3 * x⟩, ⟨0, 0⟩, [], [⟨1, bendVel⟩], -(1 / 8) - 3 / 2 * bendVel, bendVel + 3 / 2, acc, .fin (-1 / (bendVel + 3 / 4))⟩ := by
    refine ⟨(bend.acc (1 - 3 / 2 * (1 / 2) * (bendVel - 3 / 2 * -1 + bendVel)) (.fin (bendVel - 3 / 2 * -1)) false).real, ?_⟩
    unfold Bwd.push
    dsimp only
    rw [show bend.dt = 3 / 2 from rfl, div_fin (by linarith)]
    congr 1
    · ring
    · ring
    · congr 1
      have : bendVel + 3 / 4 ≠ 0 := by linarith
      have h2 : 1 - (1 - 3 / 2 * (1 / 2) * (bendVel - 3 / 2 * -1 + bendVel)) ≠ 0 := by linarith
      rw [div_eq_div_iff h2 this]
      ring
  obtain ⟨acc, hpush⟩ := hpush
  rw [hpush]
  dsimp only
  rw [if_neg (by linarith)]
  have hsl : (4 / 3 * x - 0) / (x - 0) = 4 / 3 := by rw [sub_zero, sub_zero, mul_div_assoc, div_self hx0.ne', mul_one]
  have hm : -1 / (bendVel + 3 / 4) < 0 := div_neg_of_neg_of_pos (by norm_num) (by linarith)
  have hm2 : -1 ≤ -1 / (bendVel + 3 / 4) := by rw [le_div_iff₀ (by linarith)]; linarith
  rw [check_eq ⟨x, 4 / 3 * x⟩ ⟨0, 0⟩ [] ⟨1, bendVel⟩ [] _ _ acc _ (by dsimp only; linarith) (by dsimp only; rw [hsl]; linarith) _ rfl]
  dsimp only
  rw [hsl]
  generalize hmm : -1 / (bendVel + 3 / 4) = m at *
  have hmv : m * (bendVel + 3 / 4) = -1 := by rw [← hmm]; field_simp
  have hnum : 0 - (bendVel + 3 / 2) + m * (-(1 / 8) - 3 / 2 * bendVel) - 4 / 3 * 0 = m - bendVel := by
    have : m * (-(1 / 8) - 3 / 2 * bendVel) = m - 3 / 2 * (m * (bendVel + 3 / 4)) := by ring
    rw [this, hmv]; ring
  rw [hnum]
  have hX : 0 ≤ (m - bendVel) / (m - 4 / 3) ∧ (m - bendVel) / (m - 4 / 3) ≤ 9 / 10 := by
    have e1 : (m - bendVel) / (m - 4 / 3) = (bendVel - m) / (4 / 3 - m) := by
      rw [← neg_sub bendVel m, ← neg_sub (4 / 3) m, neg_div_neg_eq]
    rw [e1]
    refine ⟨div_nonneg (by linarith) (by linarith), ?_⟩
    rw [div_le_iff₀ (by linarith)]
    linarith
  rw [if_pos]
  · exact ⟨_, rfl⟩
  · constructor
    · rw [max_eq_left (by linarith)]
      linarith [hX.1]
    · have : 9 / 10 ≤ min x 1 := le_min (by linarith) (by norm_num)
      linarith [hX.2]

/-- Forward along the bend, the velocity becomes negative. -/
theorem bend_throw (N : Nat) (y : Step) :
    integrateForward bend (N + 1) [⟨1, bendVel⟩, y, ⟨0, 0⟩] (sin eps - cos eps) = some (.throw .runtimeError) := by
  obtain ⟨v1, v2, v3, v4⟩ := bendVel_bounds
  have hp := Real.pi_gt_three
  unfold integrateForward
  dsimp only
  rw [forward]
  have hrem : Fwd.remaining ⟨[⟨1, bendVel⟩, y, ⟨0, 0⟩], 1, bendVel, sin eps - cos eps, bend.path.switching⟩ = [(1 + π / 2, true)] := by
    unfold Fwd.remaining
    rw [bend_switching, List.dropWhile_cons_of_pos (by simp), List.dropWhile_cons_of_neg]
    simp; linarith
  have hnext : Fwd.next ⟨[⟨1, bendVel⟩, y, ⟨0, 0⟩], 1, bendVel, sin eps - cos eps, bend.path.switching⟩ bend.dt [(1 + π / 2, true)] =
      ⟨1 + 3 / 2 * (1 / 2) * (bendVel + (bendVel + 3 / 2 * (sin eps - cos eps))), bendVel + 3 / 2 * (sin eps - cos eps)⟩ := by
    unfold Fwd.next
    dsimp only
    rw [show bend.dt = 3 / 2 from rfl, if_neg (by linarith)]
  rw [hrem, hnext]
  dsimp only
  rw [bend_length, if_neg (by linarith), if_pos (by linarith)]

/-- C81 is false with blends: the construction of a trajectory along a right angle with legs of length 2, with a permitted deviation of 1, velocity
limits 10, acceleration limits 1 and timestep 3/2 ends with an exception (`std::runtime_error`). -/
theorem C81_blends_false : ∃ N, ∀ M, N ≤ M → parametrize M bendPath (fun _ => .fin 10) (fun _ => .fin 1) (.fin 1) (.fin (3 / 2)) = some (.throw .runtimeError) := by
  refine ⟨5000, fun M hM => ?_⟩
  obtain ⟨K, rfl⟩ : ∃ K, M = K + 2 := ⟨M - 2, by omega⟩
  rw [parametrize_ok (p := bend.path) rfl (fun _ => 10) (fun _ => 1) (3 / 2)]
  change Run.then (buildSteps bend (K + 2)) _ = _
  have hmain : mainLoop bend (K + 2) (K + 2) [⟨0, 0⟩] (bend.acc 0 (.fin 0) true).real = some (.throw .runtimeError) := by
    rw [acc_line (by norm_num)]
    obtain ⟨x, x0, x1, x2, hf⟩ := bend_forward (N := K + 2) (by omega)
    rw [mainLoop]
    change Run.then (integrateForward bend (K + 2) [⟨0, 0⟩] 1) _ = _
    rw [hf]
    simp only [Run.then, Bool.false_eq_true, if_false]
    rw [bend_nextSwitch (by omega) x0 x1]
    dsimp only
    obtain ⟨y, hy⟩ := bend_backward x1 x2 (K + 1)
    change Run.then (integrateBackward bend (K + 1 + 1) _ 1 bendVel (-1)) _ = _
    rw [hy]
    simp only [Run.then]
    rw [mainLoop]
    change Run.then (integrateForward bend (K + 1 + 1) _ (sin eps - cos eps)) _ = _
    rw [bend_throw]
    rfl
  unfold buildSteps
  rw [hmain]
  rfl

/-- The waypoints are proper: the legs are long enough and there is no reversal. -/
theorem bendPath_regular : Regular 1 bendPath := by
  refine ⟨fun _ => ⟨?_, ?_, ?_⟩, ?_⟩
  · rw [dist_comm, dist_eq_norm, EuclideanSpace.norm_eq]; simp; norm_num
  · have e1 : (!₂[1, 2] - !₂[1, 0] : V 2) 1 = 2 := by simp
    have e2 : (!₂[1, 0] - !₂[-1, 0] : V 2) 1 = 0 := by simp
    have e3 : ‖(!₂[1, 2] - !₂[1, 0] : V 2)‖ ≠ 0 := by
      intro h
      rw [norm_eq_zero] at h
      rw [h] at e1
      simp at e1
    intro h
    have h1 := congrArg (fun w : V 2 => w 1) h
    have h2 : ‖(!₂[1, 2] - !₂[1, 0] : V 2)‖⁻¹ * 2 = -(‖(!₂[1, 0] - !₂[-1, 0] : V 2)‖⁻¹ * 0) := by
      refine Eq.trans (congrArg (_ * ·) e1.symm) (Eq.trans h1 (congrArg (fun z => -(_ * z)) e2))
    rw [mul_zero, neg_zero, mul_eq_zero, inv_eq_zero] at h2
    exact h2.elim e3 (by norm_num)
  · show 2 / 1000000 < dist (!₂[1, 0] : V 2) !₂[1, 2]
    rw [dist_comm, dist_eq_norm, EuclideanSpace.norm_eq]; simp; norm_num
  · intro pre a b h hab
    have h1 := congrArg List.reverse h
    simp [bendPath] at h1
    obtain ⟨h1, h2, -⟩ := h1
    rw [← h1, ← h2] at hab
    have := congrArg (fun w : V 2 => w 1) hab
    simp at this

/-- Non-vacuity of `C81_defined`: the construction above throws, and is not undefined. -/
example (N : Nat) : parametrize N bendPath (fun _ => .fin 10) (fun _ => .fin 1) (.fin 1) (.fin (3 / 2)) ≠ some .ub :=
  C81_defined bendPath 1 bendPath_regular (fun _ => 10) (fun _ => 1) (fun _ => by norm_num) (fun _ => by norm_num)
    (fun _ => by have := dblMax_big; norm_num at this ⊢; linarith) (3 / 2) (by norm_num) N

end CRU.Totp
