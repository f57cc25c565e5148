import Mathlib.Analysis.InnerProductSpace.PiL2
import Mathlib.Analysis.SpecialFunctions.Trigonometric.Deriv
import Mathlib.Analysis.SpecialFunctions.Trigonometric.Inverse
import Mathlib.Analysis.SpecialFunctions.Trigonometric.Bounds
import Mathlib.Analysis.SpecialFunctions.Complex.Arg
import Mathlib.Analysis.Convex.Segment
import Mathlib.Tactic.Linarith
import Mathlib.Tactic.Ring
import Mathlib.Tactic.FieldSimp
/-
  C76: the circular blends of a time-optimal path (time_optimal_trajectory_parametrization.cpp:128-225), in exact arithmetic.
-/
namespace CRU.Totp
open Real

/-- Configurations: `Eigen::VectorXd` of size `n`. -/
abbrev V (n : Nat) := EuclideanSpace ℝ (Fin n)

variable {n : Nat}

/-! ### Model -/

/-- `v.normalized()` of Eigen: zero stays zero. -/
noncomputable def normalized (v : V n) : V n := ‖v‖⁻¹ • v

/-- time_optimal_trajectory_parametrization.cpp:83, 221-224: the fields of a `CircularPathSegment`. -/
structure Arc (n : Nat) where
  length : ℝ
  radius : ℝ
  center : V n
  x : V n
  y : V n

/-- time_optimal_trajectory_parametrization.cpp:137-146 (and 149-157): no blend. -/
noncomputable def Arc.none (intersection : V n) : Arc n := ⟨0, 1, intersection, 0, 0⟩

/-- time_optimal_trajectory_parametrization.cpp:158-164: the distance of the ends of the blend from the corner. -/
noncomputable def arcDistance (start intersection end_ : V n) (angle maxDeviation : ℝ) : ℝ :=
  min (min ‖start - intersection‖ ‖end_ - intersection‖) (maxDeviation * sin (angle / 2) / (1 - cos (angle / 2)))

/-- time_optimal_trajectory_parametrization.cpp:158-170: the blend, for given directions. -/
noncomputable def Arc.blend (start intersection end_ startDirection endDirection : V n) (maxDeviation : ℝ) : Arc n :=
  let angle := arccos (inner ℝ startDirection endDirection)
  let distance := arcDistance start intersection end_ angle maxDeviation
  let radius := distance / tan (angle / 2)
  let center := intersection + (radius / cos (angle / 2)) • normalized (endDirection - startDirection)
  ⟨angle * radius, radius, center, normalized (intersection - distance • startDirection - center), startDirection⟩

open Classical in
/-- time_optimal_trajectory_parametrization.cpp:132-171 `CircularPathSegment`: the constructor. -/
noncomputable def Arc.make (start intersection end_ : V n) (maxDeviation : ℝ) : Arc n :=
  if ‖intersection - start‖ < 1 / 1000000 ∨ ‖end_ - intersection‖ < 1 / 1000000 then Arc.none intersection
  else
    if ‖normalized (intersection - start) - normalized (end_ - intersection)‖ < 1 / 1000000 then Arc.none intersection
    else Arc.blend start intersection end_ (normalized (intersection - start)) (normalized (end_ - intersection)) maxDeviation

/-- time_optimal_trajectory_parametrization.cpp:173-177 `GetConfig`. -/
noncomputable def Arc.config (a : Arc n) (s : ℝ) : V n :=
  a.center + a.radius • (cos (s / a.radius) • a.x + sin (s / a.radius) • a.y)

/-- time_optimal_trajectory_parametrization.cpp:179-183 `GetTangent`. -/
noncomputable def Arc.tangent (a : Arc n) (s : ℝ) : V n := -(sin (s / a.radius) • a.x) + cos (s / a.radius) • a.y

/-- time_optimal_trajectory_parametrization.cpp:185-189 `GetCurvature`. -/
noncomputable def Arc.curvature (a : Arc n) (s : ℝ) : V n :=
  (-1 / a.radius) • (cos (s / a.radius) • a.x + sin (s / a.radius) • a.y)

/-- `std::atan2(y, x)`; the signs of zeros are left out. -/
noncomputable def atan2 (y x : ℝ) : ℝ := Complex.arg ⟨x, y⟩

open Classical in
/-- time_optimal_trajectory_parametrization.cpp:197-204: the candidate for one coordinate. -/
noncomputable def Arc.switchingPoint (a : Arc n) (i : Fin n) : ℝ :=
  (if atan2 (a.y i) (a.x i) < 0 then atan2 (a.y i) (a.x i) + π else atan2 (a.y i) (a.x i)) * a.radius

open Classical in
/-- time_optimal_trajectory_parametrization.cpp:191-212 `GetSwitchingPoints`. -/
noncomputable def Arc.switchingPoints (a : Arc n) : List ℝ :=
  (((List.finRange n).map a.switchingPoint).filter (fun p => p < a.length)).mergeSort (fun p q => p ≤ q)

/-! ### Specification -/

/-- A corner that is blended: two legs of some length, neither going straight on nor straight back. -/
structure Corner (start intersection end_ : V n) : Prop where
  in_leg : 1 / 1000000 ≤ ‖intersection - start‖
  out_leg : 1 / 1000000 ≤ ‖end_ - intersection‖
  bend : 1 / 1000000 ≤ ‖normalized (intersection - start) - normalized (end_ - intersection)‖
  no_reversal : normalized (end_ - intersection) ≠ -normalized (intersection - start)

/-! ### Proofs -/

theorem normalized_norm {v : V n} (h : v ≠ 0) : ‖normalized v‖ = 1 := by
  unfold normalized
  rw [norm_smul, norm_inv, norm_norm]
  exact inv_mul_cancel₀ (norm_ne_zero_iff.mpr h)

/-- What the blend is, for two unit directions at an angle strictly between 0 and π. -/
structure BlendFacts (s i e p q : V n) (dev : ℝ) (al d r : ℝ) (a : Arc n) : Prop where
  al0 : 0 < al
  al1 : al < π
  cosal : inner ℝ p q = cos al
  d0 : 0 < d
  ds : d ≤ ‖s - i‖
  de : d ≤ ‖e - i‖
  dd : d * (1 - cos (al / 2)) ≤ dev * sin (al / 2)
  hr : r * sin (al / 2) = d * cos (al / 2)
  r0 : 0 < r
  rad : a.radius = r
  len : a.length = al * r
  hy : a.y = p
  hx : sin al • a.x = cos al • p - q
  cen : a.center = i - d • p - r • a.x
  dval : d = min (min ‖s - i‖ ‖e - i‖) (dev * sin (al / 2) / (1 - cos (al / 2)))

theorem blend_facts {s i e p q : V n} {dev : ℝ} (hp : ‖p‖ = 1) (hq : ‖q‖ = 1) (hpq : p ≠ q) (hrev : q ≠ -p) (hs : s ≠ i) (he : e ≠ i)
    (hdev : 0 < dev) : ∃ al d r, BlendFacts s i e p q dev al d r (Arc.blend s i e p q dev) := by
  have hin : -1 < inner ℝ p q ∧ inner ℝ p q < 1 := by
    constructor
    · refine lt_of_le_of_ne ?_ ?_
      · have := neg_le_of_abs_le (abs_real_inner_le_norm p q)
        rw [hp, hq] at this; linarith
      · intro h
        apply hrev
        have h2 := inner_eq_neg_one_iff_of_norm_eq_one (𝕜 := ℝ) hp hq
        have := h2.mp h.symm
        rw [this]; simp
    · refine lt_of_le_of_ne ?_ ?_
      · have := le_of_abs_le (abs_real_inner_le_norm p q)
        rw [hp, hq] at this; linarith
      · intro h
        exact hpq ((inner_eq_one_iff_of_norm_eq_one (𝕜 := ℝ) hp hq).mp h)
  set al := arccos (inner ℝ p q) with hal
  have hcosal : cos al = inner ℝ p q := cos_arccos hin.1.le hin.2.le
  have al0 : 0 < al := arccos_pos.mpr hin.2
  have al1 : al < π := by
    rw [hal, arccos_lt_pi]
    exact hin.1
  have hc : 0 < cos (al / 2) := cos_pos_of_mem_Ioo ⟨by linarith, by linarith⟩
  have hsn : 0 < sin (al / 2) := sin_pos_of_pos_of_lt_pi (by linarith) (by linarith)
  have hc1 : cos (al / 2) < 1 := by
    have := sin_sq_add_cos_sq (al / 2)
    nlinarith
  have hcos2 : cos al = 1 - 2 * sin (al / 2) ^ 2 := by
    have := cos_two_mul (al / 2)
    rw [show 2 * (al / 2) = al by ring] at this
    have h2 := sin_sq_add_cos_sq (al / 2)
    linarith
  have hsin2 : sin al = 2 * sin (al / 2) * cos (al / 2) := by
    have := sin_two_mul (al / 2)
    rwa [show 2 * (al / 2) = al by ring] at this
  have hqp : ‖q - p‖ = 2 * sin (al / 2) := by
    have h1 : ‖q - p‖ ^ 2 = (2 * sin (al / 2)) ^ 2 := by
      rw [norm_sub_sq_real, hq, hp, real_inner_comm, ← hcosal, hcos2]
      ring
    exact (pow_left_inj₀ (norm_nonneg _) (by linarith) (by norm_num)).mp h1
  have hsal : 0 < sin al := sin_pos_of_pos_of_lt_pi al0 al1
  set x0 : V n := (sin al)⁻¹ • (cos al • p - q) with hx0
  have hx0n : ‖x0‖ = 1 := by
    have h1 : ‖cos al • p - q‖ = sin al := by
      refine (pow_left_inj₀ (norm_nonneg _) hsal.le (two_ne_zero)).mp ?_
      rw [norm_sub_sq_real, norm_smul, hq, hp, inner_smul_left, ← hcosal, mul_one, norm_eq_abs, sq_abs]
      have := sin_sq_add_cos_sq al
      simp only [conj_trivial]
      nlinarith
    rw [hx0, norm_smul, norm_inv, h1, norm_of_nonneg hsal.le]
    exact inv_mul_cancel₀ hsal.ne'
  have hd0 : 0 < arcDistance s i e al dev := by
    unfold arcDistance
    refine lt_min (lt_min (norm_pos_iff.mpr (sub_ne_zero.mpr hs)) (norm_pos_iff.mpr (sub_ne_zero.mpr he))) ?_
    exact div_pos (mul_pos hdev hsn) (by linarith)
  set d := arcDistance s i e al dev with hd
  have htan : tan (al / 2) = sin (al / 2) / cos (al / 2) := tan_eq_sin_div_cos _
  set r := d / tan (al / 2) with hr
  have hrv : r * sin (al / 2) = d * cos (al / 2) := by
    rw [hr, htan]
    field_simp
  have r0 : 0 < r := by
    rw [hr, htan]
    exact div_pos hd0 (div_pos hsn hc)
  have hw : i - d • p - (i + (r / cos (al / 2)) • normalized (q - p)) = r • x0 := by
    have hrc : r / cos (al / 2) = d / sin (al / 2) := by
      rw [div_eq_div_iff hc.ne' hsn.ne']; linarith
    have hk : r * (sin al)⁻¹ = d / (2 * sin (al / 2) ^ 2) := by
      rw [hsin2, ← div_eq_mul_inv, div_eq_div_iff (by positivity) (by positivity)]
      have : r * (2 * sin (al / 2) ^ 2) = 2 * sin (al / 2) * (r * sin (al / 2)) := by ring
      rw [this, hrv]; ring
    unfold normalized
    rw [hqp, hrc, hx0, smul_smul, smul_smul, hk, hcos2]
    have h3 : d / sin (al / 2) * (2 * sin (al / 2))⁻¹ = d / (2 * sin (al / 2) ^ 2) := by
      field_simp
    rw [h3]
    have h4 : d = d / (2 * sin (al / 2) ^ 2) * (2 * sin (al / 2) ^ 2) := by field_simp
    generalize hK : d / (2 * sin (al / 2) ^ 2) = K at h4 ⊢
    rw [h4]
    generalize 2 * sin (al / 2) ^ 2 = z
    module
  have hxx : normalized (i - d • p - (i + (r / cos (al / 2)) • normalized (q - p))) = x0 := by
    rw [hw]
    unfold normalized
    rw [norm_smul, hx0n, norm_of_nonneg r0.le, mul_one, smul_smul, inv_mul_cancel₀ r0.ne', one_smul]
  refine ⟨al, d, r, ⟨al0, al1, hcosal.symm, hd0, ?_, ?_, ?_, hrv, r0, rfl, rfl, rfl, ?_, ?_, rfl⟩⟩
  · exact le_trans (min_le_left _ _) (min_le_left _ _)
  · exact le_trans (min_le_left _ _) (min_le_right _ _)
  · have h1 : d ≤ dev * sin (al / 2) / (1 - cos (al / 2)) := min_le_right _ _
    rwa [le_div_iff₀ (by linarith)] at h1
  · show sin al • normalized (i - d • p - (i + (r / cos (al / 2)) • normalized (q - p))) = _
    rw [hxx, hx0, smul_smul, mul_inv_cancel₀ hsal.ne', one_smul]
  · show i + (r / cos (al / 2)) • normalized (q - p) =
      i - d • p - r • normalized (i - d • p - (i + (r / cos (al / 2)) • normalized (q - p)))
    rw [hxx, ← hw]
    module

namespace BlendFacts
variable {s i e p q : V n} {dev al d r : ℝ} {a : Arc n}

theorem sin_pos (F : BlendFacts s i e p q dev al d r a) : 0 < sin (al / 2) :=
  sin_pos_of_pos_of_lt_pi (by linarith [F.al0]) (by linarith [F.al1, pi_pos])

theorem cos_pos (F : BlendFacts s i e p q dev al d r a) : 0 < cos (al / 2) :=
  cos_pos_of_mem_Ioo ⟨by linarith [F.al0, pi_pos], by linarith [F.al1]⟩

theorem cos_al (_ : BlendFacts s i e p q dev al d r a) : cos al = 1 - 2 * sin (al / 2) ^ 2 := by
  have := cos_two_mul (al / 2)
  rw [show 2 * (al / 2) = al by ring] at this
  have h2 := sin_sq_add_cos_sq (al / 2)
  linarith

theorem sin_al (_ : BlendFacts s i e p q dev al d r a) : sin al = 2 * sin (al / 2) * cos (al / 2) := by
  have := sin_two_mul (al / 2)
  rwa [show 2 * (al / 2) = al by ring] at this

theorem sal (F : BlendFacts s i e p q dev al d r a) : 0 < sin al := sin_pos_of_pos_of_lt_pi F.al0 F.al1

theorem x_p (F : BlendFacts s i e p q dev al d r a) (hp : ‖p‖ = 1) : inner ℝ a.x p = 0 := by
  have h : inner ℝ (sin al • a.x) p = 0 := by
    rw [F.hx, inner_sub_left, inner_smul_left, real_inner_self_eq_norm_sq, hp, real_inner_comm, F.cosal]
    simp
  rw [inner_smul_left] at h
  exact (mul_eq_zero.mp h).resolve_left F.sal.ne'

theorem x_norm (F : BlendFacts s i e p q dev al d r a) (hp : ‖p‖ = 1) (hq : ‖q‖ = 1) : ‖a.x‖ = 1 := by
  have h1 : ‖sin al • a.x‖ = sin al := by
    rw [F.hx]
    refine (pow_left_inj₀ (norm_nonneg _) F.sal.le (two_ne_zero)).mp ?_
    rw [norm_sub_sq_real, norm_smul, hq, hp, inner_smul_left, F.cosal, mul_one, norm_eq_abs, sq_abs]
    have := sin_sq_add_cos_sq al
    simp only [conj_trivial]
    nlinarith
  rw [norm_smul, norm_of_nonneg F.sal.le] at h1
  have := F.sal
  field_simp at h1
  exact h1

/-- The length of a combination of the two axes. -/
theorem comb (F : BlendFacts s i e p q dev al d r a) (hp : ‖p‖ = 1) (hq : ‖q‖ = 1) (u v : ℝ) : ‖u • a.x + v • p‖ ^ 2 = u ^ 2 + v ^ 2 := by
  rw [norm_add_sq_real, norm_smul, norm_smul, F.x_norm hp hq, hp, inner_smul_left, inner_smul_right, F.x_p hp]
  simp

theorem q_eq (F : BlendFacts s i e p q dev al d r a) : q = cos al • p - sin al • a.x := by
  rw [F.hx]; module

theorem config_eq (F : BlendFacts s i e p q dev al d r a) (t : ℝ) :
    a.config (r * t) = i - (d - r * sin t) • p - (r * (1 - cos t)) • a.x := by
  unfold Arc.config
  rw [F.rad, F.cen, F.hy, mul_div_cancel_left₀ _ F.r0.ne']
  module

theorem rr (F : BlendFacts s i e p q dev al d r a) : r * sin al = d * (1 + cos al) ∧ r * (1 - cos al) = d * sin al := by
  have h := F.hr
  have h2 := sin_sq_add_cos_sq (al / 2)
  rw [F.cos_al, F.sin_al]
  constructor
  · have : r * (2 * sin (al / 2) * cos (al / 2)) = 2 * cos (al / 2) * (r * sin (al / 2)) := by ring
    rw [this, h]
    linear_combination (-2 * d) * (0 : ℝ) + 2 * d * h2
  · have : r * (1 - (1 - 2 * sin (al / 2) ^ 2)) = 2 * sin (al / 2) * (r * sin (al / 2)) := by ring
    rw [this, h]
    ring

theorem config_eq' (F : BlendFacts s i e p q dev al d r a) (t : ℝ) :
    a.config (r * (al - t)) = i + (d - r * sin t) • q - (r * (1 - cos t)) • (cos al • a.x + sin al • p) := by
  rw [F.config_eq, cos_sub, sin_sub, F.q_eq]
  obtain ⟨h1, h2⟩ := F.rr
  have e1 : d - r * (sin al * cos t - cos al * sin t) = -(d - r * sin t) * cos al + r * (1 - cos t) * sin al := by
    linear_combination -h1
  have e2 : r * (1 - (cos al * cos t + sin al * sin t)) = (d - r * sin t) * sin al + r * (1 - cos t) * cos al := by
    linear_combination h2
  rw [e1, e2]
  module

theorem half (F : BlendFacts s i e p q dev al d r a) {t : ℝ} (h0 : 0 ≤ t) (h1 : t ≤ al / 2) :
    0 ≤ d - r * sin t ∧ d - r * sin t ≤ d ∧ 0 ≤ r * (1 - cos t) ∧ r * (1 - cos t) ≤ dev := by
  have hpi := F.al1
  have hs1 : sin t ≤ sin (al / 2) := sin_le_sin_of_le_of_le_pi_div_two (by linarith) (by linarith) h1
  have hs0 : 0 ≤ sin t := sin_nonneg_of_nonneg_of_le_pi h0 (by linarith)
  have hc1 : cos (al / 2) ≤ cos t := cos_le_cos_of_nonneg_of_le_pi h0 (by linarith) h1
  have hcl := cos_le_one t
  have hcl2 := cos_le_one (al / 2)
  have hr := F.r0
  refine ⟨?_, ?_, ?_, ?_⟩
  · have : r * sin t ≤ d * cos (al / 2) := by rw [← F.hr]; exact mul_le_mul_of_nonneg_left hs1 hr.le
    nlinarith [F.d0]
  · nlinarith
  · nlinarith
  · have h2 : r * (1 - cos t) ≤ r * (1 - cos (al / 2)) := mul_le_mul_of_nonneg_left (by linarith) hr.le
    refine le_trans h2 ?_
    have h3 : r * (1 - cos (al / 2)) * sin (al / 2) ≤ dev * sin (al / 2) := by
      calc r * (1 - cos (al / 2)) * sin (al / 2) = r * sin (al / 2) * (1 - cos (al / 2)) := by ring
        _ = d * (1 - cos (al / 2)) * cos (al / 2) := by rw [F.hr]; ring
        _ ≤ d * (1 - cos (al / 2)) * 1 := mul_le_mul_of_nonneg_left hcl2 (mul_nonneg F.d0.le (by linarith))
        _ ≤ dev * sin (al / 2) := by rw [mul_one]; exact F.dd
    exact le_of_mul_le_mul_right h3 F.sin_pos

end BlendFacts

theorem leg_in {s i : V n} (t : ℝ) (h0 : 0 ≤ t) (h1 : t ≤ ‖i - s‖) : i - t • normalized (i - s) ∈ segment ℝ s i := by
  rcases eq_or_ne s i with rfl | hne
  · simp [normalized]
  have hp : 0 < ‖i - s‖ := norm_pos_iff.mpr (sub_ne_zero.mpr hne.symm)
  refine ⟨t / ‖i - s‖, 1 - t / ‖i - s‖, by positivity, by rw [sub_nonneg, div_le_one hp]; exact h1, by ring, ?_⟩
  unfold normalized
  rw [smul_smul, ← div_eq_mul_inv]
  module

theorem leg_out {i e : V n} (t : ℝ) (h0 : 0 ≤ t) (h1 : t ≤ ‖e - i‖) : i + t • normalized (e - i) ∈ segment ℝ i e := by
  rcases eq_or_ne i e with rfl | hne
  · simp [normalized]
  have hp : 0 < ‖e - i‖ := norm_pos_iff.mpr (sub_ne_zero.mpr hne.symm)
  refine ⟨1 - t / ‖e - i‖, t / ‖e - i‖, by rw [sub_nonneg, div_le_one hp]; exact h1, by positivity, by ring, ?_⟩
  unfold normalized
  rw [smul_smul, ← div_eq_mul_inv]
  module

theorem Corner.blend {start i e : V n} (hc : Corner start i e) {dev : ℝ} (hdev : 0 < dev) :
    ‖normalized (i - start)‖ = 1 ∧ ‖normalized (e - i)‖ = 1 ∧ ∃ al d r, BlendFacts start i e (normalized (i - start)) (normalized (e - i)) dev al d r (Arc.make start i e dev) := by
  have h1 : i - start ≠ 0 := by
    have := hc.in_leg
    intro h; rw [h, norm_zero] at this; norm_num at this
  have h2 : e - i ≠ 0 := by
    have := hc.out_leg
    intro h; rw [h, norm_zero] at this; norm_num at this
  have hp := normalized_norm h1
  have hq := normalized_norm h2
  refine ⟨hp, hq, ?_⟩
  unfold Arc.make
  rw [if_neg (by have := hc.in_leg; have := hc.out_leg; push Not; constructor <;> assumption), if_neg (not_lt.mpr hc.bend)]
  obtain ⟨al, d, r, F⟩ := blend_facts hp hq (fun h => by
    have := hc.bend
    rw [h, sub_self, norm_zero] at this; norm_num at this) hc.no_reversal (sub_ne_zero.mp h1).symm (sub_ne_zero.mp h2) hdev
  exact ⟨al, d, r, F⟩

/-! ### C76 -/

/-- C76: the blend of a corner leaves the incoming leg at some distance before the corner, in its direction, and joins the outgoing leg at
the same distance after it, in its direction; no point of it is further than the permitted deviation from the two legs, its middle is not
further than that from the corner, it is not longer than the way round the corner, and it cannot be larger: either a whole leg is used or
the middle is exactly the permitted deviation away from the corner. -/
theorem C76_blend (start i e : V n) (dev : ℝ) (hc : Corner start i e) (hdev : 0 < dev) :
    let a := Arc.make start i e dev
    let p := normalized (i - start)
    let q := normalized (e - i)
    0 < a.length ∧ ∃ d, 0 < d ∧ d ≤ ‖i - start‖ ∧ d ≤ ‖e - i‖ ∧
      a.config 0 = i - d • p ∧ a.tangent 0 = p ∧ a.config a.length = i + d • q ∧ a.tangent a.length = q ∧
      (∀ s, 0 ≤ s → s ≤ a.length → ∃ z, (z ∈ segment ℝ start i ∨ z ∈ segment ℝ i e) ∧ dist (a.config s) z ≤ dev) ∧
      dist (a.config (a.length / 2)) i ≤ dev ∧ a.length ≤ 2 * d ∧
      (d = min ‖i - start‖ ‖e - i‖ ∨ dist (a.config (a.length / 2)) i = dev) := by
  intro a p q
  obtain ⟨hp, hq, al, d, r, F⟩ := hc.blend hdev
  have hlen := F.len
  have hr := F.r0
  have hdm : dist (a.config (a.length / 2)) i = d * (1 - cos (al / 2)) / sin (al / 2) := by
    rw [show a.length / 2 = r * (al / 2) by rw [hlen]; ring, F.config_eq, dist_eq_norm, F.hr]
    have : i - (d - d * cos (al / 2)) • p - (r * (1 - cos (al / 2))) • a.x - i =
        -((r * (1 - cos (al / 2))) • a.x + (d * (1 - cos (al / 2))) • p) := by module
    rw [this, norm_neg]
    have h1 := cos_le_one (al / 2)
    refine (pow_left_inj₀ (norm_nonneg _) (div_nonneg (mul_nonneg F.d0.le (by linarith)) F.sin_pos.le) (two_ne_zero)).mp ?_
    rw [F.comb hp hq]
    have hs := F.sin_pos
    have h2 := sin_sq_add_cos_sq (al / 2)
    rw [div_pow, eq_div_iff (by positivity)]
    have : ((r * (1 - cos (al / 2))) ^ 2 + (d * (1 - cos (al / 2))) ^ 2) * sin (al / 2) ^ 2 =
        (1 - cos (al / 2)) ^ 2 * ((r * sin (al / 2)) ^ 2 + (d * sin (al / 2)) ^ 2) := by ring
    rw [this, F.hr]
    linear_combination d ^ 2 * (1 - cos (al / 2)) ^ 2 * h2
  refine ⟨by rw [hlen]; exact mul_pos F.al0 hr, d, F.d0, by rw [norm_sub_rev]; exact F.ds, F.de, ?_, ?_, ?_, ?_, ?_, ?_, ?_, ?_⟩
  · have := F.config_eq 0
    simpa using this
  · show a.tangent 0 = p
    unfold Arc.tangent
    simp [F.hy, p, a]
  · have := F.config_eq' 0
    rw [sub_zero, mul_comm, ← hlen] at this
    simpa using this
  · show a.tangent a.length = q
    unfold Arc.tangent
    rw [hlen, F.rad, mul_div_cancel_right₀ _ hr.ne', F.hy]
    have := F.q_eq
    show _ = normalized (e - i)
    rw [this]
    module
  · intro s hs0 hs1
    rcases le_total s (r * (al / 2)) with h | h
    · obtain ⟨h1, h2, h3, h4⟩ := F.half (t := s / r) (by positivity) (by rw [div_le_iff₀ hr]; linarith)
      refine ⟨i - (d - r * sin (s / r)) • p, .inl (leg_in _ h1 (by have := F.ds; rw [norm_sub_rev] at this; linarith)), ?_⟩
      have := F.config_eq (s / r)
      rw [mul_div_cancel₀ _ hr.ne'] at this
      rw [this, dist_eq_norm, sub_sub_cancel_left, norm_neg, norm_smul, F.x_norm hp hq, mul_one, norm_of_nonneg h3]
      exact h4
    · obtain ⟨h1, h2, h3, h4⟩ := F.half (t := al - s / r) (by rw [sub_nonneg, div_le_iff₀ hr]; linarith)
        (by rw [sub_le_iff_le_add, ← sub_le_iff_le_add', le_div_iff₀ hr]; linarith)
      refine ⟨i + (d - r * sin (al - s / r)) • q, .inr (leg_out _ h1 (by have := F.de; linarith)), ?_⟩
      have := F.config_eq' (al - s / r)
      rw [sub_sub_cancel, mul_div_cancel₀ _ hr.ne'] at this
      have hn : ‖cos al • (Arc.make start i e dev).x + sin al • normalized (i - start)‖ = 1 := by
        refine (pow_left_inj₀ (norm_nonneg _) zero_le_one (two_ne_zero)).mp ?_
        rw [F.comb hp hq]
        linarith [sin_sq_add_cos_sq al]
      rw [this, dist_eq_norm, sub_sub_cancel_left, norm_neg, norm_smul, hn, mul_one, norm_of_nonneg h3]
      exact h4
  · rw [hdm, div_le_iff₀ F.sin_pos]
    exact F.dd
  · rw [hlen]
    have hs := F.sin_pos
    have hcp := F.cos_pos
    have ht : al / 2 * cos (al / 2) ≤ sin (al / 2) := by
      have := le_tan (x := al / 2) (by linarith [F.al0]) (by linarith [F.al1])
      rwa [tan_eq_sin_div_cos, le_div_iff₀ hcp] at this
    have h5 : al * r * sin (al / 2) ≤ 2 * d * sin (al / 2) := by
      rw [mul_assoc, F.hr]
      nlinarith [F.d0]
    exact le_of_mul_le_mul_right h5 hs
  · have hv := F.dval
    rcases le_total (min ‖start - i‖ ‖e - i‖) (dev * sin (al / 2) / (1 - cos (al / 2))) with h | h
    · left
      rw [min_eq_left h] at hv
      rw [hv, norm_sub_rev]
    · right
      rw [min_eq_right h] at hv
      rw [hdm, hv]
      have hs := F.sin_pos
      have hc1 : cos (al / 2) < 1 := by
        have := sin_sq_add_cos_sq (al / 2)
        nlinarith [F.cos_pos]
      have : 1 - cos (al / 2) ≠ 0 := by linarith
      field_simp

/-- C76: a blend is parametrized by its arc length: its tangent is the derivative of its configuration and has length 1, the curvature is
the derivative of the tangent. -/
theorem C76_arc_length (start i e : V n) (dev : ℝ) (hc : Corner start i e) (hdev : 0 < dev) (s : ℝ) :
    let a := Arc.make start i e dev
    HasDerivAt a.config (a.tangent s) s ∧ ‖a.tangent s‖ = 1 ∧ HasDerivAt a.tangent (a.curvature s) s ∧
      inner ℝ (a.tangent s) (a.curvature s) = 0 := by
  intro a
  obtain ⟨hp, hq, al, d, r, F⟩ := hc.blend hdev
  have hr := F.r0
  have hrad : a.radius = r := F.rad
  have hdiv : HasDerivAt (fun s : ℝ => s / a.radius) (1 / a.radius) s := (hasDerivAt_id s).div_const _
  have hcos := hdiv.cos
  have hsin := hdiv.sin
  have hr' : a.radius ≠ 0 := by rw [hrad]; exact hr.ne'
  refine ⟨?_, ?_, ?_, ?_⟩
  · have h := (((hcos.smul_const a.x).add (hsin.smul_const a.y)).const_smul a.radius).const_add a.center
    refine h.congr_deriv ?_
    unfold Arc.tangent
    rw [smul_add, smul_smul, smul_smul]
    have e1 : a.radius * (-sin (s / a.radius) * (1 / a.radius)) = -sin (s / a.radius) := by field_simp
    have e2 : a.radius * (cos (s / a.radius) * (1 / a.radius)) = cos (s / a.radius) := by field_simp
    rw [e1, e2, neg_smul]
  · refine (pow_left_inj₀ (norm_nonneg _) zero_le_one (two_ne_zero)).mp ?_
    unfold Arc.tangent
    rw [← neg_smul, F.hy, F.comb hp hq]
    have := sin_sq_add_cos_sq (s / a.radius)
    nlinarith
  · have h := ((hsin.smul_const a.x).neg).add (hcos.smul_const a.y)
    refine h.congr_deriv ?_
    unfold Arc.curvature
    module
  · unfold Arc.tangent Arc.curvature
    rw [F.hy]
    have hxp : inner ℝ a.x (normalized (i - start)) = 0 := F.x_p hp
    have hx : ‖a.x‖ = 1 := F.x_norm hp hq
    have hpx : inner ℝ (normalized (i - start)) a.x = 0 := by rw [real_inner_comm]; exact hxp
    have hxx : inner ℝ a.x a.x = 1 := by rw [real_inner_self_eq_norm_sq, hx]; norm_num
    have hpp : inner ℝ (normalized (i - start)) (normalized (i - start)) = 1 := by rw [real_inner_self_eq_norm_sq, hp]; norm_num
    simp only [inner_add_left, inner_add_right, inner_neg_left, inner_smul_left, inner_smul_right, hxp, hpx, hxx, hpp, conj_trivial]
    ring

/-- C76: no blend is made at a corner with a very short leg, or when the path (nearly) goes straight on: the segment has no length and is
the corner itself. -/
theorem C76_no_blend (start i e : V n) (dev : ℝ) (h : ‖i - start‖ < 1 / 1000000 ∨ ‖e - i‖ < 1 / 1000000 ∨
    ‖normalized (i - start) - normalized (e - i)‖ < 1 / 1000000) :
    (Arc.make start i e dev).length = 0 ∧ (∀ s, (Arc.make start i e dev).config s = i) ∧ ∀ s, (Arc.make start i e dev).tangent s = 0 := by
  have : Arc.make start i e dev = Arc.none i := by
    unfold Arc.make
    split_ifs with h1 h2
    · rfl
    · rfl
    · rcases h with h | h | h
      · exact absurd (.inl h) h1
      · exact absurd (.inr h) h1
      · exact absurd h h2
  rw [this]
  refine ⟨rfl, fun s => ?_, fun s => ?_⟩
  · simp [Arc.none, Arc.config]
  · simp [Arc.none, Arc.tangent]

theorem polar (x y : ℝ) : ∃ ρ, 0 ≤ ρ ∧ (ρ = 0 ↔ x = 0 ∧ y = 0) ∧ x = ρ * cos (atan2 y x) ∧ y = ρ * sin (atan2 y x) := by
  refine ⟨‖(⟨x, y⟩ : ℂ)‖, norm_nonneg _, ?_, ?_, ?_⟩
  · rw [norm_eq_zero, Complex.ext_iff]; rfl
  · exact (Complex.norm_mul_cos_arg ⟨x, y⟩).symm
  · exact (Complex.norm_mul_sin_arg ⟨x, y⟩).symm

open Classical in
theorem switching_angle (x y : ℝ) (t : ℝ) (h0 : 0 < t) (h1 : t < π) :
    (if atan2 y x < 0 then atan2 y x + π else atan2 y x) = t ↔ -(sin t * x) + cos t * y = 0 ∧ ¬ (x = 0 ∧ y = 0) := by
  obtain ⟨ρ, r0, hz, hx, hy⟩ := polar x y
  have hb := Complex.arg_mem_Ioc ⟨x, y⟩
  change atan2 y x ∈ _ at hb
  by_cases hxy : x = 0 ∧ y = 0
  · have : atan2 y x = 0 := by
      unfold atan2
      rw [hxy.1, hxy.2]
      exact Complex.arg_zero
    rw [this, if_neg (lt_irrefl 0)]
    constructor
    · intro h; linarith
    · intro h; exact absurd hxy h.2
  · have rp : 0 < ρ := lt_of_le_of_ne r0 (fun h => hxy (hz.mp h.symm))
    generalize atan2 y x = φ at *
    have he : -(sin t * x) + cos t * y = ρ * sin (φ - t) := by
      rw [hx, hy, sin_sub]; ring
    rw [he, mul_eq_zero]
    simp only [rp.ne', false_or, hxy, not_false_eq_true, and_true]
    constructor
    · intro h
      split_ifs at h with hn
      · rw [show φ - t = -π by linarith, sin_neg, sin_pi, neg_zero]
      · rw [show φ - t = 0 by linarith, sin_zero]
    · intro h
      split_ifs with hn
      · have : sin (φ + π - t) = 0 := by rw [show φ + π - t = (φ - t) + π by ring, sin_add_pi, h, neg_zero]
        have := (sin_eq_zero_iff_of_lt_of_lt (by linarith [hb.1]) (by linarith)).mp this
        linarith
      · have := (sin_eq_zero_iff_of_lt_of_lt (by linarith [hb.2]) (by linarith [hb.2])).mp h
        linarith

theorem mem_switchingPoints (a : Arc n) (s : ℝ) : s ∈ a.switchingPoints ↔ s < a.length ∧ ∃ k, a.switchingPoint k = s := by
  unfold Arc.switchingPoints
  rw [List.mem_mergeSort, List.mem_filter, List.mem_map]
  simp only [List.mem_finRange, true_and, decide_eq_true_eq]
  exact and_comm

/-- C76: the switching points of a blend are in order and inside the blend, and inside it they are exactly the places where some coordinate
of the tangent (that is not zero all along the blend) becomes zero. -/
theorem C76_switching_points (start i e : V n) (dev : ℝ) (hc : Corner start i e) (hdev : 0 < dev) :
    let a := Arc.make start i e dev
    a.switchingPoints.Pairwise (· ≤ ·) ∧ (∀ s ∈ a.switchingPoints, 0 ≤ s ∧ s < a.length) ∧
      ∀ s, 0 < s → s < a.length → (s ∈ a.switchingPoints ↔ ∃ k, a.tangent s k = 0 ∧ ∃ s', a.tangent s' k ≠ 0) := by
  intro a
  obtain ⟨hp, hq, al, d, r, F⟩ := hc.blend hdev
  have hr := F.r0
  have hrad : a.radius = r := F.rad
  have hlen : a.length = al * r := F.len
  refine ⟨?_, ?_, ?_⟩
  · unfold Arc.switchingPoints
    have := List.pairwise_mergeSort (le := fun p q : ℝ => decide (p ≤ q)) (fun a b c h1 h2 => by
      simp only [decide_eq_true_eq] at *; linarith) (fun a b => by simpa using le_total a b)
      (((List.finRange n).map a.switchingPoint).filter (fun p => p < a.length))
    refine (this.imp ?_)
    intro p q h
    simpa using h
  · intro s hs
    obtain ⟨h1, k, h2⟩ := (mem_switchingPoints _ _).mp hs
    refine ⟨?_, h1⟩
    rw [← h2]
    unfold Arc.switchingPoint
    refine mul_nonneg ?_ (by rw [hrad]; exact hr.le)
    have hb : -π < atan2 (a.y k) (a.x k) := (Complex.arg_mem_Ioc ⟨a.x k, a.y k⟩).1
    split_ifs with hn
    · linarith
    · linarith
  · intro s h0 h1
    rw [mem_switchingPoints]
    simp only [h1, true_and]
    refine exists_congr fun k => ?_
    have ht1 : s / r < π := by
      rw [div_lt_iff₀ hr]
      have := F.al1
      rw [hlen] at h1
      nlinarith
    have hsw := switching_angle (a.x k) (a.y k) (s / r) (by positivity) ht1
    unfold Arc.switchingPoint
    rw [← eq_div_iff (by rw [hrad]; exact hr.ne'), hrad, hsw]
    refine and_congr ?_ ?_
    · unfold Arc.tangent
      rw [hrad]
      simp
    · constructor
      · intro hxy
        by_contra hall
        push Not at hall
        apply hxy
        have h3 := hall 0
        have h4 := hall (r * (π / 2))
        unfold Arc.tangent at h3 h4
        rw [hrad, mul_div_cancel_left₀ _ hr.ne'] at h4
        rw [hrad] at h3
        simp at h3 h4
        exact ⟨h4, h3⟩
      · rintro ⟨s', hs'⟩ ⟨hx, hy⟩
        apply hs'
        unfold Arc.tangent
        simp [hx, hy]

/-- Non-vacuity: a right-angled corner in the plane. -/
theorem square_corner : Corner (n := 2) !₂[0, 0] !₂[1, 0] !₂[1, 1] := by
  have e1 : (!₂[1, 0] - !₂[0, 0] : V 2) = !₂[1, 0] := by ext j; fin_cases j <;> simp
  have e2 : (!₂[1, 1] - !₂[1, 0] : V 2) = !₂[0, 1] := by ext j; fin_cases j <;> simp
  have n1 : ‖(!₂[1, 0] : V 2)‖ = 1 := by rw [EuclideanSpace.norm_eq]; simp
  have n2 : ‖(!₂[0, 1] : V 2)‖ = 1 := by rw [EuclideanSpace.norm_eq]; simp
  have d1 : normalized (!₂[1, 0] : V 2) = !₂[1, 0] := by unfold normalized; rw [n1]; simp
  have d2 : normalized (!₂[0, 1] : V 2) = !₂[0, 1] := by unfold normalized; rw [n2]; simp
  refine ⟨?_, ?_, ?_, ?_⟩
  · rw [e1, n1]; norm_num
  · rw [e2, n2]; norm_num
  · rw [e1, e2, d1, d2, show (!₂[1, 0] - !₂[0, 1] : V 2) = !₂[1, -1] by ext j; fin_cases j <;> simp, EuclideanSpace.norm_eq]
    rw [Real.le_sqrt (by norm_num) (by positivity)]
    simp
    norm_num
  · rw [e1, e2, d1, d2]
    intro h
    have := congrFun (congrArg (fun v : V 2 => (v : Fin 2 → ℝ)) h) 1
    simp at this

end CRU.Totp
