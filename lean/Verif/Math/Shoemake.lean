import Mathlib.Analysis.SpecialFunctions.PolarCoord
import Mathlib.MeasureTheory.Integral.IntervalIntegral.Periodic
import Mathlib.MeasureTheory.Function.JacobianOneDim
import Mathlib.Analysis.SpecialFunctions.Integrals.Basic
/-
  Integration over ℝ⁴ in the coordinates of Shoemake's method (used by C88): a radius ρ, a number x in [0,1) and two angles.
  No code is modelled here.
-/
namespace CRU.Math.Shoemake
open MeasureTheory Set Real
open scoped ENNReal

theorem circle {k : ℝ → ℝ≥0∞} (hk : ∀ (n : ℤ) t, k (n * (2 * π) + t) = k t) :
    ∫⁻ t in Ioo (-π) π, k t = ∫⁻ u in Ico (0 : ℝ) 1, ENNReal.ofReal (2 * π) * k (2 * π * u) := by
  have hp : (0 : ℝ) < 2 * π := by positivity
  have h1 : ∫⁻ t in Ioo (-π) π, k t = ∫⁻ t in Ioc (-π) (-π + 2 * π), k t := by
    rw [show -π + 2 * π = π by ring]
    exact setLIntegral_congr Ioo_ae_eq_Ioc
  have h2 : ∫⁻ t in Ioc (-π) (-π + 2 * π), k t = ∫⁻ t in Ioc 0 (0 + 2 * π), k t := by
    refine (isAddFundamentalDomain_Ioc hp (-π)).setLIntegral_eq (isAddFundamentalDomain_Ioc hp 0) k ?_
    rintro ⟨g, hg⟩ x
    obtain ⟨n, rfl⟩ := AddSubgroup.mem_zmultiples_iff.mp hg
    rw [AddSubgroup.vadd_def]
    simpa using hk n x
  have h3 : (fun u => 2 * π * u) '' Ico (0 : ℝ) 1 = Ico 0 (2 * π) := by
    rw [image_mul_left_Ico hp]; simp
  rw [h1, h2, zero_add, ← setLIntegral_congr (Ico_ae_eq_Ioc (a := (0 : ℝ)) (b := 2 * π)), ← h3,
    lintegral_image_eq_lintegral_abs_deriv_mul measurableSet_Ico (f' := fun _ => 2 * π)
      (fun x _ => by simpa using ((hasDerivAt_id x).const_mul (2 * π)).hasDerivWithinAt)
      (fun a _ b _ h => mul_left_cancel₀ hp.ne' h)]
  simp [abs_of_pos hp]

theorem polar_pair {f : ℝ × ℝ → ℝ≥0∞} (hf : Measurable f) :
    ∫⁻ p, f p = ∫⁻ r in Ioi (0 : ℝ), ENNReal.ofReal r *
      ∫⁻ u in Ico (0 : ℝ) 1, ENNReal.ofReal (2 * π) * f (r * cos (2 * π * u), r * sin (2 * π * u)) := by
  rw [← lintegral_comp_polarCoord_symm, polarCoord_target, Measure.volume_eq_prod, setLIntegral_prod]
  · refine lintegral_congr fun r => ?_
    simp only [polarCoord_symm_apply, smul_eq_mul]
    rw [lintegral_const_mul' _ _ ENNReal.ofReal_ne_top, circle]
    intro n t
    have e1 := Real.cos_add_int_mul_two_pi t n
    have e2 := Real.sin_add_int_mul_two_pi t n
    rw [add_comm, e1, e2]
  · have : Measurable fun p : ℝ × ℝ => ENNReal.ofReal p.1 • f (polarCoord.symm p) := by
      simp only [polarCoord_symm_apply]
      fun_prop
    exact this.aemeasurable

theorem quarter (h : ℝ → ℝ≥0∞) :
    ∫⁻ x in Ico (0 : ℝ) 1, h x = ∫⁻ t in Ioo 0 (π / 2), ENNReal.ofReal (2 * sin t * cos t) * h (sin t ^ 2) := by
  have himg : (fun t => sin t ^ 2) '' Ioo 0 (π / 2) = Ioo (0 : ℝ) 1 := by
    ext x
    constructor
    · rintro ⟨t, ⟨h0, h1⟩, rfl⟩
      have hs : 0 < sin t := sin_pos_of_pos_of_lt_pi h0 (by linarith [pi_pos])
      have hc : 0 < cos t := cos_pos_of_mem_Ioo ⟨by linarith, h1⟩
      refine ⟨by positivity, ?_⟩
      nlinarith [sin_sq_add_cos_sq t]
    · rintro ⟨h0, h1⟩
      have hs := Real.sqrt_pos.mpr h0
      have hs1 : √x < 1 := by rw [Real.sqrt_lt' one_pos]; simpa using h1
      refine ⟨arcsin √x, ⟨arcsin_pos.mpr hs, arcsin_lt_pi_div_two.mpr hs1⟩, ?_⟩
      simp only
      rw [sin_arcsin (by linarith) hs1.le, Real.sq_sqrt h0.le]
  rw [← setLIntegral_congr (Ioo_ae_eq_Ico (a := (0 : ℝ)) (b := 1)), ← himg,
    lintegral_image_eq_lintegral_abs_deriv_mul measurableSet_Ioo (f' := fun t => 2 * sin t * cos t)
      (fun t _ => by
        have h := ((hasDerivAt_sin t).pow 2).hasDerivWithinAt (s := Ioo 0 (π / 2))
        simp only [Nat.cast_ofNat, Nat.add_one_sub_one, pow_one] at h
        exact h)]
  · refine setLIntegral_congr_fun measurableSet_Ioo fun t ht => ?_
    have hs : 0 < sin t := sin_pos_of_pos_of_lt_pi ht.1 (by linarith [ht.2, pi_pos])
    have hc : 0 < cos t := cos_pos_of_mem_Ioo ⟨by linarith [ht.1, pi_pos], ht.2⟩
    rw [abs_of_pos (by positivity)]
  · intro a ha b hb hab
    have hsa : 0 < sin a := sin_pos_of_pos_of_lt_pi ha.1 (by linarith [ha.2, pi_pos])
    have hsb : 0 < sin b := sin_pos_of_pos_of_lt_pi hb.1 (by linarith [hb.2, pi_pos])
    have : sin a = sin b := by
      have := (sq_eq_sq₀ hsa.le hsb.le).mp hab
      exact this
    exact injOn_sin ⟨by linarith [ha.1, pi_pos], ha.2.le⟩ ⟨by linarith [hb.1, pi_pos], hb.2.le⟩ this

theorem quadrant {G : ℝ × ℝ → ℝ≥0∞} (hG : Measurable G) :
    ∫⁻ a in Ioi (0 : ℝ), ∫⁻ b in Ioi (0 : ℝ), ENNReal.ofReal a * (ENNReal.ofReal b * G (a, b)) =
      ∫⁻ ρ in Ioi (0 : ℝ), ENNReal.ofReal (ρ ^ 3 / 2) * ∫⁻ x in Ico (0 : ℝ) 1, G (ρ * √(1 - x), ρ * √x) := by
  have hm : Measurable fun p : ℝ × ℝ => ENNReal.ofReal p.1 * (ENNReal.ofReal p.2 * G p) := by fun_prop
  rw [← setLIntegral_prod (fun p : ℝ × ℝ => ENNReal.ofReal p.1 * (ENNReal.ofReal p.2 * G p)) hm.aemeasurable,
    ← Measure.volume_eq_prod, ← lintegral_indicator (measurableSet_Ioi.prod measurableSet_Ioi),
    ← lintegral_comp_polarCoord_symm, polarCoord_target, Measure.volume_eq_prod, setLIntegral_prod]
  swap
  · have := hm.indicator ((measurableSet_Ioi (a := (0 : ℝ))).prod (measurableSet_Ioi (a := (0 : ℝ))))
    have : Measurable fun p : ℝ × ℝ => ENNReal.ofReal p.1 • (Ioi (0 : ℝ) ×ˢ Ioi (0 : ℝ)).indicator
        (fun p => ENNReal.ofReal p.1 * (ENNReal.ofReal p.2 * G p)) (polarCoord.symm p) := by
      simp only [polarCoord_symm_apply]
      fun_prop
    exact this.aemeasurable
  refine setLIntegral_congr_fun measurableSet_Ioi fun ρ hρ => ?_
  have hρ : 0 < ρ := hρ
  simp only [polarCoord_symm_apply, smul_eq_mul]
  rw [quarter, ← lintegral_const_mul' _ _ ENNReal.ofReal_ne_top,
    ← lintegral_indicator measurableSet_Ioo, ← lintegral_indicator measurableSet_Ioo]
  refine lintegral_congr fun t => ?_
  by_cases ht : t ∈ Ioo 0 (π / 2)
  · have hs : 0 < sin t := sin_pos_of_pos_of_lt_pi ht.1 (by linarith [ht.2, pi_pos])
    have hc : 0 < cos t := cos_pos_of_mem_Ioo ⟨by linarith [ht.1, pi_pos], ht.2⟩
    rw [indicator_of_mem ht, indicator_of_mem (show t ∈ Ioo (-π) π from ⟨by linarith [ht.1, pi_pos], by linarith [ht.2, pi_pos]⟩),
      indicator_of_mem (show (ρ * cos t, ρ * sin t) ∈ Ioi (0 : ℝ) ×ˢ Ioi (0 : ℝ) from
        ⟨by simpa using by positivity, by simpa using by positivity⟩)]
    rw [show 1 - sin t ^ 2 = cos t ^ 2 by linarith [sin_sq_add_cos_sq t], Real.sqrt_sq hs.le, Real.sqrt_sq hc.le,
      ← mul_assoc, ← mul_assoc, ← mul_assoc, ← ENNReal.ofReal_mul hρ.le, ← ENNReal.ofReal_mul (by positivity),
      ← ENNReal.ofReal_mul (by positivity)]
    congr 2
    ring
  · rw [indicator_of_notMem ht]
    by_cases ht2 : t ∈ Ioo (-π) π
    · rw [indicator_of_mem ht2, indicator_of_notMem, mul_zero]
      rintro ⟨h1, h2⟩
      have h1 : 0 < ρ * cos t := h1
      have h2 : 0 < ρ * sin t := h2
      have hc : 0 < cos t := by
        rcases pos_and_pos_or_neg_and_neg_of_mul_pos h1 with h | h
        · exact h.2
        · linarith
      have hs : 0 < sin t := by
        rcases pos_and_pos_or_neg_and_neg_of_mul_pos h2 with h | h
        · exact h.2
        · linarith
      apply ht
      constructor
      · by_contra h
        have := sin_nonpos_of_nonpos_of_neg_pi_le (not_lt.mp h) ht2.1.le
        linarith
      · by_contra h
        have := cos_nonpos_of_pi_div_two_le_of_le (not_lt.mp h) (by linarith [ht2.2, pi_pos])
        linarith
    · rw [indicator_of_notMem ht2]

/-- Integration over ℝ⁴, as two planes, in Shoemake's coordinates. -/
theorem four {f : (ℝ × ℝ) × (ℝ × ℝ) → ℝ≥0∞} (hf : Measurable f) :
    ∫⁻ p, f p = ∫⁻ ρ in Ioi (0 : ℝ), ENNReal.ofReal (2 * π ^ 2 * ρ ^ 3) * ∫⁻ x in Ico (0 : ℝ) 1, ∫⁻ u in Ico (0 : ℝ) 1,
      ∫⁻ v in Ico (0 : ℝ) 1, f ((ρ * √(1 - x) * cos (2 * π * u), ρ * √(1 - x) * sin (2 * π * u)),
        (ρ * √x * cos (2 * π * v), ρ * √x * sin (2 * π * v))) := by
  rw [Measure.volume_eq_prod, lintegral_prod _ hf.aemeasurable]
  have hG : Measurable fun p : ℝ × ℝ => ∫⁻ u in Ico (0 : ℝ) 1, ∫⁻ v in Ico (0 : ℝ) 1,
      f ((p.1 * cos (2 * π * u), p.1 * sin (2 * π * u)), (p.2 * cos (2 * π * v), p.2 * sin (2 * π * v))) := by
    have h2 : Measurable fun q : (ℝ × ℝ) × ℝ => ∫⁻ v in Ico (0 : ℝ) 1,
        f ((q.1.1 * cos (2 * π * q.2), q.1.1 * sin (2 * π * q.2)), (q.1.2 * cos (2 * π * v), q.1.2 * sin (2 * π * v))) := by
      refine Measurable.lintegral_prod_right' (f := fun w : ((ℝ × ℝ) × ℝ) × ℝ => f ((w.1.1.1 * cos (2 * π * w.1.2),
        w.1.1.1 * sin (2 * π * w.1.2)), (w.1.1.2 * cos (2 * π * w.2), w.1.1.2 * sin (2 * π * w.2)))) ?_
      fun_prop
    exact Measurable.lintegral_prod_right' h2
  have hinner : Measurable fun p1 : ℝ × ℝ => ∫⁻ p2 : ℝ × ℝ, f (p1, p2) := hf.lintegral_prod_right'
  rw [polar_pair hinner]
  have h1 : ∀ p1 : ℝ × ℝ, ∫⁻ p2 : ℝ × ℝ, f (p1, p2) = ∫⁻ b in Ioi (0 : ℝ), ENNReal.ofReal b * (ENNReal.ofReal (2 * π) *
      ∫⁻ v in Ico (0 : ℝ) 1, f (p1, (b * cos (2 * π * v), b * sin (2 * π * v)))) := by
    intro p1
    rw [polar_pair (f := fun p2 => f (p1, p2)) (by fun_prop)]
    refine lintegral_congr fun b => ?_
    rw [lintegral_const_mul' _ _ ENNReal.ofReal_ne_top]
  have key : ∀ a : ℝ, ENNReal.ofReal a * (∫⁻ u in Ico (0 : ℝ) 1, ENNReal.ofReal (2 * π) *
        ∫⁻ p2 : ℝ × ℝ, f ((a * cos (2 * π * u), a * sin (2 * π * u)), p2)) =
      ENNReal.ofReal (4 * π ^ 2) * ∫⁻ b in Ioi (0 : ℝ), ENNReal.ofReal a * (ENNReal.ofReal b * ∫⁻ u in Ico (0 : ℝ) 1, ∫⁻ v in Ico (0 : ℝ) 1,
        f ((a * cos (2 * π * u), a * sin (2 * π * u)), (b * cos (2 * π * v), b * sin (2 * π * v)))) := by
    intro a
    rw [lintegral_const_mul' _ _ ENNReal.ofReal_ne_top, lintegral_const_mul' _ _ ENNReal.ofReal_ne_top,
      mul_left_comm (ENNReal.ofReal (4 * π ^ 2))]
    congr 1
    simp only [h1]
    rw [lintegral_lintegral_swap]
    · rw [show (4 * π ^ 2 : ℝ) = (2 * π) * (2 * π) by ring, ENNReal.ofReal_mul (p := 2 * π) (q := 2 * π) (by positivity),
        mul_assoc (ENNReal.ofReal (2 * π)) (ENNReal.ofReal (2 * π))]
      congr 1
      rw [← lintegral_const_mul' _ _ ENNReal.ofReal_ne_top]
      refine lintegral_congr fun b => ?_
      rw [lintegral_const_mul' _ _ ENNReal.ofReal_ne_top, lintegral_const_mul' _ _ ENNReal.ofReal_ne_top, mul_left_comm]
    · have h2 : Measurable fun q : ℝ × ℝ => ∫⁻ v in Ico (0 : ℝ) 1,
          f ((a * cos (2 * π * q.1), a * sin (2 * π * q.1)), (q.2 * cos (2 * π * v), q.2 * sin (2 * π * v))) := by
        refine Measurable.lintegral_prod_right' (f := fun w : (ℝ × ℝ) × ℝ => f ((a * cos (2 * π * w.1.1),
          a * sin (2 * π * w.1.1)), (w.1.2 * cos (2 * π * w.2), w.1.2 * sin (2 * π * w.2)))) ?_
        fun_prop
      refine Measurable.aemeasurable ?_
      simp only [Function.uncurry_def]
      fun_prop
  rw [lintegral_congr key, lintegral_const_mul' _ _ ENNReal.ofReal_ne_top, quadrant hG,
    ← lintegral_const_mul' _ _ ENNReal.ofReal_ne_top]
  refine setLIntegral_congr_fun measurableSet_Ioi fun ρ hρ => ?_
  have hρ : 0 < ρ := hρ
  rw [← mul_assoc, ← ENNReal.ofReal_mul (by positivity)]
  congr 2
  ring

end CRU.Math.Shoemake
