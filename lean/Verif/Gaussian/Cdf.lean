import Verif.Base
import Mathlib.Probability.Distributions.Gaussian.Real
import Mathlib.Probability.CDF
import Mathlib.Analysis.SpecialFunctions.Gaussian.GaussianIntegral
import Mathlib.MeasureTheory.Integral.IntegralEqImproper
import Mathlib.MeasureTheory.Integral.IntervalIntegral.FundThmCalculus
/-
  C72: the Gaussian and truncated Gaussian density and distribution functions (gaussian_distributions.hpp:18-139), in exact arithmetic.
-/
namespace CRU.Gaussian
open MeasureTheory ProbabilityTheory Set Filter Topology

/-- `std::erf`, by its definition. -/
noncomputable def erf (x : ℝ) : ℝ := 2 / Real.sqrt Real.pi * ∫ t in (0 : ℝ)..x, Real.exp (-t ^ 2)

/-- gaussian_distributions.hpp:20-24 `EvaluateGaussianCDF`. -/
noncomputable def gaussianCDF (mean sd val : ℝ) : ℝ := 0.5 * (1 + erf (((val - mean) / sd) / Real.sqrt 2))

/-- gaussian_distributions.hpp:28-36 `EvaluateGaussianPDF`. -/
noncomputable def gaussianPDF' (mean sd val : ℝ) : ℝ :=
  let exponent := ((val - mean) * (val - mean)) / (2 * sd * sd)
  let fraction := 1 / (sd * Real.sqrt (2 * Real.pi))
  fraction * Real.exp (-exponent)

open Classical in
/-- gaussian_distributions.hpp:41-67 `EvaluateTruncatedGaussianCDF`. -/
noncomputable def truncatedCDF (mean lo hi sd val : ℝ) : Res ℝ :=
  if lo > hi then .throw .invalidArgument
  else if val ≤ lo then .ok 0
  else if val ≥ hi then .ok 1
  else .ok ((gaussianCDF mean sd val - gaussianCDF mean sd lo) / (gaussianCDF mean sd hi - gaussianCDF mean sd lo))

open Classical in
/-- gaussian_distributions.hpp:72-97 `EvaluateTruncatedGaussianPDF`. -/
noncomputable def truncatedPDF (mean lo hi sd val : ℝ) : Res ℝ :=
  if lo > hi then .throw .invalidArgument
  else if val ≤ lo then .ok 0
  else if val ≥ hi then .ok 0
  else .ok (gaussianPDF' mean sd val / (gaussianCDF mean sd hi - gaussianCDF mean sd lo))

open Classical in
/-- gaussian_distributions.hpp:102-116 `IntegrateGaussian`. -/
noncomputable def integrateGaussian (mean sd a b : ℝ) : Res ℝ :=
  if a > b then .throw .invalidArgument else .ok (gaussianCDF mean sd b - gaussianCDF mean sd a)

open Classical in
/-- gaussian_distributions.hpp:121-139 `IntegrateTruncatedGaussian`. -/
noncomputable def integrateTruncated (mean lo hi sd a b : ℝ) : Res ℝ := do
  if lo > hi then .throw .invalidArgument
  else if a > b then .throw .invalidArgument
  else do
    let x ← truncatedCDF mean lo hi sd a
    let y ← truncatedCDF mean lo hi sd b
    .ok (y - x)

/-! ### Specification: the normal distribution of Mathlib -/

/-- The variance of a standard deviation. -/
noncomputable def variance (sd : ℝ) : NNReal := Real.toNNReal (sd ^ 2)

theorem variance_coe (sd : ℝ) : (variance sd : ℝ) = sd ^ 2 := Real.coe_toNNReal _ (sq_nonneg sd)

/-- The normal distribution with the given mean and standard deviation. -/
noncomputable def normal (mean sd : ℝ) : Measure ℝ := gaussianReal mean (variance sd)

instance (mean sd : ℝ) : IsProbabilityMeasure (normal mean sd) := by unfold normal; infer_instance

/-! ### The error function -/

theorem continuous_exp_neg_sq : Continuous fun t : ℝ => Real.exp (-t ^ 2) := by fun_prop

theorem erf_hasDerivAt (x : ℝ) : HasDerivAt erf (2 / Real.sqrt Real.pi * Real.exp (-x ^ 2)) x := by
  unfold erf
  exact ((continuous_exp_neg_sq.integral_hasStrictDerivAt 0 x).hasDerivAt).const_mul _

theorem integral_half : ∫ t in Ioi (0 : ℝ), Real.exp (-t ^ 2) = Real.sqrt Real.pi / 2 := by
  have := integral_gaussian_Ioi 1
  simpa using this

theorem integrable_exp_neg_sq : Integrable fun t : ℝ => Real.exp (-t ^ 2) := by
  have := integrable_exp_neg_mul_sq (b := 1) one_pos
  simpa using this

theorem erf_tendsto_atTop : Tendsto erf atTop (𝓝 1) := by
  have h := intervalIntegral_tendsto_integral_Ioi (0 : ℝ) integrable_exp_neg_sq.integrableOn (tendsto_id (α := ℝ) (x := atTop))
  rw [integral_half] at h
  have h2 := h.const_mul (2 / Real.sqrt Real.pi)
  have hp : 0 < Real.sqrt Real.pi := Real.sqrt_pos.mpr Real.pi_pos
  have e : 2 / Real.sqrt Real.pi * (Real.sqrt Real.pi / 2) = 1 := by field_simp
  rw [e] at h2
  exact h2

theorem erf_neg (x : ℝ) : erf (-x) = -erf x := by
  unfold erf
  have : ∫ t in (0 : ℝ)..(-x), Real.exp (-t ^ 2) = -∫ t in (0 : ℝ)..x, Real.exp (-t ^ 2) := by
    have h := intervalIntegral.integral_comp_neg (f := fun t : ℝ => Real.exp (-t ^ 2)) (a := 0) (b := x)
    simp only [neg_sq, neg_zero] at h
    rw [h, intervalIntegral.integral_symm]
  rw [this]
  ring

theorem erf_tendsto_atBot : Tendsto erf atBot (𝓝 (-1)) := by
  have h := (erf_tendsto_atTop.comp tendsto_neg_atBot_atTop).neg
  refine h.congr fun x => ?_
  simp only [Function.comp, erf_neg, neg_neg]

/-! ### The normal distribution -/

theorem pdf_eq {sd : ℝ} (hsd : 0 < sd) (mean val : ℝ) : gaussianPDF' mean sd val = gaussianPDFReal mean (variance sd) val := by
  unfold gaussianPDF' gaussianPDFReal
  dsimp only
  rw [variance_coe]
  have h1 : Real.sqrt (2 * Real.pi * sd ^ 2) = sd * Real.sqrt (2 * Real.pi) := by
    rw [Real.sqrt_mul (by positivity), Real.sqrt_sq hsd.le, mul_comm]
  rw [h1, one_div]
  congr 2
  ring

theorem cdf_hasDerivAt {sd : ℝ} (hsd : 0 < sd) (mean val : ℝ) : HasDerivAt (gaussianCDF mean sd) (gaussianPDF' mean sd val) val := by
  have h1 : HasDerivAt (fun v : ℝ => ((v - mean) / sd) / Real.sqrt 2) (1 / sd / Real.sqrt 2) val :=
    (((hasDerivAt_id val).sub_const mean).div_const sd).div_const _
  have h2 := (((erf_hasDerivAt (((val - mean) / sd) / Real.sqrt 2)).comp val h1).const_add 1).const_mul 0.5
  refine h2.congr_deriv ?_
  unfold gaussianPDF'
  dsimp only
  have hs2 : Real.sqrt 2 * Real.sqrt 2 = 2 := Real.mul_self_sqrt (by norm_num)
  have e : -((val - mean) / sd / Real.sqrt 2) ^ 2 = -((val - mean) * (val - mean) / (2 * sd * sd)) := by
    rw [div_pow, div_pow, sq (Real.sqrt 2), hs2]
    field_simp
  rw [e, Real.sqrt_mul (by norm_num)]
  have hp : 0 < Real.sqrt Real.pi := Real.sqrt_pos.mpr Real.pi_pos
  have h2 : 0 < Real.sqrt 2 := Real.sqrt_pos.mpr (by norm_num)
  field_simp
  norm_num

theorem pdf_pos {sd : ℝ} (hsd : 0 < sd) (mean val : ℝ) : 0 < gaussianPDF' mean sd val := by
  unfold gaussianPDF'
  dsimp only
  positivity

theorem cdf_strictMono {sd : ℝ} (hsd : 0 < sd) (mean : ℝ) : StrictMono (gaussianCDF mean sd) :=
  strictMono_of_deriv_pos fun v => by rw [(cdf_hasDerivAt hsd mean v).deriv]; exact pdf_pos hsd mean v

theorem cdf_tendsto {sd : ℝ} (hsd : 0 < sd) (mean : ℝ) : Tendsto (gaussianCDF mean sd) atTop (𝓝 1) ∧ Tendsto (gaussianCDF mean sd) atBot (𝓝 0) := by
  have h2 : 0 < Real.sqrt 2 := Real.sqrt_pos.mpr (by norm_num)
  have t1 : Tendsto (fun v : ℝ => ((v - mean) / sd) / Real.sqrt 2) atTop atTop :=
    ((tendsto_atTop_add_const_right _ (-mean) tendsto_id).atTop_div_const hsd).atTop_div_const h2
  have t2 : Tendsto (fun v : ℝ => ((v - mean) / sd) / Real.sqrt 2) atBot atBot :=
    ((tendsto_atBot_add_const_right _ (-mean) tendsto_id).atBot_div_const hsd).atBot_div_const h2
  constructor
  · have := ((erf_tendsto_atTop.comp t1).const_add 1).const_mul 0.5
    norm_num at this
    refine this.congr fun v => ?_
    simp [gaussianCDF]
    norm_num
  · have := ((erf_tendsto_atBot.comp t2).const_add 1).const_mul 0.5
    norm_num at this
    refine this.congr fun v => ?_
    simp [gaussianCDF]
    norm_num

theorem var_ne {sd : ℝ} (hsd : 0 < sd) : variance sd ≠ 0 := by
  intro h
  have := variance_coe sd
  rw [h] at this
  have h2 : 0 < sd ^ 2 := by positivity
  rw [← this] at h2
  exact lt_irrefl _ h2

theorem cdf_eq {sd : ℝ} (hsd : 0 < sd) (mean val : ℝ) : gaussianCDF mean sd val = (normal mean sd).real (Iic val) := by
  have h := integral_Iic_of_hasDerivAt_of_tendsto' (a := val) (fun x _ => cdf_hasDerivAt hsd mean x)
    (by
      have : gaussianPDF' mean sd = gaussianPDFReal mean (variance sd) := funext (pdf_eq hsd mean)
      rw [this]
      exact (integrable_gaussianPDFReal _ _).integrableOn) (cdf_tendsto hsd mean).2
  rw [sub_zero] at h
  rw [← h, Measure.real, normal, gaussianReal_apply_eq_integral _ (var_ne hsd), ENNReal.toReal_ofReal
    (integral_nonneg fun x => gaussianPDFReal_nonneg _ _ x)]
  exact integral_congr_ae (ae_of_all _ (pdf_eq hsd mean))

/-- C72: the density function is that of the normal distribution and the derivative of the distribution function, which is that of the normal distribution and
increases strictly from 0 to 1. -/
theorem C72_gaussian {sd : ℝ} (hsd : 0 < sd) (mean val : ℝ) :
    gaussianPDF' mean sd val = gaussianPDFReal mean (variance sd) val ∧
    gaussianCDF mean sd val = ProbabilityTheory.cdf (normal mean sd) val ∧
    HasDerivAt (gaussianCDF mean sd) (gaussianPDF' mean sd val) val ∧ StrictMono (gaussianCDF mean sd) ∧
    0 < gaussianCDF mean sd val ∧ gaussianCDF mean sd val < 1 ∧
    Tendsto (gaussianCDF mean sd) atBot (𝓝 0) ∧ Tendsto (gaussianCDF mean sd) atTop (𝓝 1) ∧ gaussianCDF mean sd mean = 1 / 2 ∧
    gaussianCDF mean sd (mean - val) = 1 - gaussianCDF mean sd (mean + val) := by
  have hm := cdf_strictMono hsd mean
  obtain ⟨t1, t0⟩ := cdf_tendsto hsd mean
  refine ⟨pdf_eq hsd mean val, by rw [cdf_eq hsd, cdf_eq_real], cdf_hasDerivAt hsd mean val, hm, ?_, ?_, t0, t1, ?_, ?_⟩
  · have h1 : 0 ≤ gaussianCDF mean sd (val - 1) := hm.monotone.le_of_tendsto t0 _
    exact lt_of_le_of_lt h1 (hm (by linarith))
  · have h1 : gaussianCDF mean sd (val + 1) ≤ 1 := hm.monotone.ge_of_tendsto t1 _
    exact lt_of_lt_of_le (hm (by linarith)) h1
  · unfold gaussianCDF
    rw [sub_self, zero_div, zero_div]
    have : erf 0 = 0 := by unfold erf; simp
    rw [this]
    norm_num
  · unfold gaussianCDF
    rw [show mean - val - mean = -val by ring, show mean + val - mean = val by ring, neg_div, neg_div, erf_neg]
    ring

example : gaussianCDF 0 1 0 = 1 / 2 := (C72_gaussian one_pos 0 0).2.2.2.2.2.2.2.2.1

theorem Iic_diff (a b : ℝ) : Iic b \ Iic a = Ioc a b := by
  ext x
  simp only [mem_diff, mem_Iic, not_le, mem_Ioc]
  tauto

theorem prob_Ioc {sd : ℝ} (hsd : 0 < sd) (mean : ℝ) {a b : ℝ} (hab : a ≤ b) :
    (normal mean sd).real (Ioc a b) = gaussianCDF mean sd b - gaussianCDF mean sd a := by
  rw [cdf_eq hsd, cdf_eq hsd, ← Iic_diff, measureReal_diff (Iic_subset_Iic.mpr hab) measurableSet_Iic]

/-- C72: `IntegrateGaussian` is the probability of the interval, and the integral of the density; reversed limits are refused. -/
theorem C72_integrate {sd : ℝ} (hsd : 0 < sd) (mean a b : ℝ) :
    (b < a → integrateGaussian mean sd a b = .throw .invalidArgument) ∧
    (a ≤ b → integrateGaussian mean sd a b = .ok ((normal mean sd).real (Ioc a b)) ∧
      (normal mean sd).real (Ioc a b) = ∫ x in a..b, gaussianPDF' mean sd x) := by
  refine ⟨fun h => ?_, fun h => ⟨?_, ?_⟩⟩
  · unfold integrateGaussian
    rw [if_pos h]
  · unfold integrateGaussian
    rw [if_neg (not_lt.mpr h), prob_Ioc hsd mean h]
  · rw [prob_Ioc hsd mean h]
    symm
    apply intervalIntegral.integral_eq_sub_of_hasDerivAt (fun x _ => cdf_hasDerivAt hsd mean x)
    apply Continuous.intervalIntegrable
    unfold gaussianPDF'
    fun_prop

example : integrateGaussian 0 1 0 1 = .ok ((normal 0 1).real (Ioc 0 1)) := ((C72_integrate one_pos 0 0 1).2 zero_le_one).1

/-! ### Truncation -/

theorem prob_pos {sd : ℝ} (hsd : 0 < sd) (mean : ℝ) {lo hi : ℝ} (h : lo < hi) : 0 < (normal mean sd).real (Ioc lo hi) := by
  rw [prob_Ioc hsd mean h.le]
  exact sub_pos.mpr (cdf_strictMono hsd mean h)

/-- C72: for bounds in order the truncated distribution function is that of the normal distribution conditioned on the interval; reversed bounds are refused; for equal
bounds it is the step at the bound. -/
theorem C72_truncated_cdf {sd : ℝ} (hsd : 0 < sd) (mean lo hi val : ℝ) :
    (hi < lo → truncatedCDF mean lo hi sd val = .throw .invalidArgument) ∧
    (lo < hi → truncatedCDF mean lo hi sd val =
      .ok ((normal mean sd).real (Ioc lo hi ∩ Iic val) / (normal mean sd).real (Ioc lo hi))) ∧
    (truncatedCDF mean lo lo sd val = .ok (if val ≤ lo then 0 else 1)) := by
  refine ⟨fun h => ?_, fun h => ?_, ?_⟩
  · unfold truncatedCDF
    rw [if_pos h]
  · have hp := prob_pos hsd mean h
    unfold truncatedCDF
    rw [if_neg (not_lt.mpr h.le)]
    rw [Ioc_inter_Iic]
    split_ifs with h1 h2
    · rw [Ioc_eq_empty (not_lt.mpr (le_trans (min_le_right _ _) h1)), measureReal_empty, zero_div]
    · rw [min_eq_left h2, div_self hp.ne']
    · push Not at h1 h2
      rw [min_eq_right h2.le, prob_Ioc hsd mean h1.le, prob_Ioc hsd mean h.le]
  · unfold truncatedCDF
    rw [if_neg (lt_irrefl _)]
    split_ifs with h1 h2
    · rfl
    · rfl
    · exact absurd (not_le.mp h1).le h2

/-- C72: the truncated distribution function of bounds in order: zero exactly up to the lower bound, one exactly from the upper bound on, strictly increasing between; its
derivative between the bounds is the truncated density, which integrates to one and is zero elsewhere. -/
theorem C72_truncated {sd : ℝ} (hsd : 0 < sd) (mean : ℝ) {lo hi : ℝ} (h : lo < hi) : ∃ F f : ℝ → ℝ,
    (∀ v, truncatedCDF mean lo hi sd v = .ok (F v)) ∧ (∀ v, truncatedPDF mean lo hi sd v = .ok (f v)) ∧
    (∀ v, 0 ≤ F v ∧ F v ≤ 1) ∧ (∀ v, F v = 0 ↔ v ≤ lo) ∧ (∀ v, F v = 1 ↔ hi ≤ v) ∧ (∀ v w, lo ≤ v → v < w → w ≤ hi → F v < F w) ∧
    (∀ v, lo < v → v < hi → HasDerivAt F (f v) v ∧ 0 < f v) ∧ (∀ v, v ≤ lo ∨ hi ≤ v → f v = 0) ∧
    ∫ x in lo..hi, f x = 1 := by
  have hm := cdf_strictMono hsd mean
  have hD : 0 < gaussianCDF mean sd hi - gaussianCDF mean sd lo := sub_pos.mpr (hm h)
  classical
  let F : ℝ → ℝ := fun v => if v ≤ lo then 0 else if v ≥ hi then 1 else
    (gaussianCDF mean sd v - gaussianCDF mean sd lo) / (gaussianCDF mean sd hi - gaussianCDF mean sd lo)
  let f : ℝ → ℝ := fun v => if v ≤ lo then 0 else if v ≥ hi then 0 else gaussianPDF' mean sd v / (gaussianCDF mean sd hi - gaussianCDF mean sd lo)
  have hFin : ∀ v, lo ≤ v → v ≤ hi → F v = (gaussianCDF mean sd v - gaussianCDF mean sd lo) / (gaussianCDF mean sd hi - gaussianCDF mean sd lo) := by
    intro v h1 h2
    simp only [F]
    split_ifs with a b
    · rw [le_antisymm a h1, sub_self, zero_div]
    · rw [le_antisymm h2 b, div_self hD.ne']
    · rfl
  have hlow : ∀ v, v ≤ lo → F v = 0 := fun v hv => by simp only [F]; rw [if_pos hv]
  have hhigh : ∀ v, hi ≤ v → F v = 1 := fun v hv => by
    simp only [F]
    rw [if_neg (by linarith), if_pos hv]
  have hmono : ∀ v w, lo ≤ v → v < w → w ≤ hi → F v < F w := by
    intro v w h1 h2 h3
    rw [hFin v h1 (by linarith), hFin w (by linarith) h3]
    exact div_lt_div_of_pos_right (by linarith [hm h2]) hD
  refine ⟨F, f, fun v => ?_, fun v => ?_, fun v => ?_, fun v => ⟨fun hv => ?_, hlow v⟩, fun v => ⟨fun hv => ?_, hhigh v⟩, hmono, fun v h1 h2 => ⟨?_, ?_⟩, fun v hv => ?_, ?_⟩
  · unfold truncatedCDF
    rw [if_neg (not_lt.mpr h.le)]
    simp only [F]
    split_ifs <;> rfl
  · unfold truncatedPDF
    rw [if_neg (not_lt.mpr h.le)]
    simp only [f]
    split_ifs <;> rfl
  · rcases le_total v lo with h1 | h1
    · rw [hlow v h1]; norm_num
    · rcases le_total hi v with h2 | h2
      · rw [hhigh v h2]; norm_num
      · rw [hFin v h1 h2]
        exact ⟨div_nonneg (sub_nonneg.mpr (hm.monotone h1)) hD.le, (div_le_one hD).mpr (by linarith [hm.monotone h2])⟩
  · by_contra hc
    push Not at hc
    rcases le_total v hi with h2 | h2
    · have := hmono lo v (le_refl _) hc h2
      rw [hlow lo (le_refl _), hv] at this
      exact lt_irrefl _ this
    · rw [hhigh v h2] at hv
      norm_num at hv
  · by_contra hc
    push Not at hc
    rcases le_total v lo with h2 | h2
    · rw [hlow v h2] at hv
      norm_num at hv
    · have := hmono v hi h2 hc (le_refl _)
      rw [hhigh hi (le_refl _), hv] at this
      exact lt_irrefl _ this
  · have hd := ((cdf_hasDerivAt hsd mean v).sub_const (gaussianCDF mean sd lo)).div_const (gaussianCDF mean sd hi - gaussianCDF mean sd lo)
    have hf : f v = gaussianPDF' mean sd v / (gaussianCDF mean sd hi - gaussianCDF mean sd lo) := by
      simp only [f]
      rw [if_neg (by linarith), if_neg (by linarith)]
    rw [hf]
    refine hd.congr_of_eventuallyEq ?_
    filter_upwards [Ioo_mem_nhds h1 h2] with w hw
    exact hFin w hw.1.le hw.2.le
  · simp only [f]
    rw [if_neg (by linarith), if_neg (by linarith)]
    exact div_pos (pdf_pos hsd mean v) hD
  · simp only [f]
    rcases hv with hv | hv
    · rw [if_pos hv]
    · rw [if_neg (by linarith), if_pos hv]
  · have e : ∫ x in lo..hi, f x = ∫ x in lo..hi, gaussianPDF' mean sd x / (gaussianCDF mean sd hi - gaussianCDF mean sd lo) := by
      apply intervalIntegral.integral_congr_ae
      have : ∀ᵐ x : ℝ ∂volume, x ≠ hi := by simp [ae_iff, measure_singleton]
      filter_upwards [this] with x hx hxm
      rw [uIoc_of_le h.le] at hxm
      simp only [f]
      rw [if_neg (not_le.mpr hxm.1), if_neg (not_le.mpr (lt_of_le_of_ne hxm.2 hx))]
    rw [e, intervalIntegral.integral_div, ← ((C72_integrate hsd mean lo hi).2 h.le).2, prob_Ioc hsd mean h.le, div_self hD.ne']

example : ∃ F f : ℝ → ℝ, (∀ v, truncatedCDF 0 1 2 1 v = .ok (F v)) ∧ (∀ v, truncatedPDF 0 1 2 1 v = .ok (f v)) ∧ ∫ x in (1 : ℝ)..2, f x = 1 := by
  obtain ⟨F, f, h1, h2, _, _, _, _, _, _, h3⟩ := C72_truncated one_pos 0 (lo := 1) (hi := 2) (by norm_num)
  exact ⟨F, f, h1, h2, h3⟩

/-- C72: `IntegrateTruncatedGaussian` refuses reversed bounds and limits; otherwise it is a probability, adjacent intervals add up, and an interval that covers the
bounds has probability one. -/
theorem C72_integrate_truncated {sd : ℝ} (hsd : 0 < sd) (mean : ℝ) {lo hi : ℝ} (a b c : ℝ) :
    (hi < lo ∨ b < a → integrateTruncated mean lo hi sd a b = .throw .invalidArgument) ∧
    (lo < hi → a ≤ b → ∃ p, integrateTruncated mean lo hi sd a b = .ok p ∧ 0 ≤ p ∧ p ≤ 1 ∧ (a ≤ lo → hi ≤ b → p = 1) ∧
      p = (normal mean sd).real (Ioc lo hi ∩ Ioc a b) / (normal mean sd).real (Ioc lo hi) ∧
      (b ≤ c → ∃ q, integrateTruncated mean lo hi sd b c = .ok q ∧ integrateTruncated mean lo hi sd a c = .ok (p + q))) := by
  refine ⟨fun h => ?_, fun h hab => ?_⟩
  · unfold integrateTruncated
    rcases h with h | h
    · rw [if_pos h]
    · rw [if_pos h]
      split_ifs <;> rfl
  · obtain ⟨F, f, h1, h2, h3, h4, h5, h6, _⟩ := C72_truncated hsd mean h
    have hi' : ∀ a b, a ≤ b → integrateTruncated mean lo hi sd a b = .ok (F b - F a) := by
      intro a b hab
      unfold integrateTruncated
      rw [if_neg (not_lt.mpr h.le), if_neg (not_lt.mpr hab), h1, h1]
      rfl
    have hF : ∀ v, F v = (normal mean sd).real (Ioc lo hi ∩ Iic v) / (normal mean sd).real (Ioc lo hi) := by
      intro v
      have := (C72_truncated_cdf hsd mean lo hi v).2.1 h
      rw [h1 v] at this
      exact Res.ok.inj this
    have hp := prob_pos hsd mean h
    have hdiff : F b - F a = (normal mean sd).real (Ioc lo hi ∩ Ioc a b) / (normal mean sd).real (Ioc lo hi) := by
      rw [hF, hF, ← sub_div]
      congr 1
      have e : Ioc lo hi ∩ Ioc a b = (Ioc lo hi ∩ Iic b) \ (Ioc lo hi ∩ Iic a) := by
        rw [← inter_diff_distrib_left, Iic_diff]
      rw [e, measureReal_diff (inter_subset_inter_right _ (Iic_subset_Iic.mpr hab)) (measurableSet_Ioc.inter measurableSet_Iic)]
    refine ⟨F b - F a, hi' a b hab, ?_, ?_, fun h1 h2 => ?_, hdiff, fun hbc => ⟨_, hi' b c hbc, ?_⟩⟩
    · rw [hdiff]
      exact div_nonneg measureReal_nonneg measureReal_nonneg
    · linarith [(h3 b).2, (h3 a).1]
    · rw [(h4 a).mpr h1, (h5 b).mpr h2, sub_zero]
    · rw [hi' a c (by linarith)]
      congr 1
      ring

example : ∃ p, integrateTruncated 0 1 2 1 0 3 = .ok p ∧ p = 1 := by
  obtain ⟨p, h1, _, _, h2, _⟩ := (C72_integrate_truncated one_pos 0 (lo := 1) (hi := 2) 0 3 3).2 (by norm_num) (by norm_num)
  exact ⟨p, h1, h2 (by norm_num) (by norm_num)⟩

end CRU.Gaussian
