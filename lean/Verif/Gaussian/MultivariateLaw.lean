import Verif.Gaussian.Multivariate
import Mathlib.Probability.Distributions.Gaussian.Multivariate
/-
  C73: the law of the samples of a multivariate Gaussian distribution (gaussian_distributions.hpp:367-437), in exact arithmetic.
-/
namespace CRU.Gaussian
open MeasureTheory ProbabilityTheory Matrix WithLp
open scoped RealInnerProductSpace

variable {n : Nat}

theorem sample_euclidean (T : Matrix (Fin n) (Fin n) ℝ) (mean z : Fin n → ℝ) :
    toLp 2 (multivariateSample T mean z) = toLp 2 mean + toEuclideanCLM (𝕜 := ℝ) T (toLp 2 z) := by
  ext i
  simp [multivariateSample, add_comm]

/-- C73, what holds: for every dimension and every positive semidefinite covariance matrix, whichever decomposition succeeds, the samples have the multivariate
Gaussian law with the given mean and covariance matrix (Mathlib's). Missing: the constructor lets this be used only in dimension one (`C73_false`). -/
theorem C73_law_partial {S : Solvers n} (hS : S.Correct) {C : Matrix (Fin n) (Fin n) ℝ} (hC : C.PosSemidef) (mean : Fin n → ℝ) :
    (unitGaussians n).map (fun z => toLp 2 (multivariateSample (normTransform S C) mean z)) = multivariateGaussian (toLp 2 mean) C := by
  set T := normTransform S C with hT
  have hTT : T * T.transpose = C := normTransform_spec hS hC
  have hcomp : (fun z : Fin n → ℝ => toLp 2 (multivariateSample T mean z)) =
      (fun x => toLp 2 mean + x) ∘ (toEuclideanCLM (𝕜 := ℝ) T) ∘ (toLp 2) := by
    funext z; exact sample_euclidean T mean z
  rw [hcomp, ← Measure.map_map (by fun_prop) (by fun_prop), ← Measure.map_map (by fun_prop) (by fun_prop)]
  have hstd : (unitGaussians n).map (toLp 2) = stdGaussian (EuclideanSpace ℝ (Fin n)) := map_pi_eq_stdGaussian
  rw [hstd]
  apply IsGaussian.ext
  · rw [integral_map (by fun_prop) (by fun_prop)]
    simp only [id_eq]
    rw [integral_map (by fun_prop) (by fun_prop), integral_add (integrable_const _), integral_const]
    · simp [ContinuousLinearMap.integral_comp_comm _ IsGaussian.integrable_fun_id]
    · exact IsGaussian.integrable_id.comp_measurable (by fun_prop)
  · ext x y
    rw [covarianceBilin_map_const_add, covarianceBilin_map, covarianceBilin_stdGaussian, innerSL_apply_apply,
      ContinuousLinearMap.adjoint_inner_left, covarianceBilin_multivariateGaussian hC, ← ContinuousLinearMap.star_eq_adjoint, ← map_star,
      ← ContinuousLinearMap.comp_apply, ← ContinuousLinearMap.mul_def, ← map_mul, star_eq_conjTranspose, conjTranspose_eq_transpose_of_trivial, hTT,
      inner_toEuclideanCLM]
    exact IsGaussian.memLp_two_id

/-- C73: in dimension one, the only one the constructor accepts, the samples are normal with the given mean and variance, for every variance that is not negative. -/
theorem C73_one {S : Solvers 1} (hS : S.Correct) {v : ℝ} (hv : 0 ≤ v) (mean : Fin 1 → ℝ) :
    multivariateSizeCheck 1 1 1 = .ok () ∧
    (unitGaussians 1).map (fun z => multivariateSample (normTransform S (diagonal fun _ => v)) mean z 0) = gaussianReal (mean 0) v.toNNReal := by
  refine ⟨(C73_false 1).1 rfl, ?_⟩
  have hC : (diagonal fun _ : Fin 1 => v).PosSemidef := PosSemidef.diagonal fun _ => hv
  have h := (measurePreserving_eval_multivariateGaussian (μ := toLp 2 mean) hC (i := 0)).map_eq
  rw [← C73_law_partial hS hC mean] at h
  have hm : Measurable fun z : Fin 1 → ℝ => toLp 2 (multivariateSample (normTransform S (diagonal fun _ => v)) mean z) := by
    have e : (fun z : Fin 1 → ℝ => toLp 2 (multivariateSample (normTransform S (diagonal fun _ => v)) mean z)) =
        fun z => toLp 2 mean + toEuclideanCLM (𝕜 := ℝ) (normTransform S (diagonal fun _ => v)) (toLp 2 z) := funext fun z => sample_euclidean _ mean z
    rw [e]; fun_prop
  rw [Measure.map_map (by fun_prop) hm] at h
  have e1 : (diagonal fun _ : Fin 1 => v) 0 0 = v := diagonal_apply_eq _ _
  rw [e1] at h
  exact h

/-- A covariance matrix without a Cholesky decomposition: the eigenvectors are used. -/
example : ∃ S : Solvers 2, S.Correct ∧ (unitGaussians 2).map (fun z => toLp 2 (multivariateSample (normTransform S !![1, 1; 1, 1]) ![3, 4] z)) =
    multivariateGaussian (toLp 2 ![3, 4]) !![1, 1; 1, 1] := by
  classical
  have hC : (!![1, 1; 1, 1] : Matrix (Fin 2) (Fin 2) ℝ).PosSemidef := by
    have : (!![1, 1; 1, 1] : Matrix (Fin 2) (Fin 2) ℝ) = (!![1, 1; 0, 0])ᴴ * !![1, 1; 0, 0] := by
      ext i j; fin_cases i <;> fin_cases j <;> simp [mul_apply, Fin.sum_univ_two]
    rw [this]; exact posSemidef_conjTranspose_mul_self _
  have hS : (⟨fun _ => none, fun C => if h : C.IsHermitian then h.eigenvectorUnitary else 1, fun C => if h : C.IsHermitian then h.eigenvalues else 0⟩ : Solvers 2).Correct := by
    refine ⟨?_, ?_, ?_⟩
    · intro C L _ h; cases h
    · intro C h
      have hh : C.IsHermitian := by rwa [IsHermitian, conjTranspose_eq_transpose_of_trivial]
      simp only [dif_pos hh]
      have := (mem_unitaryGroup_iff'.mp hh.eigenvectorUnitary.2)
      rwa [star_eq_conjTranspose, conjTranspose_eq_transpose_of_trivial] at this
    · intro C h
      have hh : C.IsHermitian := by rwa [IsHermitian, conjTranspose_eq_transpose_of_trivial]
      simp only [dif_pos hh]
      have := hh.spectral_theorem
      rw [Unitary.conjStarAlgAut_apply, star_eq_conjTranspose, conjTranspose_eq_transpose_of_trivial] at this
      exact this
  exact ⟨_, hS, C73_law_partial hS hC _⟩

end CRU.Gaussian
