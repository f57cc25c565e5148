import Verif.Base
import Mathlib.Probability.Distributions.Gaussian.Real
import Mathlib.MeasureTheory.Integral.Pi
import Mathlib.LinearAlgebra.Matrix.PosDef
import Mathlib.Analysis.Matrix.PosDef
/-
  C73: the multivariate Gaussian distribution (gaussian_distributions.hpp:367-437), in exact arithmetic (so without NaN and infinity). Eigen's two
  decompositions are parameters with their defining equations as hypotheses.
-/
namespace CRU.Gaussian
open MeasureTheory ProbabilityTheory Matrix

variable {n : Nat}

/-- Eigen's decompositions: `LLT` (`none` if `info()` is not `Success`) and `SelfAdjointEigenSolver` (eigenvectors as columns, eigenvalues). (gaussian_distributions.hpp:368-437) -/
structure Solvers (n : Nat) where
  llt : Matrix (Fin n) (Fin n) ℝ → Option (Matrix (Fin n) (Fin n) ℝ)
  eigenvectors : Matrix (Fin n) (Fin n) ℝ → Matrix (Fin n) (Fin n) ℝ
  eigenvalues : Matrix (Fin n) (Fin n) ℝ → Fin n → ℝ

/-- What Eigen documents: a successful LLT factorizes a symmetric matrix; the eigenvectors of a symmetric matrix are orthonormal and diagonalize it. -/
structure Solvers.Correct (S : Solvers n) : Prop where
  llt : ∀ C L, C.transpose = C → S.llt C = some L → L * L.transpose = C
  orthonormal : ∀ C, C.transpose = C → (S.eigenvectors C).transpose * S.eigenvectors C = 1
  diagonal : ∀ C, C.transpose = C → C = S.eigenvectors C * diagonal (S.eigenvalues C) * (S.eigenvectors C).transpose

/-- gaussian_distributions.hpp:388-406 `CalculateNormTransform`. -/
noncomputable def normTransform (S : Solvers n) (C : Matrix (Fin n) (Fin n) ℝ) : Matrix (Fin n) (Fin n) ℝ :=
  match S.llt C with
  | some L => L
  | none => S.eigenvectors C * diagonal fun i => Real.sqrt (max (S.eigenvalues C i) 0)

/-- gaussian_distributions.hpp:376-386 `Sample`, for the draws `z` of the unit Gaussian. -/
noncomputable def multivariateSample (transform : Matrix (Fin n) (Fin n) ℝ) (mean z : Fin n → ℝ) : Fin n → ℝ :=
  fun i => transform.mulVec z i + mean i

/-- gaussian_distributions.hpp:409-418: the size check of the constructor, for a column vector `mean` with `rows` rows (one column) and a covariance matrix
with `covRows` rows and `covCols` columns. -/
def multivariateSizeCheck (rows covRows covCols : Nat) : Res Unit :=
  let meanCols := 1
  if rows ≠ covRows ∨ meanCols ≠ covCols then .throw .invalidArgument else .ok ()

/-! ### Specification -/

/-- `n` independent draws of the unit Gaussian. (gaussian_distributions.hpp:368-437) -/
noncomputable def unitGaussians (n : Nat) : Measure (Fin n → ℝ) := Measure.pi fun _ => gaussianReal 0 1

instance : IsProbabilityMeasure (unitGaussians n) := by unfold unitGaussians; infer_instance

/-! ### Proofs -/

theorem normTransform_spec {S : Solvers n} (hS : S.Correct) {C : Matrix (Fin n) (Fin n) ℝ} (hC : C.PosSemidef) :
    normTransform S C * (normTransform S C).transpose = C := by
  have hsym : C.transpose = C := by
    have := hC.isHermitian
    rwa [IsHermitian, conjTranspose_eq_transpose_of_trivial] at this
  unfold normTransform
  split
  · rename_i L hL
    exact hS.llt C L hsym hL
  · set V := S.eigenvectors C with hV
    set d := S.eigenvalues C with hd
    have h1 : V.transpose * V = 1 := hS.orthonormal C hsym
    have h2 : C = V * diagonal d * V.transpose := hS.diagonal C hsym
    have h3 : ∀ i, 0 ≤ d i := by
      intro i
      have hx := hC.dotProduct_mulVec_nonneg (V.col i)
      have e : (star (V.col i)) ⬝ᵥ C.mulVec (V.col i) = d i := by
        have e1 : V.transpose.mulVec (V.col i) = Pi.single i 1 := by
          ext j
          have := congrFun (congrFun h1 j) i
          rw [mul_apply] at this
          rw [mulVec, dotProduct]
          simp only [col_apply]
          rw [this, one_apply, Pi.single_apply]
        conv_lhs => rw [h2]
        rw [← mulVec_mulVec, e1, ← mulVec_mulVec, star_trivial, dotProduct_mulVec, ← mulVec_transpose, e1]
        simp [mulVec, dotProduct, diagonal_apply, Pi.single_apply]
      rwa [e] at hx
    have h4 : (fun i => Real.sqrt (max (d i) 0)) = fun i => Real.sqrt (d i) := by
      funext i
      rw [max_eq_left (h3 i)]
    rw [h4, transpose_mul, diagonal_transpose]
    conv_rhs => rw [h2]
    rw [Matrix.mul_assoc, ← Matrix.mul_assoc (diagonal _) (diagonal _), diagonal_mul_diagonal, ← Matrix.mul_assoc]
    congr 2
    congr 1
    funext i
    exact Real.mul_self_sqrt (h3 i)

theorem unit_mean : ∫ x : ℝ, x ∂gaussianReal 0 1 = 0 := integral_id_gaussianReal

theorem unit_sq : ∫ x : ℝ, x * x ∂gaussianReal 0 1 = 1 := by
  have h := variance_id_gaussianReal (μ := 0) (v := 1)
  rw [variance_eq_integral aemeasurable_id] at h
  simp only [id_eq, integral_id_gaussianReal, sub_zero] at h
  have e : ∀ x : ℝ, x * x = x ^ 2 := fun x => (sq x).symm
  simp only [e]
  simpa using h

theorem unit_memLp : MemLp (fun x : ℝ => x) 2 (gaussianReal 0 1) := memLp_id_gaussianReal 2

/-- One factor of the product of two coordinates. -/
noncomputable def fac (k l i : Fin n) (x : ℝ) : ℝ := (if i = k then x else 1) * (if i = l then x else 1)

theorem fac_prod (k l : Fin n) (z : Fin n → ℝ) : ∏ i, fac k l i (z i) = z k * z l := by
  unfold fac
  rw [Finset.prod_mul_distrib]
  simp

theorem fac_integrable (k l i : Fin n) : Integrable (fac k l i) (gaussianReal 0 1) := by
  have h1 : Integrable (fun x : ℝ => x) (gaussianReal 0 1) := unit_memLp.integrable (by norm_num)
  have h2 : Integrable (fun x : ℝ => x * x) (gaussianReal 0 1) := unit_memLp.integrable_mul unit_memLp
  unfold fac
  by_cases a : i = k <;> by_cases b : i = l <;> simp [a, b]
  · subst a; subst b; simpa using h2
  · subst a; simp [b]; exact h1
  · subst b; simp [a]; exact h1

theorem pair_integrable (k l : Fin n) : Integrable (fun z : Fin n → ℝ => z k * z l) (unitGaussians n) := by
  have := Integrable.fintype_prod (μ := fun _ : Fin n => gaussianReal 0 1) (f := fun i => fac k l i) (fun i => fac_integrable k l i)
  simp only [fac_prod] at this
  exact this

theorem pair_integral (k l : Fin n) : ∫ z : Fin n → ℝ, z k * z l ∂unitGaussians n = if k = l then 1 else 0 := by
  have h := integral_fintype_prod_eq_prod (μ := fun _ : Fin n => gaussianReal 0 1) (f := fun i => fac k l i)
  simp only [fac_prod] at h
  show ∫ z : Fin n → ℝ, z k * z l ∂Measure.pi _ = _
  rw [h]
  by_cases e : k = l
  · subst e
    rw [if_pos rfl, Finset.prod_eq_one]
    intro i _
    by_cases a : i = k
    · simp [fac, a, unit_sq]
    · simp [fac, a]
  · rw [if_neg e]
    refine Finset.prod_eq_zero (Finset.mem_univ k) ?_
    simp [fac, e, unit_mean]

theorem coord_integrable (k : Fin n) : Integrable (fun z : Fin n → ℝ => z k) (unitGaussians n) := by
  have := integrable_comp_eval (μ := fun _ : Fin n => gaussianReal 0 1) (i := k) (f := fun x : ℝ => x) (unit_memLp.integrable (by norm_num))
  exact this

theorem coord_integral (k : Fin n) : ∫ z : Fin n → ℝ, z k ∂unitGaussians n = 0 := by
  have := integral_comp_eval (μ := fun _ : Fin n => gaussianReal 0 1) (i := k) (f := fun x : ℝ => x) measurable_id.aestronglyMeasurable
  exact this.trans unit_mean

/-- C73, what holds: for every dimension and every positive semidefinite covariance matrix, whichever decomposition succeeds, the sampler's values have the given mean and
the given covariance. Missing: the constructor lets this be used only in dimension one (`C73_false`). -/
theorem C73_moments_partial {S : Solvers n} (hS : S.Correct) {C : Matrix (Fin n) (Fin n) ℝ} (hC : C.PosSemidef) (mean : Fin n → ℝ) :
    (∀ i, ∫ z, multivariateSample (normTransform S C) mean z i ∂unitGaussians n = mean i) ∧
    ∀ i j, ∫ z, (multivariateSample (normTransform S C) mean z i - mean i) * (multivariateSample (normTransform S C) mean z j - mean j) ∂unitGaussians n =
      C i j := by
  have hA := normTransform_spec hS hC
  generalize normTransform S C = A at hA
  constructor
  · intro i
    simp only [multivariateSample, mulVec, dotProduct]
    have hi : ∀ k ∈ Finset.univ, Integrable (fun z : Fin n → ℝ => A i k * z k) (unitGaussians n) := fun k _ => (coord_integrable k).const_mul _
    rw [integral_add (integrable_finset_sum _ hi) (integrable_const _), integral_finset_sum _ hi]
    simp [integral_const_mul, coord_integral]
  · intro i j
    simp only [multivariateSample, mulVec, dotProduct, add_sub_cancel_right]
    have hi : ∀ k l : Fin n, Integrable (fun z : Fin n → ℝ => A i k * z k * (A j l * z l)) (unitGaussians n) := by
      intro k l
      refine ((pair_integrable k l).const_mul (A i k * A j l)).congr (ae_of_all _ fun z => ?_)
      ring
    simp only [Finset.sum_mul_sum]
    rw [integral_finset_sum _ fun k _ => integrable_finset_sum _ fun l _ => hi k l]
    have e : ∀ k l : Fin n, ∫ z : Fin n → ℝ, A i k * z k * (A j l * z l) ∂unitGaussians n = if k = l then A i k * A j l else 0 := by
      intro k l
      have : (fun z : Fin n → ℝ => A i k * z k * (A j l * z l)) = fun z => A i k * A j l * (z k * z l) := by funext z; ring
      rw [this, integral_const_mul, pair_integral]
      split_ifs <;> ring
    have e2 : ∀ k : Fin n, ∫ z : Fin n → ℝ, ∑ l, A i k * z k * (A j l * z l) ∂unitGaussians n = A i k * A j k := by
      intro k
      rw [integral_finset_sum _ fun l _ => hi k l]
      simp [e]
    simp only [e2]
    rw [← hA, mul_apply]
    rfl

/-- Solvers for the non-vacuity example: the spectral theorem. -/
example : ∃ S : Solvers 2, S.Correct ∧ (1 : Matrix (Fin 2) (Fin 2) ℝ).PosSemidef := by
  classical
  refine ⟨⟨fun _ => none, fun C => if h : C.IsHermitian then h.eigenvectorUnitary else 1, fun C => if h : C.IsHermitian then h.eigenvalues else 0⟩, ⟨?_, ?_, ?_⟩, PosSemidef.one⟩
  · intro C L _ h; cases h
  · intro C h
    have hh : C.IsHermitian := by rwa [IsHermitian, conjTranspose_eq_transpose_of_trivial]
    simp only [dif_pos hh]
    have := (mem_unitaryGroup_iff'.mp hh.eigenvectorUnitary.2)
    rwa [star_eq_conjTranspose, conjTranspose_eq_transpose_of_trivial] at this
  · intro C h
    have hh : C.IsHermitian := by rwa [IsHermitian, conjTranspose_eq_transpose_of_trivial]
    simp only [dif_pos hh]
    have := hh.spectral_theorem
    rw [Unitary.conjStarAlgAut_apply, star_eq_conjTranspose, conjTranspose_eq_transpose_of_trivial] at this
    exact this

/-- C73: a mean of dimension `n` with a covariance matrix of size `n` x `n` is refused in every dimension but one. -/
theorem C73_false (n : Nat) : (n = 1 → multivariateSizeCheck n n n = .ok ()) ∧ (n ≠ 1 → multivariateSizeCheck n n n = .throw .invalidArgument) := by
  unfold multivariateSizeCheck
  dsimp only
  refine ⟨fun h => ?_, fun h => ?_⟩
  · subst h; decide
  · rw [if_pos (Or.inr (Ne.symm h))]

example : multivariateSizeCheck 3 3 3 = .throw .invalidArgument := (C73_false 3).2 (by decide)

end CRU.Gaussian
