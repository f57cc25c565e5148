import Verif.Math.TwistProps
import Mathlib.Analysis.SpecialFunctions.Trigonometric.Bounds
/-
  C70: the exponential map.
-/
namespace CRU.Math
open Matrix

/-! ### Matrix exponentials in closed form -/
section
open scoped Matrix.Norms.Operator
theorem mat_exp_quartic' {n : Nat} (h : Mat n) (h4 : h * (h * (h * h)) = -(h * h)) (t : ℝ) :
    NormedSpace.exp (t • h) = 1 + t • h + (1 - Real.cos t) • (h * h) + (t - Real.sin t) • (h * (h * h)) := exp_quartic h h4 t
theorem mat_exp_square' {n : Nat} (h : Mat n) (h2 : h * h = 0) (t : ℝ) : NormedSpace.exp (t • h) = 1 + t • h := exp_square h h2 t
end

theorem mat_exp_quartic {n : Nat} (h : Mat n) (h4 : h * (h * (h * h)) = -(h * h)) (t : ℝ) :
    NormedSpace.exp (t • h) = 1 + t • h + (1 - Real.cos t) • (h * h) + (t - Real.sin t) • (h * (h * h)) := mat_exp_quartic' h h4 t
theorem mat_exp_square {n : Nat} (h : Mat n) (h2 : h * h = 0) (t : ℝ) : NormedSpace.exp (t • h) = 1 + t • h := mat_exp_square' h h2 t

/-! ### Unit axes -/

theorem sqNorm3 (v : Vec 3) : sqNorm v = v 0 * v 0 + v 1 * v 1 + v 2 * v 2 := by
  simp [sqNorm, dotProduct, Fin.sum_univ_succ]
  ring

theorem skew_sq (u v : Vec 3) : skew u *ᵥ (skew u *ᵥ v) = (u ⬝ᵥ v) • u - sqNorm u • v := by
  rw [sqNorm3]
  ext i
  fin_cases i <;> simp [skew, Matrix.mulVec, dotProduct, Fin.sum_univ_succ] <;> ring

theorem skew_cube (u : Vec 3) : skew u * (skew u * skew u) = -(sqNorm u • skew u) := by
  rw [sqNorm3]
  ext i j
  fin_cases i <;> fin_cases j <;> simp [skew, Matrix.mul_apply, Fin.sum_univ_succ] <;> ring

theorem skew_sq_entry (u : Vec 3) (i j : Fin 3) : |(skew u * skew u) i j| ≤ sqNorm u := by
  rw [sqNorm3]
  have h01 := mul_self_nonneg (u 0 + u 1)
  have h01' := mul_self_nonneg (u 0 - u 1)
  have h02 := mul_self_nonneg (u 0 + u 2)
  have h02' := mul_self_nonneg (u 0 - u 2)
  have h12 := mul_self_nonneg (u 1 + u 2)
  have h12' := mul_self_nonneg (u 1 - u 2)
  have h0 := mul_self_nonneg (u 0)
  have h1 := mul_self_nonneg (u 1)
  have h2 := mul_self_nonneg (u 2)
  ring_nf at h01 h01' h02 h02' h12 h12' h0 h1 h2
  rw [abs_le]
  constructor <;> fin_cases i <;> fin_cases j <;> simp [skew, Matrix.mul_apply, Fin.sum_univ_succ] <;> ring_nf <;> linarith

theorem skew_transpose (u : Vec 3) : (skew u)ᵀ = -skew u := (C70_skew u 0 0).2.1

/-- The polynomial computed by `ExpMatrixExact`. -/
theorem rodrigues_exp {u : Vec 3} (hu : sqNorm u = 1) (t : ℝ) :
    1 + Real.sin t • skew u + (1 - Real.cos t) • (skew u * skew u) = NormedSpace.exp (t • skew u) := by
  have h3 := skew_cube u
  rw [hu, one_smul] at h3
  rw [mat_exp_quartic (skew u) (by rw [h3, Matrix.mul_neg]), h3]
  module

theorem rodrigues_defect (u : Vec 3) (t : ℝ) :
    (1 + Real.sin t • skew u + (1 - Real.cos t) • (skew u * skew u))ᵀ * (1 + Real.sin t • skew u + (1 - Real.cos t) • (skew u * skew u)) =
    1 + ((1 - Real.cos t) * (1 - Real.cos t) * (1 - sqNorm u)) • (skew u * skew u) := by
  have h3 := skew_cube u
  have h4 : (skew u * skew u) * (skew u * skew u) = -(sqNorm u • (skew u * skew u)) := by
    rw [Matrix.mul_assoc, h3, Matrix.mul_neg, Matrix.mul_smul]
  have h3' : (skew u * skew u) * skew u = -(sqNorm u • skew u) := by rw [Matrix.mul_assoc, h3]
  rw [transpose_add, transpose_add, transpose_one, transpose_smul, transpose_smul, transpose_mul, skew_transpose]
  simp only [Matrix.neg_mul, Matrix.mul_neg, neg_neg, Matrix.add_mul, Matrix.mul_add, Matrix.one_mul, Matrix.mul_one, Matrix.smul_mul, Matrix.mul_smul, h3, h3', h4]
  have hsc := Real.sin_sq_add_cos_sq t
  have hs2 : Real.sin t * Real.sin t = 1 - Real.cos t * Real.cos t := by nlinarith
  match_scalars
  · ring
  · ring
  · linear_combination (-1 : ℝ) * hs2

theorem rodrigues_rotation {u : Vec 3} (hu : sqNorm u = 1) (t : ℝ) :
    IsRotation (1 + Real.sin t • skew u + (1 - Real.cos t) • (skew u * skew u)) := by
  have horth : ∀ t, (1 + Real.sin t • skew u + (1 - Real.cos t) • (skew u * skew u))ᵀ *
      (1 + Real.sin t • skew u + (1 - Real.cos t) • (skew u * skew u)) = 1 := by
    intro t
    rw [rodrigues_defect, hu, sub_self, mul_zero, zero_smul, add_zero]
  refine ⟨horth t, ?_⟩
  have h2 := horth (t / 2)
  rw [rodrigues_exp hu] at h2 ⊢
  have hd : ((NormedSpace.exp ((t / 2) • skew u)).det) * ((NormedSpace.exp ((t / 2) • skew u)).det) = 1 := by
    have := congrArg det h2
    rwa [det_mul, det_transpose, det_one] at this
  have he : NormedSpace.exp (t • skew u) = NormedSpace.exp ((t / 2) • skew u) * NormedSpace.exp ((t / 2) • skew u) := by
    rw [← Matrix.exp_add_of_commute _ _ (Commute.refl _), ← add_smul, add_halves]
  rw [he, det_mul, hd]

theorem norm_eq_one {n : Nat} {u : Vec n} : norm u = 1 ↔ sqNorm u = 1 := by
  unfold norm
  rw [Real.sqrt_eq_one]

/-- C70: `ExpMatrixExact` throws exactly if the axis is not of unit length to within 1e-10. For an antisymmetric matrix with a unit axis the
result is the matrix exponential of `delta_t * matrix`: a rotation that keeps the axis. For an antisymmetric matrix that is accepted the
result is orthogonal to within 1e-9. -/
theorem C70_exp_matrix (m : Mat 3) (t : ℝ) :
    (expMatrixExact m t = .throw .invalidArgument ↔ 1 / 10 ^ 10 ≤ |norm (unskew m) - 1|) ∧
    (mᵀ = -m → norm (unskew m) = 1 → ∃ r, expMatrixExact m t = .ok r ∧ r = NormedSpace.exp (t • m) ∧ IsRotation r ∧ r *ᵥ unskew m = unskew m) ∧
    (mᵀ = -m → |norm (unskew m) - 1| < 1 / 10 ^ 10 → ∃ r, expMatrixExact m t = .ok r ∧ ∀ i j, |(rᵀ * r - 1) i j| ≤ 1 / 10 ^ 9) := by
  have hok : |norm (unskew m) - 1| < 1 / 10 ^ 10 → expMatrixExact m t = .ok (1 + Real.sin t • m + (1 - Real.cos t) • (m * m)) := by
    intro h
    unfold expMatrixExact
    rw [if_pos h]
  refine ⟨⟨fun h => ?_, fun h => ?_⟩, fun hm hn => ?_, fun hm hn => ?_⟩
  · by_contra hc
    rw [hok (not_le.mp hc)] at h
    cases h
  · unfold expMatrixExact
    rw [if_neg (not_lt.mpr h)]
  · refine ⟨_, hok (by rw [hn, sub_self, abs_zero]; norm_num), ?_⟩
    have hs := skew_unskew m hm
    have hu := norm_eq_one.mp hn
    refine ⟨?_, ?_, ?_⟩
    · have := rodrigues_exp hu t
      rwa [hs] at this
    · have := rodrigues_rotation hu t
      rwa [hs] at this
    · conv_lhs => rw [← hs]
      rw [unskew_skew, Matrix.add_mulVec, Matrix.add_mulVec, Matrix.one_mulVec, Matrix.smul_mulVec, Matrix.smul_mulVec, ← mulVec_mulVec,
        skew_mulVec, cross_self, mulVec_zero, smul_zero, smul_zero, add_zero, add_zero]
  · refine ⟨_, hok hn, ?_⟩
    have hs := skew_unskew m hm
    generalize unskew m = u at *
    subst hs
    rw [rodrigues_defect, add_sub_cancel_left]
    have hnn := norm_nonneg' u
    have hsq := norm_sq u
    obtain ⟨ha, hb⟩ := abs_lt.mp hn
    have hc := Real.neg_one_le_cos t
    have hc' := Real.cos_le_one t
    have hk : |(1 - Real.cos t) * (1 - Real.cos t) * (1 - sqNorm u)| ≤ 4 * (21 / 10 ^ 11) := by
      rw [abs_mul, abs_of_nonneg (mul_self_nonneg _)]
      apply mul_le_mul
      · nlinarith
      · rw [← hsq, abs_le]
        constructor <;> nlinarith
      · exact abs_nonneg _
      · norm_num
    have hent := skew_sq_entry u
    intro i j
    rw [Matrix.smul_apply, smul_eq_mul, abs_mul]
    have hu2 : sqNorm u ≤ 11 / 10 := by rw [← hsq]; nlinarith
    calc _ ≤ 4 * (21 / 10 ^ 11) * (11 / 10) := mul_le_mul hk (le_trans (hent i j) hu2) (abs_nonneg _) (by norm_num)
      _ ≤ 1 / 10 ^ 9 := by norm_num

example (t : ℝ) : ∃ r, expMatrixExact (skew ![0, 0, 1]) t = .ok r ∧ IsRotation r := by
  obtain ⟨r, h1, _, h2, _⟩ := (C70_exp_matrix (skew ![0, 0, 1]) t).2.1 (skew_transpose _)
    (by rw [unskew_skew, norm_eq_one, sqNorm3]; simp)
  exact ⟨r, h1, h2⟩

/-- `ExpMatrixExact` looks only at the antisymmetric part of its argument: a matrix that is not antisymmetric can be accepted and the result
is then no rotation, not even nearly. -/
theorem C70_exp_matrix_false : ∃ (m : Mat 3) (t : ℝ) (r : Mat 3), expMatrixExact m t = .ok r ∧ 5 ≤ (rᵀ * r) 0 0 := by
  refine ⟨skew ![0, 0, 1] + !![1, 0, 0; 0, 1, 0; 0, 0, 1], Real.pi / 2,
    1 + Real.sin (Real.pi / 2) • (skew ![0, 0, 1] + !![1, 0, 0; 0, 1, 0; 0, 0, 1]) + (1 - Real.cos (Real.pi / 2)) •
      ((skew ![0, 0, 1] + !![1, 0, 0; 0, 1, 0; 0, 0, 1]) * (skew ![0, 0, 1] + !![1, 0, 0; 0, 1, 0; 0, 0, 1])), ?_, ?_⟩
  · unfold expMatrixExact
    rw [if_pos]
    have : unskew (skew ![0, 0, 1] + !![1, 0, 0; 0, 1, 0; 0, 0, 1]) = (![0, 0, 1] : Vec 3) := by
      ext i
      fin_cases i <;> simp [unskew, skew]
      norm_num
    rw [this, norm_eq_one.mpr (by rw [sqNorm3]; simp), sub_self, abs_zero]
    norm_num
  · rw [Real.sin_pi_div_two, Real.cos_pi_div_two]
    simp [skew, Matrix.mul_apply, Fin.sum_univ_succ]
    norm_num

/-! ### Twists -/

/-- Outside this case `ExpTwist` is exact: a rotation too slow for the scaling, but not zero, and a translation that is not as slow. -/
def Exact (ξ : Vec 6) : Prop := ¬ (0 < norm (rotPart ξ) ∧ norm (rotPart ξ) < 1 / 10 ^ 100 ∧ 1 / 10 ^ 100 ≤ norm (transPart ξ))

theorem mk4_unit {u v : Vec 3} (hu : sqNorm u = 1) (s : ℝ) :
    NormedSpace.exp (s • mk4 (skew u) v 0) =
      mk4 (1 + Real.sin s • skew u + (1 - Real.cos s) • (skew u * skew u))
        (s • v + (1 - Real.cos s) • (skew u *ᵥ v) + (s - Real.sin s) • (skew u *ᵥ (skew u *ᵥ v))) 1 := by
  have h3 := skew_cube u
  rw [hu, one_smul] at h3
  have q2 : mk4 (skew u) v 0 * mk4 (skew u) v 0 = mk4 (skew u * skew u) (skew u *ᵥ v) 0 := by
    rw [mk4_mul, zero_smul, add_zero, zero_mul]
  have q3 : mk4 (skew u) v 0 * (mk4 (skew u) v 0 * mk4 (skew u) v 0) = mk4 (-skew u) (skew u *ᵥ (skew u *ᵥ v)) 0 := by
    rw [q2, mk4_mul, zero_smul, add_zero, zero_mul, h3]
  have q4 : mk4 (skew u) v 0 * (mk4 (skew u) v 0 * (mk4 (skew u) v 0 * mk4 (skew u) v 0)) = -(mk4 (skew u) v 0 * mk4 (skew u) v 0) := by
    rw [q3, q2, mk4_mul, zero_smul, add_zero, zero_mul, Matrix.mul_neg, mulVec_mulVec, mulVec_mulVec, Matrix.mul_assoc, h3, neg_mulVec]
    rw [← neg_one_smul ℝ (mk4 _ _ _), mk4_smul, mul_zero, neg_one_smul, neg_one_smul]
  rw [mat_exp_quartic _ q4, q3, q2, ← mk4_one, mk4_smul, mk4_smul, mk4_smul, mk4_add, mk4_add, mk4_add]
  congr 1
  · module
  · rw [zero_add]
  · ring

theorem screw_exp {v w : Vec 3} (hw : 0 < norm w) (t : ℝ) :
    ∃ T, expScrew v w t = .ok T ∧ IsRigid T ∧ T = NormedSpace.exp (t • mk4 (skew w) v 0) ∧
      T = mk4 (1 + Real.sin (t * norm w) • skew ((norm w)⁻¹ • w) + (1 - Real.cos (t * norm w)) • (skew ((norm w)⁻¹ • w) * skew ((norm w)⁻¹ • w)))
        ((t * norm w) • ((norm w)⁻¹ • v) + (1 - Real.cos (t * norm w)) • (skew ((norm w)⁻¹ • w) *ᵥ ((norm w)⁻¹ • v)) +
          (t * norm w - Real.sin (t * norm w)) • (skew ((norm w)⁻¹ • w) *ᵥ (skew ((norm w)⁻¹ • w) *ᵥ ((norm w)⁻¹ • v)))) 1 := by
  have hu1 : norm ((norm w)⁻¹ • w) = 1 := by
    rw [norm_smul, abs_of_pos (inv_pos.mpr hw), inv_mul_cancel₀ hw.ne']
  have hu := norm_eq_one.mp hu1
  have he : t • mk4 (skew w) v 0 = (t * norm w) • mk4 (skew ((norm w)⁻¹ • w)) ((norm w)⁻¹ • v) 0 := by
    rw [mk4_smul, mk4_smul, skew_smul, smul_smul, smul_smul, mul_assoc, mul_inv_cancel₀ hw.ne', mul_one, mul_zero, mul_zero]
  have hok : expMatrixExact (skew ((norm w)⁻¹ • w)) (t * norm w) = .ok
      (1 + Real.sin (t * norm w) • skew ((norm w)⁻¹ • w) + (1 - Real.cos (t * norm w)) • (skew ((norm w)⁻¹ • w) * skew ((norm w)⁻¹ • w))) := by
    unfold expMatrixExact
    rw [unskew_skew, if_pos (by rw [hu1, sub_self, abs_zero]; norm_num)]
  rw [he, mk4_unit hu]
  unfold expScrew
  dsimp only
  rw [hok]
  refine ⟨_, rfl, isRigid_mk4 (rodrigues_rotation hu _) _, ?_, ?_⟩ <;>
  · congr 1
    have e : ((norm w)⁻¹ • w ⬝ᵥ (norm w)⁻¹ • v) • ((norm w)⁻¹ • w) =
        skew ((norm w)⁻¹ • w) *ᵥ (skew ((norm w)⁻¹ • w) *ᵥ ((norm w)⁻¹ • v)) + (norm w)⁻¹ • v := by
      rw [skew_sq, hu, one_smul, sub_add_cancel]
    have h3 := skew_cube ((norm w)⁻¹ • w)
    rw [hu, one_smul] at h3
    rw [e, ← skew_mulVec]
    have d1 : (1 : Mat 3) - (1 + Real.sin (t * norm w) • skew ((norm w)⁻¹ • w) + (1 - Real.cos (t * norm w)) • (skew ((norm w)⁻¹ • w) * skew ((norm w)⁻¹ • w)))
        = (-Real.sin (t * norm w)) • skew ((norm w)⁻¹ • w) + (-(1 - Real.cos (t * norm w))) • (skew ((norm w)⁻¹ • w) * skew ((norm w)⁻¹ • w)) := by module
    have d2 : (skew ((norm w)⁻¹ • w) * skew ((norm w)⁻¹ • w)) *ᵥ (skew ((norm w)⁻¹ • w) *ᵥ ((norm w)⁻¹ • v)) = -(skew ((norm w)⁻¹ • w) *ᵥ ((norm w)⁻¹ • v)) := by
      rw [mulVec_mulVec, Matrix.mul_assoc, h3, neg_mulVec]
    rw [d1, Matrix.add_mulVec, Matrix.smul_mulVec, Matrix.smul_mulVec, d2]
    module

theorem norm_zero_iff {n : Nat} {w : Vec n} : norm w = 0 ↔ w = 0 := by
  unfold norm
  rw [Real.sqrt_eq_zero (sqNorm_nonneg _), sqNorm_eq_zero]

theorem skew_zero : skew 0 = 0 := by
  ext i j
  fin_cases i <;> fin_cases j <;> simp [skew]

theorem trans_exp (v : Vec 3) (t : ℝ) : NormedSpace.exp (t • mk4 0 v 0) = mk4 1 (t • v) 1 := by
  rw [mat_exp_square _ (by
    rw [mk4_mul, zero_smul, Matrix.zero_mul, zero_mulVec, add_zero, zero_mul]
    ext i j
    fin_cases i <;> fin_cases j <;> simp [mk4]), ← mk4_one, mk4_smul, mk4_add, smul_zero, add_zero, zero_add, mul_zero, add_zero]

/-- C70: `ExpTwist` never throws, its result is a rigid motion, and (except in the one case of `Exact`, when it is the translation alone) it is the
matrix exponential of `delta_t * TwistHat(twist)`. -/
theorem C70_exp_twist (ξ : Vec 6) (t : ℝ) : ∃ T, expTwist ξ t = .ok T ∧ IsRigid T ∧
    (Exact ξ → T = NormedSpace.exp (t • twistHat ξ)) ∧ (¬Exact ξ → T = mk4 1 (t • transPart ξ) 1) := by
  have hnn := norm_nonneg' (rotPart ξ)
  unfold expTwist
  dsimp only
  by_cases h1 : norm (rotPart ξ) ≥ 1 / 10 ^ 100
  · rw [if_pos h1]
    have hpos : 0 < norm (rotPart ξ) := lt_of_lt_of_le (by positivity) h1
    obtain ⟨T, a, b, c, _⟩ := screw_exp (v := transPart ξ) hpos t
    exact ⟨T, a, b, fun _ => c, fun he => absurd (fun hx => absurd h1 (not_le.mpr hx.2.1)) he⟩
  · rw [if_neg h1]
    by_cases h2 : norm (transPart ξ) ≥ 1 / 10 ^ 100 ∨ norm (rotPart ξ) = 0
    · rw [if_pos h2]
      refine ⟨_, rfl, isRigid_mk4 isRotation_one _, fun he => ?_, fun _ => rfl⟩
      have hz : norm (rotPart ξ) = 0 := by
        by_contra hz
        rcases h2 with h2 | h2
        · exact he ⟨lt_of_le_of_ne hnn (Ne.symm hz), not_le.mp h1, h2⟩
        · exact hz h2
      unfold twistHat
      rw [norm_zero_iff.mp hz, skew_zero, trans_exp]
    · rw [if_neg h2]
      push Not at h2
      have hpos : 0 < norm (rotPart ξ) := lt_of_le_of_ne hnn (Ne.symm h2.2)
      obtain ⟨T, a, b, c, _⟩ := screw_exp (v := transPart ξ) hpos t
      exact ⟨T, a, b, fun _ => c, fun he => absurd (fun hx => absurd hx.2.2 (not_le.mpr h2.1)) he⟩

theorem exact_of_large (ξ : Vec 6) (h : 1 / 10 ^ 100 ≤ norm (rotPart ξ)) : Exact ξ := fun hx => absurd h (not_le.mpr hx.2.1)

example (t : ℝ) : ∃ T, expTwist ![1, 2, 3, 0, 0, 1] t = .ok T ∧ IsRigid T ∧ T = NormedSpace.exp (t • twistHat ![1, 2, 3, 0, 0, 1]) := by
  obtain ⟨T, a, b, c, _⟩ := C70_exp_twist ![1, 2, 3, 0, 0, 1] t
  refine ⟨T, a, b, c (exact_of_large _ ?_)⟩
  rw [norm_eq_one.mpr (by rw [sqNorm3]; simp [rotPart])]
  exact div_le_one_of_le₀ (one_le_pow₀ (by norm_num)) (by positivity)

/-- C70: moving along a twist for a time and then for another time is moving for the sum of the times. -/
theorem C70_exp_twist_group {ξ : Vec 6} {s t : ℝ} {S T : Mat 4} (hS : expTwist ξ s = .ok S) (hT : expTwist ξ t = .ok T) :
    expTwist ξ (s + t) = .ok (S * T) ∧ expTwist ξ 0 = .ok 1 ∧ expTwist ξ (-t) = .ok T⁻¹ := by
  obtain ⟨S', a1, a2, a3, a4⟩ := C70_exp_twist ξ s
  obtain ⟨T', b1, b2, b3, b4⟩ := C70_exp_twist ξ t
  obtain ⟨U', c1, c2, c3, c4⟩ := C70_exp_twist ξ (s + t)
  obtain ⟨Z', d1, d2, d3, d4⟩ := C70_exp_twist ξ 0
  obtain ⟨N', e1, e2, e3, e4⟩ := C70_exp_twist ξ (-t)
  rw [hS] at a1
  rw [hT] at b1
  cases a1
  cases b1
  rw [c1, d1, e1]
  by_cases h : Exact ξ
  · rw [a3 h, b3 h, c3 h, d3 h, e3 h]
    refine ⟨?_, by rw [zero_smul, NormedSpace.exp_zero], by rw [neg_smul, Matrix.exp_neg]⟩
    rw [add_smul, Matrix.exp_add_of_commute _ _ (((Commute.refl _).smul_left s).smul_right t)]
  · rw [a4 h, b4 h, c4 h, d4 h, e4 h]
    refine ⟨?_, by rw [zero_smul, mk4_one], ?_⟩
    · rw [mk4_mul, Matrix.mul_one, one_mul, one_mulVec, one_smul, add_smul, add_comm]
    · congr 1
      symm
      apply inv_eq_right_inv
      rw [mk4_mul, Matrix.mul_one, one_mul, one_mulVec, one_smul, neg_smul, neg_add_cancel, mk4_one]

example : ∃ S T, expTwist ![1, 2, 3, 4, 5, 6] 1 = .ok S ∧ expTwist ![1, 2, 3, 4, 5, 6] 2 = .ok T ∧ expTwist ![1, 2, 3, 4, 5, 6] (1 + 2) = .ok (S * T) := by
  obtain ⟨S, a, _⟩ := C70_exp_twist ![1, 2, 3, 4, 5, 6] 1
  obtain ⟨T, b, _⟩ := C70_exp_twist ![1, 2, 3, 4, 5, 6] 2
  exact ⟨S, T, a, b, (C70_exp_twist_group a b).1⟩

/-- C70: if the matrix logarithm is right for the motion from `a` to `b`, then following `TwistBetweenTransforms(a, b)` for unit time leads from
`a` to `b`. -/
theorem C70_twist_between {a b : Mat 4} (ha : IsRigid a) (log : Mat 4 → Mat 4) (hlog : NormedSpace.exp (log (a⁻¹ * b)) = a⁻¹ * b)
    (hanti : ∀ i j : Fin 3, log (a⁻¹ * b) j.castSucc i.castSucc = - log (a⁻¹ * b) i.castSucc j.castSucc) (hrow : ∀ j, log (a⁻¹ * b) 3 j = 0)
    (hex : Exact (twistBetween log a b)) : ∃ T, expTwist (twistBetween log a b) 1 = .ok T ∧ a * T = b := by
  obtain ⟨T, h1, _, h3, _⟩ := C70_exp_twist (twistBetween log a b) 1
  refine ⟨T, h1, ?_⟩
  rw [h3 hex]
  unfold twistBetween
  rw [(C70_twist_hat 0 _).2.mpr ⟨hanti, hrow⟩, one_smul, hlog, ← Matrix.mul_assoc]
  have hd : IsUnit a.det := by
    have : a * a⁻¹ = 1 := by
      rw [ha.inv]
      conv_lhs => rw [ha.eq]
      rw [rotBlock_mk4, transBlock_mk4, mk4_mul, ha.1.inv, mulVec_neg, mulVec_mulVec, ha.1.inv, one_mulVec, one_smul, one_mul, neg_add_cancel, mk4_one]
    exact (Matrix.isUnit_iff_isUnit_det a).mp (IsUnit.of_mul_eq_one _ this)
  rw [mul_nonsing_inv a hd, Matrix.one_mul]

/-- A logarithm exists for a unit translation. -/
example : ∃ (log : Mat 4 → Mat 4) (T : Mat 4), expTwist (twistBetween log 1 (mk4 1 ![1, 0, 0] 1)) 1 = .ok T ∧ 1 * T = mk4 1 ![1, 0, 0] 1 := by
  have hr : IsRigid (1 : Mat 4) := by rw [← mk4_one]; exact isRigid_mk4 isRotation_one 0
  refine ⟨fun _ => mk4 0 ![1, 0, 0] 0, C70_twist_between hr _ ?_ ?_ ?_ ?_⟩
  · have := trans_exp ![1, 0, 0] 1
    rw [one_smul, one_smul] at this
    rw [this, inv_one, Matrix.one_mul]
  · intro i j
    fin_cases i <;> fin_cases j <;> simp [mk4]
  · intro j
    fin_cases j <;> simp [mk4]
  · intro hx
    have : rotPart (twistBetween (fun _ => mk4 0 ![1, 0, 0] 0) 1 (mk4 1 ![1, 0, 0] 1)) = 0 := by
      unfold twistBetween twistUnhat
      rw [(parts_mkTwist _ _).2, rotBlock_mk4]
      ext i
      fin_cases i <;> simp [unskew]
    rw [this, norm_zero_iff.mpr rfl] at hx
    exact lt_irrefl _ hx.1

/-- C70: moving along a twist expressed in another frame is the motion conjugated by the change of frame. -/
theorem C70_exp_transform {f : Mat 4} (hf : IsRigid f) (ξ : Vec 6) (t : ℝ) (h1 : Exact ξ) (h2 : Exact (transformTwist f ξ)) :
    ∃ T, expTwist ξ t = .ok T ∧ expTwist (transformTwist f ξ) t = .ok (f * T * f⁻¹) := by
  obtain ⟨T, a, _, b, _⟩ := C70_exp_twist ξ t
  obtain ⟨U, c, _, d, _⟩ := C70_exp_twist (transformTwist f ξ) t
  refine ⟨T, a, ?_⟩
  have hd : IsUnit f := by
    have : f * f⁻¹ = 1 := by
      rw [hf.inv]
      conv_lhs => rw [hf.eq]
      rw [rotBlock_mk4, transBlock_mk4, mk4_mul, hf.1.inv, mulVec_neg, mulVec_mulVec, hf.1.inv, one_mulVec, one_smul, one_mul, neg_add_cancel, mk4_one]
    exact IsUnit.of_mul_eq_one _ this
  rw [c, d h2, b h1, C70_transform_twist hf, ← Matrix.exp_conj _ _ hd, Matrix.mul_smul, Matrix.smul_mul]

example (t : ℝ) : ∃ T, expTwist ![1, 2, 3, 0, 0, 1] t = .ok T ∧ expTwist (transformTwist quarterTurn ![1, 2, 3, 0, 0, 1]) t = .ok (quarterTurn * T * quarterTurn⁻¹) := by
  have hb : (1 : ℝ) / 10 ^ 100 ≤ 1 := div_le_one_of_le₀ (one_le_pow₀ (by norm_num)) (by positivity)
  apply C70_exp_transform quarterTurn_rigid
  · apply exact_of_large
    rw [norm_eq_one.mpr (by rw [sqNorm3]; simp [rotPart])]
    exact hb
  · apply exact_of_large
    rw [norm_eq_one.mpr (by
      rw [transformTwist_eq, (parts_mkTwist _ _).2, sqNorm3]
      simp [rotPart, quarterTurn, rotBlock_mk4, Matrix.mulVec, dotProduct, Fin.sum_univ_succ])]
    exact hb

/-! ### The approximated case -/

theorem abs_entry_le_norm {n : Nat} (v : Vec n) (i : Fin n) : |v i| ≤ norm v := by
  unfold norm
  apply Real.abs_le_sqrt
  unfold sqNorm dotProduct
  rw [sq]
  exact Finset.single_le_sum (f := fun i => v i * v i) (fun j _ => mul_self_nonneg (v j)) (Finset.mem_univ i)

theorem norm_skew_le {u : Vec 3} (hu : sqNorm u = 1) (w : Vec 3) : norm (skew u *ᵥ w) ≤ norm w := by
  unfold norm
  apply Real.sqrt_le_sqrt
  have h : sqNorm (skew u *ᵥ w) = sqNorm u * sqNorm w - (u ⬝ᵥ w) * (u ⬝ᵥ w) := by
    rw [sqNorm3, sqNorm3, sqNorm3]
    simp [skew, Matrix.mulVec, dotProduct, Fin.sum_univ_succ]
    ring
  rw [h, hu, one_mul]
  linarith [mul_self_nonneg (u ⬝ᵥ w)]

theorem skew_entry_le {u : Vec 3} (hu : sqNorm u = 1) (i j : Fin 3) : |skew u i j| ≤ 1 := by
  have h : ∀ k, |u k| ≤ 1 := fun k => by
    have := abs_entry_le_norm u k
    rwa [norm_eq_one.mpr hu] at this
  fin_cases i <;> fin_cases j <;> simp [skew, h]

theorem one_sub_cos_le (s : ℝ) : |1 - Real.cos s| ≤ |s| ∧ |1 - Real.cos s| ≤ s ^ 2 / 2 := by
  have h1 := Real.one_sub_sq_div_two_le_cos (x := s)
  have h2 := Real.cos_le_one s
  have h3 := Real.neg_one_le_cos s
  rw [abs_of_nonneg (by linarith)]
  refine ⟨?_, by linarith⟩
  rcases le_total |s| 2 with h | h
  · have : s ^ 2 = |s| * |s| := by rw [abs_mul_abs_self, sq]
    nlinarith [abs_nonneg s]
  · linarith

theorem sub_sin_le (s : ℝ) : |s - Real.sin s| ≤ 2 * s ^ 2 := by
  have key : ∀ s : ℝ, 0 < s → |s - Real.sin s| ≤ 2 * s ^ 2 := by
    intro s hs
    have h0 := Real.sin_lt hs
    rw [abs_of_pos (by linarith)]
    rcases le_total s 1 with h | h
    · have := Real.sin_gt_sub_cube hs
      nlinarith [sq_nonneg s, mul_nonneg (sq_nonneg s) (by linarith : (0 : ℝ) ≤ 1 - s)]
    · have := Real.neg_one_le_sin s
      nlinarith
  rcases lt_trichotomy s 0 with h | h | h
  · have := key (-s) (by linarith)
    rw [Real.sin_neg, ← abs_neg] at this
    rw [show s - Real.sin s = -(-s - -Real.sin s) by ring]
    rw [neg_sq] at this
    exact this
  · rw [h]; simp
  · exact key s h

/-- C70: in the one case in which `ExpTwist` is not exact it leaves out a rotation of less than 1e-100 per unit of time; this bounds the difference from
the matrix exponential. -/
theorem C70_exp_twist_small {ξ : Vec 6} (hξ : ¬Exact ξ) {t : ℝ} {T : Mat 4} (hT : expTwist ξ t = .ok T) :
    (∀ i j, |rotBlock (NormedSpace.exp (t • twistHat ξ)) i j - rotBlock T i j| ≤ 2 * |t| * norm (rotPart ξ)) ∧
    (∀ i, |transBlock (NormedSpace.exp (t • twistHat ξ)) i - transBlock T i| ≤ 3 * t ^ 2 * norm (rotPart ξ) * norm (transPart ξ)) ∧
    norm (rotPart ξ) < 1 / 10 ^ 100 := by
  have hx := not_not.mp hξ
  obtain ⟨T', a, _, _, b⟩ := C70_exp_twist ξ t
  rw [hT] at a
  cases a
  rw [b hξ]
  obtain ⟨U, _, _, c, d⟩ := screw_exp (v := transPart ξ) hx.1 t
  unfold twistHat
  rw [← c, d, rotBlock_mk4, rotBlock_mk4, transBlock_mk4, transBlock_mk4]
  clear c d
  have hpos := hx.1
  generalize transPart ξ = v at *
  generalize rotPart ξ = w at *
  have hu1 : norm ((norm w)⁻¹ • w) = 1 := by
    rw [norm_smul, abs_of_pos (inv_pos.mpr hpos), inv_mul_cancel₀ hpos.ne']
  have hu := norm_eq_one.mp hu1
  generalize (norm w)⁻¹ • w = u at *
  have hs : |t * norm w| = |t| * norm w := by rw [abs_mul, abs_of_pos hpos]
  refine ⟨fun i j => ?_, fun i => ?_, hx.2.1⟩
  · have e : (1 + Real.sin (t * norm w) • skew u + (1 - Real.cos (t * norm w)) • (skew u * skew u)) i j - (1 : Mat 3) i j =
        Real.sin (t * norm w) * skew u i j + (1 - Real.cos (t * norm w)) * (skew u * skew u) i j := by
      simp only [Matrix.add_apply, Matrix.smul_apply, smul_eq_mul]
      ring
    rw [e]
    have h1 : |Real.sin (t * norm w) * skew u i j| ≤ |t| * norm w := by
      rw [abs_mul]
      calc _ ≤ |t * norm w| * 1 := mul_le_mul Real.abs_sin_le_abs (skew_entry_le hu i j) (abs_nonneg _) (abs_nonneg _)
        _ = _ := by rw [mul_one, hs]
    have h2 : |(1 - Real.cos (t * norm w)) * (skew u * skew u) i j| ≤ |t| * norm w := by
      rw [abs_mul]
      calc _ ≤ |t * norm w| * 1 := mul_le_mul (one_sub_cos_le _).1 (by have := skew_sq_entry u i j; rwa [hu] at this) (abs_nonneg _) (abs_nonneg _)
        _ = _ := by rw [mul_one, hs]
    refine le_trans (abs_add_le _ _) ?_
    linarith
  · have e : ((t * norm w) • ((norm w)⁻¹ • v)) = t • v := by
      rw [smul_smul, mul_assoc, mul_inv_cancel₀ hpos.ne', mul_one]
    rw [e]
    have e2 : (t • v + (1 - Real.cos (t * norm w)) • (skew u *ᵥ ((norm w)⁻¹ • v)) +
        (t * norm w - Real.sin (t * norm w)) • (skew u *ᵥ (skew u *ᵥ ((norm w)⁻¹ • v)))) i - (t • v) i =
        (1 - Real.cos (t * norm w)) * (skew u *ᵥ ((norm w)⁻¹ • v)) i + (t * norm w - Real.sin (t * norm w)) * (skew u *ᵥ (skew u *ᵥ ((norm w)⁻¹ • v))) i := by
      simp only [Pi.add_apply, Pi.smul_apply, smul_eq_mul]
      ring
    rw [e2]
    have hn1 : norm (skew u *ᵥ ((norm w)⁻¹ • v)) ≤ (norm w)⁻¹ * norm v := by
      have := norm_skew_le hu ((norm w)⁻¹ • v)
      rwa [norm_smul, abs_of_pos (inv_pos.mpr hpos)] at this
    have h1 : |(1 - Real.cos (t * norm w)) * (skew u *ᵥ ((norm w)⁻¹ • v)) i| ≤ (t * norm w) ^ 2 / 2 * ((norm w)⁻¹ * norm v) := by
      rw [abs_mul]
      exact mul_le_mul (one_sub_cos_le _).2 (le_trans (abs_entry_le_norm _ i) hn1) (abs_nonneg _) (by positivity)
    have h2 : |(t * norm w - Real.sin (t * norm w)) * (skew u *ᵥ (skew u *ᵥ ((norm w)⁻¹ • v))) i| ≤ 2 * (t * norm w) ^ 2 * ((norm w)⁻¹ * norm v) := by
      rw [abs_mul]
      exact mul_le_mul (sub_sin_le _) (le_trans (abs_entry_le_norm _ i) (le_trans (norm_skew_le hu _) hn1)) (abs_nonneg _) (by positivity)
    have e3 : (t * norm w) ^ 2 * ((norm w)⁻¹ * norm v) = t ^ 2 * norm w * norm v := by
      field_simp
    have h0 : 0 ≤ t ^ 2 * norm w * norm v := mul_nonneg (mul_nonneg (sq_nonneg t) hpos.le) (norm_nonneg' v)
    have h3 := abs_add_le ((1 - Real.cos (t * norm w)) * (skew u *ᵥ ((norm w)⁻¹ • v)) i)
      ((t * norm w - Real.sin (t * norm w)) * (skew u *ᵥ (skew u *ᵥ ((norm w)⁻¹ • v))) i)
    have h4 : (t * norm w) ^ 2 / 2 * ((norm w)⁻¹ * norm v) = t ^ 2 * norm w * norm v / 2 := by rw [← e3]; ring
    have h5 : 2 * (t * norm w) ^ 2 * ((norm w)⁻¹ * norm v) = 2 * (t ^ 2 * norm w * norm v) := by rw [← e3]; ring
    rw [h4] at h1
    rw [h5] at h2
    linarith

/-- The case exists. -/
example : ¬Exact ![1, 0, 0, 0, 0, 1 / 10 ^ 101] ∧ ∃ T, expTwist ![1, 0, 0, 0, 0, 1 / 10 ^ 101] 5 = .ok T := by
  have h1 : norm (rotPart ![1, 0, 0, 0, 0, 1 / 10 ^ 101]) = 1 / 10 ^ 101 := by
    unfold norm
    rw [sqNorm3, show rotPart ![1, 0, 0, 0, 0, 1 / 10 ^ 101] 0 = 0 from rfl, show rotPart ![1, 0, 0, 0, 0, 1 / 10 ^ 101] 1 = 0 from rfl,
      show rotPart ![1, 0, 0, 0, 0, 1 / 10 ^ 101] 2 = 1 / 10 ^ 101 from rfl, mul_zero, add_zero, zero_add, Real.sqrt_mul_self (by positivity)]
  have h2 : norm (transPart ![1, 0, 0, 0, 0, 1 / 10 ^ 101]) = 1 := by
    rw [norm_eq_one, sqNorm3]
    simp [transPart]
  refine ⟨fun h => h ⟨?_, ?_, ?_⟩, ?_⟩
  · rw [h1]; positivity
  · rw [h1, div_lt_div_iff₀ (by positivity) (by positivity), one_mul, one_mul]
    exact pow_lt_pow_right₀ (by norm_num) (by norm_num)
  · rw [h2]
    exact div_le_one_of_le₀ (one_le_pow₀ (by norm_num)) (by positivity)
  · obtain ⟨T, a, _⟩ := C70_exp_twist ![1, 0, 0, 0, 0, 1 / 10 ^ 101] 5
    exact ⟨T, a⟩

end CRU.Math
