import Verif.Math.Twist
import Mathlib.Analysis.SpecialFunctions.Exponential
import Mathlib.Analysis.SpecialFunctions.Trigonometric.Deriv
import Mathlib.Analysis.Normed.Algebra.MatrixExponential
import Mathlib.Analysis.Calculus.MeanValue
import Mathlib.Tactic.LinearCombination
/-
  C70: proofs.
-/
namespace CRU.Math
open Matrix

theorem mk4_mul (r r' : Mat 3) (p p' : Vec 3) (c c' : ℝ) :
    mk4 r p c * mk4 r' p' c' = mk4 (r * r') (r *ᵥ p' + c' • p) (c * c') := by
  ext i j
  fin_cases i <;> fin_cases j <;> simp [mk4, Matrix.mul_apply, Fin.sum_univ_succ, Matrix.mulVec, dotProduct] <;> ring

theorem rotBlock_mk4 (r : Mat 3) (p : Vec 3) (c : ℝ) : rotBlock (mk4 r p c) = r := by
  ext i j
  fin_cases i <;> fin_cases j <;> rfl

theorem transBlock_mk4 (r : Mat 3) (p : Vec 3) (c : ℝ) : transBlock (mk4 r p c) = p := by
  ext i
  fin_cases i <;> rfl

theorem mk4_blocks (t : Mat 4) (h0 : t 3 0 = 0) (h1 : t 3 1 = 0) (h2 : t 3 2 = 0) : mk4 (rotBlock t) (transBlock t) (t 3 3) = t := by
  ext i j
  fin_cases i <;> fin_cases j <;> simp [mk4, rotBlock, transBlock, h0, h1, h2]

theorem mk4_one : mk4 1 0 1 = 1 := by
  ext i j
  fin_cases i <;> fin_cases j <;> simp [mk4]

theorem mk4_add (r r' : Mat 3) (p p' : Vec 3) (c c' : ℝ) : mk4 r p c + mk4 r' p' c' = mk4 (r + r') (p + p') (c + c') := by
  ext i j
  fin_cases i <;> fin_cases j <;> simp [mk4]

theorem mk4_smul (a : ℝ) (r : Mat 3) (p : Vec 3) (c : ℝ) : a • mk4 r p c = mk4 (a • r) (a • p) (a * c) := by
  ext i j
  fin_cases i <;> fin_cases j <;> simp [mk4]

theorem skew_smul (a : ℝ) (v : Vec 3) : skew (a • v) = a • skew v := by
  ext i j
  fin_cases i <;> fin_cases j <;> simp [skew]

theorem skew_mulVec (v w : Vec 3) : skew v *ᵥ w = v ⨯₃ w := by
  ext i
  fin_cases i <;> simp [skew, cross_apply, Matrix.mulVec, dotProduct, Fin.sum_univ_succ] <;> ring

theorem unskew_skew (v : Vec 3) : unskew (skew v) = v := by
  ext i
  fin_cases i <;> simp [unskew, skew] <;> ring

theorem skew_unskew (m : Mat 3) (h : mᵀ = -m) : skew (unskew m) = m := by
  have h' : ∀ i j, m j i = - m i j := fun i j => congrFun (congrFun h i) j
  ext i j
  fin_cases i <;> fin_cases j <;> simp [unskew, skew]
  all_goals
    first
    | linarith [h' 0 0]
    | linarith [h' 1 1]
    | linarith [h' 2 2]
    | linarith [h' 0 1]
    | linarith [h' 0 2]
    | linarith [h' 1 2]

/-- C70: `Skew(v) w` is the cross product `v × w`; `Unskew` inverts `Skew`, and `Skew` inverts `Unskew` exactly on the antisymmetric matrices. -/
theorem C70_skew (v w : Vec 3) (m : Mat 3) :
    skew v *ᵥ w = ![v 1 * w 2 - v 2 * w 1, v 2 * w 0 - v 0 * w 2, v 0 * w 1 - v 1 * w 0] ∧ (skew v)ᵀ = -skew v ∧
    unskew (skew v) = v ∧ (skew (unskew m) = m ↔ mᵀ = -m) := by
  have ht : ∀ v, (skew v)ᵀ = -skew v := by
    intro v
    ext i j
    fin_cases i <;> fin_cases j <;> simp [skew]
  refine ⟨by rw [skew_mulVec, cross_apply], ht v, unskew_skew v, ⟨fun h => ?_, skew_unskew m⟩⟩
  rw [← h]
  exact ht _

example : skew ![1, 0, 0] *ᵥ ![0, 1, 0] = (![0, 0, 1] : Vec 3) := by
  rw [(C70_skew ![1, 0, 0] ![0, 1, 0] 0).1]
  simp

theorem mkTwist_parts (ξ : Vec 6) : mkTwist (transPart ξ) (rotPart ξ) = ξ := by
  ext i
  fin_cases i <;> rfl

theorem parts_mkTwist (v w : Vec 3) : transPart (mkTwist v w) = v ∧ rotPart (mkTwist v w) = w := by
  constructor
  · ext i; fin_cases i <;> rfl
  · ext i; fin_cases i <;> rfl

/-- C70: `TwistUnhat` inverts `TwistHat`, and `TwistHat` inverts `TwistUnhat` exactly on the matrices with antisymmetric 3 x 3 block and zero last row. -/
theorem C70_twist_hat (ξ : Vec 6) (m : Mat 4) :
    twistUnhat (twistHat ξ) = ξ ∧ (twistHat (twistUnhat m) = m ↔ (∀ i j : Fin 3, m j.castSucc i.castSucc = - m i.castSucc j.castSucc) ∧ ∀ j, m 3 j = 0) := by
  constructor
  · unfold twistUnhat twistHat
    rw [rotBlock_mk4, transBlock_mk4, unskew_skew, mkTwist_parts]
  · unfold twistUnhat twistHat
    rw [(parts_mkTwist _ _).1, (parts_mkTwist _ _).2]
    constructor
    · intro h
      have hs := (C70_skew (unskew (rotBlock m)) 0 0).2.1
      have hr : skew (unskew (rotBlock m)) = rotBlock m := by
        conv_rhs => rw [← h]
        rw [rotBlock_mk4]
      rw [hr] at hs
      refine ⟨fun i j => ?_, fun j => ?_⟩
      · have := congrFun (congrFun hs i) j
        fin_cases i <;> fin_cases j <;> simpa [rotBlock] using this
      · rw [← h]
        fin_cases j <;> rfl
    · rintro ⟨h1, h2⟩
      have hs : (rotBlock m)ᵀ = -rotBlock m := by
        ext i j
        have := h1 i j
        fin_cases i <;> fin_cases j <;> simpa [rotBlock] using this
      rw [skew_unskew _ hs]
      have := mk4_blocks m (h2 0) (h2 1) (h2 2)
      rwa [h2 3] at this

example : ∃ m : Mat 4, m ≠ 0 ∧ twistHat (twistUnhat m) = m :=
  ⟨twistHat ![1, 2, 3, 4, 5, 6], fun h => by
    have := congrFun (congrFun h 0) 3
    simp [twistHat, mk4, transPart] at this,
    by rw [(C70_twist_hat _ 0).1]⟩

/-! ### Rotations and rigid motions -/

theorem IsRotation.inv {r : Mat 3} (h : IsRotation r) : r * rᵀ = 1 := by
  exact (mul_eq_one_comm).mp h.1

theorem IsRotation.mul {r s : Mat 3} (hr : IsRotation r) (hs : IsRotation s) : IsRotation (r * s) := by
  refine ⟨?_, by rw [det_mul, hr.2, hs.2, one_mul]⟩
  rw [transpose_mul, Matrix.mul_assoc, ← Matrix.mul_assoc rᵀ, hr.1, Matrix.one_mul, hs.1]

theorem IsRotation.transpose {r : Mat 3} (hr : IsRotation r) : IsRotation rᵀ :=
  ⟨by rw [transpose_transpose]; exact hr.inv, by rw [det_transpose, hr.2]⟩

theorem isRotation_one : IsRotation 1 := ⟨by rw [transpose_one, Matrix.mul_one], det_one⟩

theorem IsRigid.eq {t : Mat 4} (h : IsRigid t) : t = mk4 (rotBlock t) (transBlock t) 1 := by
  have := mk4_blocks t h.2.1 h.2.2.1 h.2.2.2.1
  rw [h.2.2.2.2] at this
  exact this.symm

theorem isRigid_mk4 {r : Mat 3} (hr : IsRotation r) (p : Vec 3) : IsRigid (mk4 r p 1) :=
  ⟨by rw [rotBlock_mk4]; exact hr, rfl, rfl, rfl, rfl⟩

theorem IsRigid.mul {s t : Mat 4} (hs : IsRigid s) (ht : IsRigid t) : IsRigid (s * t) := by
  rw [hs.eq, ht.eq, mk4_mul, one_mul]
  exact isRigid_mk4 (hs.1.mul ht.1) _

theorem IsRigid.inv {t : Mat 4} (ht : IsRigid t) : t⁻¹ = mk4 (rotBlock t)ᵀ (-((rotBlock t)ᵀ *ᵥ transBlock t)) 1 := by
  apply inv_eq_right_inv
  conv_lhs => rw [ht.eq]
  rw [rotBlock_mk4, transBlock_mk4, mk4_mul, ht.1.inv, mulVec_neg, mulVec_mulVec, ht.1.inv, one_mulVec, one_smul, one_mul, neg_add_cancel, mk4_one]

/-- Rotations respect the cross product. -/
theorem skew_rotate {r : Mat 3} (h : IsRotation r) (w : Vec 3) : r * skew w = skew (r *ᵥ w) * r := by
  have hadj : r.adjugate = rᵀ := by
    have h1 : r.adjugate * r = 1 := by rw [adjugate_mul, h.2, one_smul]
    calc r.adjugate = r.adjugate * (r * rᵀ) := by rw [h.inv, Matrix.mul_one]
      _ = rᵀ := by rw [← Matrix.mul_assoc, h1, Matrix.one_mul]
  have hent : ∀ i j, r.adjugate i j = r j i := fun i j => by rw [hadj]; rfl
  rw [adjugate_fin_three] at hent
  have e00 := hent 0 0
  have e01 := hent 0 1
  have e02 := hent 0 2
  have e10 := hent 1 0
  have e11 := hent 1 1
  have e12 := hent 1 2
  have e20 := hent 2 0
  have e21 := hent 2 1
  have e22 := hent 2 2
  simp at e00 e01 e02 e10 e11 e12 e20 e21 e22
  ext i j
  fin_cases i <;> fin_cases j <;>
    simp [skew, Matrix.mul_apply, Matrix.mulVec, dotProduct, Fin.sum_univ_succ]
  · linear_combination -(w 2) * e10 + w 1 * e20
  · linear_combination w 2 * e00 - w 0 * e20
  · linear_combination -(w 1) * e00 + w 0 * e10
  · linear_combination -(w 2) * e11 + w 1 * e21
  · linear_combination w 2 * e01 - w 0 * e21
  · linear_combination -(w 1) * e01 + w 0 * e11
  · linear_combination -(w 2) * e12 + w 1 * e22
  · linear_combination w 2 * e02 - w 0 * e22
  · linear_combination -(w 1) * e02 + w 0 * e12

theorem skew_add (v w : Vec 3) : skew (v + w) = skew v + skew w := by
  ext i j
  fin_cases i <;> fin_cases j <;> simp [skew] <;> ring

theorem transformTwist_eq (t : Mat 4) (ξ : Vec 6) :
    transformTwist t ξ = mkTwist (rotBlock t *ᵥ transPart ξ + (skew (transBlock t) * rotBlock t) *ᵥ rotPart ξ) (rotBlock t *ᵥ rotPart ξ) := by
  ext i
  fin_cases i <;>
    simp [transformTwist, adjointFromTransform, mkTwist, Matrix.mulVec, dotProduct, Fin.sum_univ_succ, transPart, rotPart] <;> ring

/-- C70: `TransformTwist` is conjugation by the transform. -/
theorem C70_transform_twist {t : Mat 4} (ht : IsRigid t) (ξ : Vec 6) : twistHat (transformTwist t ξ) = t * twistHat ξ * t⁻¹ := by
  rw [ht.inv]
  conv_rhs => rw [ht.eq]
  rw [rotBlock_mk4, transBlock_mk4, transformTwist_eq]
  unfold twistHat
  rw [(parts_mkTwist _ _).1, (parts_mkTwist _ _).2, mk4_mul, mk4_mul]
  have h1 : rotBlock t * skew (rotPart ξ) * (rotBlock t)ᵀ = skew (rotBlock t *ᵥ rotPart ξ) := by
    rw [skew_rotate ht.1, Matrix.mul_assoc, ht.1.inv, Matrix.mul_one]
  rw [h1, mulVec_neg, mulVec_mulVec, h1, skew_mulVec, ← mulVec_mulVec, skew_mulVec]
  congr 1
  · rw [zero_smul, add_zero, one_smul, ← cross_anticomm]
    abel
  · norm_num

theorem adjoint_inj {a b : Mat 6} (h : ∀ ξ : Vec 6, a *ᵥ ξ = b *ᵥ ξ) : a = b := by
  ext i j
  have := congrFun (h (Pi.single j 1)) i
  simpa using this

/-- C70: the adjoint respects composition, the identity and inverses. -/
theorem C70_adjoint {s t : Mat 4} (hs : IsRigid s) (ht : IsRigid t) :
    IsRigid (s * t) ∧ IsRigid t⁻¹ ∧ adjointFromTransform (s * t) = adjointFromTransform s * adjointFromTransform t ∧
    adjointFromTransform 1 = 1 ∧ adjointFromTransform t⁻¹ = (adjointFromTransform t)⁻¹ := by
  have hmul : ∀ {s t : Mat 4}, IsRigid s → IsRigid t → adjointFromTransform (s * t) = adjointFromTransform s * adjointFromTransform t := by
    intro s t hs ht
    apply adjoint_inj
    intro ξ
    have h : twistHat (transformTwist (s * t) ξ) = twistHat (transformTwist s (transformTwist t ξ)) := by
      rw [C70_transform_twist (hs.mul ht), C70_transform_twist hs, C70_transform_twist ht, Matrix.mul_inv_rev]
      simp only [Matrix.mul_assoc]
    have h2 := congrArg twistUnhat h
    rw [(C70_twist_hat _ 0).1, (C70_twist_hat _ 0).1] at h2
    unfold transformTwist at h2
    rw [h2, mulVec_mulVec]
  have hinv : IsRigid t⁻¹ := by rw [ht.inv]; exact isRigid_mk4 ht.1.transpose _
  have hone : adjointFromTransform 1 = 1 := by
    have h0 : (skew 0 : Mat 3) = 0 := by
      ext i j
      fin_cases i <;> fin_cases j <;> simp [skew]
    unfold adjointFromTransform
    rw [← mk4_one, rotBlock_mk4, transBlock_mk4, h0]
    ext i j
    fin_cases i <;> fin_cases j <;> simp
  refine ⟨hs.mul ht, hinv, hmul hs ht, hone, ?_⟩
  symm
  apply inv_eq_right_inv
  rw [← hmul ht hinv, ← hone]
  congr 1
  have hd : IsUnit t.det := by
    have : t * mk4 (rotBlock t)ᵀ (-((rotBlock t)ᵀ *ᵥ transBlock t)) 1 = 1 := by
      conv_lhs => rw [ht.eq]
      rw [rotBlock_mk4, transBlock_mk4, mk4_mul, ht.1.inv, mulVec_neg, mulVec_mulVec, ht.1.inv, one_mulVec, one_smul, one_mul, neg_add_cancel, mk4_one]
    exact (Matrix.isUnit_iff_isUnit_det t).mp (IsUnit.of_mul_eq_one _ this)
  exact mul_nonsing_inv t hd

/-- A quarter turn about z, with a translation, is rigid. -/
def quarterTurn : Mat 4 := mk4 !![0, -1, 0; 1, 0, 0; 0, 0, 1] ![1, 2, 3] 1
theorem quarterTurn_rigid : IsRigid quarterTurn := by
  apply isRigid_mk4
  constructor
  · ext i j
    fin_cases i <;> fin_cases j <;> simp [Matrix.mul_apply, Fin.sum_univ_succ]
  · simp [det_fin_three]

example (ξ : Vec 6) : twistHat (transformTwist quarterTurn ξ) = quarterTurn * twistHat ξ * quarterTurn⁻¹ := C70_transform_twist quarterTurn_rigid ξ
example : adjointFromTransform quarterTurn⁻¹ = (adjointFromTransform quarterTurn)⁻¹ := (C70_adjoint quarterTurn_rigid quarterTurn_rigid).2.2.2.2

/-! ### The exponential -/
section Exp
variable {A : Type} [NormedRing A] [NormedAlgebra ℝ A] [CompleteSpace A]

theorem exp_unique (h : A) (e : ℝ → A) (h0 : e 0 = 1) (hd : ∀ t, HasDerivAt e (h * e t) t) (t : ℝ) : e t = NormedSpace.exp (t • h) := by
  have hc : ∀ t, HasDerivAt (fun u : ℝ => NormedSpace.exp (u • (-h)) * e u) 0 t := by
    intro t
    have h1 := (hasDerivAt_exp_smul_const (𝕂 := ℝ) (-h) t).mul (hd t)
    have e1 : NormedSpace.exp (t • (-h)) * -h * e t + NormedSpace.exp (t • (-h)) * (h * e t) = 0 := by noncomm_ring
    rw [e1] at h1
    exact h1
  have hk := is_const_of_deriv_eq_zero (fun t => (hc t).differentiableAt) (fun t => (hc t).deriv) t 0
  simp only [zero_smul, NormedSpace.exp_zero, h0, mul_one] at hk
  have hinv : NormedSpace.exp (t • h) * NormedSpace.exp (t • (-h)) = 1 := by
    let +nondep : NormedAlgebra ℚ A := .restrictScalars ℚ ℝ A
    rw [← NormedSpace.exp_add_of_commute, smul_neg, add_neg_cancel, NormedSpace.exp_zero]
    rw [smul_neg]
    exact (Commute.refl _).neg_right
  calc e t = (NormedSpace.exp (t • h) * NormedSpace.exp (t • (-h))) * e t := by rw [hinv, one_mul]
    _ = NormedSpace.exp (t • h) := by rw [mul_assoc, hk, mul_one]

theorem exp_quartic (h : A) (h4 : h * (h * (h * h)) = -(h * h)) (t : ℝ) :
    NormedSpace.exp (t • h) = 1 + t • h + (1 - Real.cos t) • (h * h) + (t - Real.sin t) • (h * (h * h)) := by
  symm
  apply exp_unique h (fun t => 1 + t • h + (1 - Real.cos t) • (h * h) + (t - Real.sin t) • (h * (h * h)))
  · simp
  · intro t
    have d1 : HasDerivAt (fun u : ℝ => u • h) ((1 : ℝ) • h) t := (hasDerivAt_id t).smul_const h
    have d2 : HasDerivAt (fun u : ℝ => (1 - Real.cos u) • (h * h)) ((0 - -Real.sin t) • (h * h)) t :=
      ((hasDerivAt_const t (1 : ℝ)).sub (Real.hasDerivAt_cos t)).smul_const _
    have d3 : HasDerivAt (fun u : ℝ => (u - Real.sin u) • (h * (h * h))) ((1 - Real.cos t) • (h * (h * h))) t :=
      ((hasDerivAt_id t).sub (Real.hasDerivAt_sin t)).smul_const _
    have d := (((hasDerivAt_const t (1 : A)).add d1).add d2).add d3
    refine d.congr_deriv ?_
    simp only [mul_add, mul_one, mul_smul_comm, h4]
    module

theorem exp_square (h : A) (h2 : h * h = 0) (t : ℝ) : NormedSpace.exp (t • h) = 1 + t • h := by
  symm
  apply exp_unique h (fun t => 1 + t • h)
  · simp
  · intro t
    have d1 : HasDerivAt (fun u : ℝ => u • h) ((1 : ℝ) • h) t := (hasDerivAt_id t).smul_const h
    have d := (hasDerivAt_const t (1 : A)).add d1
    refine d.congr_deriv ?_
    simp only [mul_add, mul_one, mul_smul_comm, h2]
    module
end Exp

end CRU.Math
