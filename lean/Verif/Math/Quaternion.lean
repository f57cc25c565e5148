import Verif.Math.Metric
import Verif.Math.TwistProps
/-
  Quaternions and rotation matrices, as far as the functions of the library on rotations (C86, C87, C89) rest on them. The
  operations are Eigen's (a dependency, not in /repo); here they are given by their formulas, over the real numbers. A quaternion
  is given by (w, x, y, z), as in `Metric.lean`.
-/
namespace CRU.Math
open Matrix

/-- Eigen's quaternion product (used at conversions.cpp:19, 31). -/
def qmul (p q : Vec 4) : Vec 4 :=
  ![p 0 * q 0 - p 1 * q 1 - p 2 * q 2 - p 3 * q 3,
    p 0 * q 1 + p 1 * q 0 + p 2 * q 3 - p 3 * q 2,
    p 0 * q 2 - p 1 * q 3 + p 2 * q 0 + p 3 * q 1,
    p 0 * q 3 + p 1 * q 2 - p 2 * q 1 + p 3 * q 0]

/-- Eigen's `Quaternion::toRotationMatrix` (used at conversions.cpp:47, and whenever a quaternion is put in an `Isometry3d`). -/
def toRotationMatrix (q : Vec 4) : Mat 3 :=
  !![1 - (2 * (q 2 * q 2) + 2 * (q 3 * q 3)), 2 * (q 1 * q 2) - 2 * (q 0 * q 3), 2 * (q 1 * q 3) + 2 * (q 0 * q 2);
     2 * (q 1 * q 2) + 2 * (q 0 * q 3), 1 - (2 * (q 1 * q 1) + 2 * (q 3 * q 3)), 2 * (q 2 * q 3) - 2 * (q 0 * q 1);
     2 * (q 1 * q 3) - 2 * (q 0 * q 2), 2 * (q 2 * q 3) + 2 * (q 0 * q 1), 1 - (2 * (q 1 * q 1) + 2 * (q 2 * q 2))]

/-- Eigen's quaternion of a rotation about an axis, `Quaternion(AngleAxis(angle, axis))` (used at conversions.cpp:16-19). -/
noncomputable def ofAngleAxis (angle : ℝ) (axis : Vec 3) : Vec 4 :=
  ![Real.cos (1 / 2 * angle), Real.sin (1 / 2 * angle) * axis 0, Real.sin (1 / 2 * angle) * axis 1, Real.sin (1 / 2 * angle) * axis 2]

open Classical in
/-- Eigen's quaternion of a rotation matrix, `Quaternion(Matrix3)` (used at math.cpp:507, 565, 874). -/
noncomputable def ofRotationMatrix (m : Mat 3) : Vec 4 :=
  let t := m 0 0 + m 1 1 + m 2 2
  if t > 0 then
    let r := Real.sqrt (t + 1)
    let s := (1 / 2) / r
    ![1 / 2 * r, (m 2 1 - m 1 2) * s, (m 0 2 - m 2 0) * s, (m 1 0 - m 0 1) * s]
  else if m 1 1 > m 0 0 then
    if m 2 2 > m 1 1 then
      let r := Real.sqrt (m 2 2 - m 0 0 - m 1 1 + 1)
      let s := (1 / 2) / r
      ![(m 1 0 - m 0 1) * s, (m 0 2 + m 2 0) * s, (m 1 2 + m 2 1) * s, 1 / 2 * r]
    else
      let r := Real.sqrt (m 1 1 - m 2 2 - m 0 0 + 1)
      let s := (1 / 2) / r
      ![(m 0 2 - m 2 0) * s, (m 0 1 + m 1 0) * s, 1 / 2 * r, (m 2 1 + m 1 2) * s]
  else if m 2 2 > m 0 0 then
    let r := Real.sqrt (m 2 2 - m 0 0 - m 1 1 + 1)
    let s := (1 / 2) / r
    ![(m 1 0 - m 0 1) * s, (m 0 2 + m 2 0) * s, (m 1 2 + m 2 1) * s, 1 / 2 * r]
  else
    let r := Real.sqrt (m 0 0 - m 1 1 - m 2 2 + 1)
    let s := (1 / 2) / r
    ![(m 2 1 - m 1 2) * s, 1 / 2 * r, (m 1 0 + m 0 1) * s, (m 2 0 + m 0 2) * s]

/-! ### Proofs -/

theorem sqNorm4 (q : Vec 4) : sqNorm q = q 0 * q 0 + q 1 * q 1 + q 2 * q 2 + q 3 * q 3 := by
  rw [sqNorm, ← dot4]

theorem sqNorm_qmul (p q : Vec 4) : sqNorm (qmul p q) = sqNorm p * sqNorm q := by
  simp only [sqNorm4, qmul, cons_val]
  ring

/-- For a unit quaternion the matrix is the textbook one. -/
theorem toRotationMatrix_unit {q : Vec 4} (h : sqNorm q = 1) : toRotationMatrix q = Matrix.of (rotationOf q) := by
  rw [sqNorm4] at h
  ext i j
  fin_cases i <;> fin_cases j <;> simp [toRotationMatrix, rotationOf] <;> linarith

theorem rotationOf_qmul (p q : Vec 4) : Matrix.of (rotationOf (qmul p q)) = Matrix.of (rotationOf p) * Matrix.of (rotationOf q) := by
  ext i j
  fin_cases i <;> fin_cases j <;> simp [qmul, rotationOf, mul_apply, Fin.sum_univ_succ] <;> ring

theorem toRotationMatrix_qmul {p q : Vec 4} (hp : sqNorm p = 1) (hq : sqNorm q = 1) :
    toRotationMatrix (qmul p q) = toRotationMatrix p * toRotationMatrix q := by
  rw [toRotationMatrix_unit hp, toRotationMatrix_unit hq, toRotationMatrix_unit (by rw [sqNorm_qmul, hp, hq, one_mul]), rotationOf_qmul]

theorem toRotationMatrix_rotation {q : Vec 4} (h : sqNorm q = 1) : IsRotation (toRotationMatrix q) := by
  rw [sqNorm4] at h
  rw [IsRotation]
  have h0 : q 0 * q 0 = 1 - q 1 * q 1 - q 2 * q 2 - q 3 * q 3 := by linarith
  constructor
  · ext i j
    fin_cases i <;> fin_cases j <;> simp [toRotationMatrix, mul_apply, Fin.sum_univ_succ] <;> ring_nf <;>
      simp only [show q 0 ^ 2 = 1 - q 1 ^ 2 - q 2 ^ 2 - q 3 ^ 2 by nlinarith] <;> ring
  · rw [det_fin_three]
    simp [toRotationMatrix]
    ring_nf
    simp only [show q 0 ^ 2 = 1 - q 1 ^ 2 - q 2 ^ 2 - q 3 ^ 2 by nlinarith]
    ring

theorem toRotationMatrix_neg (q : Vec 4) : toRotationMatrix (-q) = toRotationMatrix q := by
  ext i j
  fin_cases i <;> fin_cases j <;> simp [toRotationMatrix]

theorem sqNorm_ofAngleAxis {axis : Vec 3} (h : sqNorm axis = 1) (angle : ℝ) : sqNorm (ofAngleAxis angle axis) = 1 := by
  have h3 : axis 0 * axis 0 + axis 1 * axis 1 + axis 2 * axis 2 = 1 := by
    rw [← h]; simp [sqNorm, dotProduct, Fin.sum_univ_succ]; ring
  rw [sqNorm4]
  simp only [ofAngleAxis, cons_val]
  have := Real.sin_sq_add_cos_sq (1 / 2 * angle)
  linear_combination this + Real.sin (1 / 2 * angle) ^ 2 * h3

/-! ### A rotation matrix as a quaternion -/

/-- The equations between the entries of a rotation matrix. -/
theorem rotation_eqs {m : Mat 3} (h : IsRotation m) :
    (m 0 0 * m 0 0 + m 1 0 * m 1 0 + m 2 0 * m 2 0 = 1 ∧ m 0 1 * m 0 1 + m 1 1 * m 1 1 + m 2 1 * m 2 1 = 1 ∧
      m 0 2 * m 0 2 + m 1 2 * m 1 2 + m 2 2 * m 2 2 = 1 ∧ m 0 0 * m 0 1 + m 1 0 * m 1 1 + m 2 0 * m 2 1 = 0 ∧
      m 0 0 * m 0 2 + m 1 0 * m 1 2 + m 2 0 * m 2 2 = 0 ∧ m 0 1 * m 0 2 + m 1 1 * m 1 2 + m 2 1 * m 2 2 = 0) ∧
    (m 0 0 * m 0 0 + m 0 1 * m 0 1 + m 0 2 * m 0 2 = 1 ∧ m 1 0 * m 1 0 + m 1 1 * m 1 1 + m 1 2 * m 1 2 = 1 ∧
      m 2 0 * m 2 0 + m 2 1 * m 2 1 + m 2 2 * m 2 2 = 1 ∧ m 0 0 * m 1 0 + m 0 1 * m 1 1 + m 0 2 * m 1 2 = 0 ∧
      m 0 0 * m 2 0 + m 0 1 * m 2 1 + m 0 2 * m 2 2 = 0 ∧ m 1 0 * m 2 0 + m 1 1 * m 2 1 + m 1 2 * m 2 2 = 0) ∧
    (m 0 0 = m 1 1 * m 2 2 - m 1 2 * m 2 1 ∧ m 0 1 = m 1 2 * m 2 0 - m 1 0 * m 2 2 ∧ m 0 2 = m 1 0 * m 2 1 - m 1 1 * m 2 0 ∧
      m 1 0 = m 0 2 * m 2 1 - m 0 1 * m 2 2 ∧ m 1 1 = m 0 0 * m 2 2 - m 0 2 * m 2 0 ∧ m 1 2 = m 0 1 * m 2 0 - m 0 0 * m 2 1 ∧
      m 2 0 = m 0 1 * m 1 2 - m 0 2 * m 1 1 ∧ m 2 1 = m 0 2 * m 1 0 - m 0 0 * m 1 2 ∧ m 2 2 = m 0 0 * m 1 1 - m 0 1 * m 1 0) := by
  have hc := h.1
  have hr := h.inv
  have hadj : m.adjugate = mᵀ := by
    have h1 : m.adjugate * m = 1 := by rw [adjugate_mul, h.2, one_smul]
    calc m.adjugate = m.adjugate * (m * mᵀ) := by rw [hr, Matrix.mul_one]
      _ = mᵀ := by rw [← Matrix.mul_assoc, h1, Matrix.one_mul]
  have ec : ∀ i j, (mᵀ * m) i j = (1 : Mat 3) i j := fun i j => by rw [hc]
  have er : ∀ i j, (m * mᵀ) i j = (1 : Mat 3) i j := fun i j => by rw [hr]
  have ea : ∀ i j, m.adjugate j i = m i j := fun i j => by rw [hadj]; rfl
  simp only [mul_apply, Fin.sum_univ_three, transpose_apply, one_apply] at ec er
  rw [adjugate_fin_three] at ea
  refine ⟨⟨ec 0 0, ec 1 1, ec 2 2, ec 0 1, ec 0 2, ec 1 2⟩, ⟨er 0 0, er 1 1, er 2 2, er 0 1, er 0 2, er 1 2⟩, ?_⟩
  have e00 := ea 0 0; have e01 := ea 0 1; have e02 := ea 0 2
  have e10 := ea 1 0; have e11 := ea 1 1; have e12 := ea 1 2
  have e20 := ea 2 0; have e21 := ea 2 1; have e22 := ea 2 2
  simp at e00 e01 e02 e10 e11 e12 e20 e21 e22
  refine ⟨?_, ?_, ?_, ?_, ?_, ?_, ?_, ?_, ?_⟩ <;> linarith

/-- The quaternion obtained from a pivot is a unit quaternion of the matrix; `k` is the matrix 4 q qᵀ. -/
theorem pivot {k00 k11 k22 k33 k01 k02 k03 k12 k13 k23 : ℝ} (hpos : 0 < k00) (hsum : k00 + k11 + k22 + k33 = 4)
    (h11 : k01 * k01 = k00 * k11) (h22 : k02 * k02 = k00 * k22) (h33 : k03 * k03 = k00 * k33)
    (h12 : k01 * k02 = k00 * k12) (h13 : k01 * k03 = k00 * k13) (h23 : k02 * k03 = k00 * k23) :
    ∃ r s : ℝ, r = Real.sqrt k00 ∧ s = (1 / 2) / r ∧ (1 / 2 * r) * (1 / 2 * r) = k00 / 4 ∧
      (1 / 2 * r) * (k01 * s) = k01 / 4 ∧ (1 / 2 * r) * (k02 * s) = k02 / 4 ∧ (1 / 2 * r) * (k03 * s) = k03 / 4 ∧
      (k01 * s) * (k01 * s) = k11 / 4 ∧ (k02 * s) * (k02 * s) = k22 / 4 ∧ (k03 * s) * (k03 * s) = k33 / 4 ∧
      (k01 * s) * (k02 * s) = k12 / 4 ∧ (k01 * s) * (k03 * s) = k13 / 4 ∧ (k02 * s) * (k03 * s) = k23 / 4 := by
  have hr : 0 < Real.sqrt k00 := Real.sqrt_pos.mpr hpos
  have hrr : Real.sqrt k00 * Real.sqrt k00 = k00 := Real.mul_self_sqrt hpos.le
  refine ⟨Real.sqrt k00, _, rfl, rfl, ?_⟩
  generalize Real.sqrt k00 = r at hr hrr
  subst hrr
  have hr0 := hr.ne'
  refine ⟨by ring, by field_simp; ring, by field_simp; ring, by field_simp; ring, ?_, ?_, ?_, ?_, ?_, ?_⟩ <;>
    field_simp <;> nlinarith

set_option maxHeartbeats 2000000 in
theorem ofRotationMatrix_spec {m : Mat 3} (h : IsRotation m) :
    sqNorm (ofRotationMatrix m) = 1 ∧ toRotationMatrix (ofRotationMatrix m) = m := by
  obtain ⟨⟨c1, c2, c3, c4, c5, c6⟩, ⟨r1, r2, r3, r4, r5, r6⟩, ⟨a1, a2, a3, a4, a5, a6, a7, a8, a9⟩⟩ := rotation_eqs h
  have key : sqNorm (ofRotationMatrix m) = 1 ∧ Matrix.of (rotationOf (ofRotationMatrix m)) = m := by
    unfold ofRotationMatrix
    dsimp only
    split_ifs with ht h10 h21 h20
    · obtain ⟨r, s, hr, hs, e⟩ := pivot (k00 := m 0 0 + m 1 1 + m 2 2 + 1) (k11 := m 0 0 - m 1 1 - m 2 2 + 1)
        (k22 := m 1 1 - m 0 0 - m 2 2 + 1) (k33 := m 2 2 - m 0 0 - m 1 1 + 1) (k01 := m 2 1 - m 1 2) (k02 := m 0 2 - m 2 0)
        (k03 := m 1 0 - m 0 1) (k12 := m 0 1 + m 1 0) (k13 := m 0 2 + m 2 0) (k23 := m 1 2 + m 2 1)
        (by linarith) (by ring) (by linarith) (by linarith) (by linarith) (by linarith) (by linarith) (by linarith)
      rw [← hr, ← hs]
      clear c1 c2 c3 c4 c5 c6 r1 r2 r3 r4 r5 r6 a1 a2 a3 a4 a5 a6 a7 a8 a9
      constructor
      · rw [sqNorm4]; simp only [cons_val]; linarith
      · ext i j
        fin_cases i <;> fin_cases j <;> simp [rotationOf] <;> linarith
    · obtain ⟨r, s, hr, hs, e⟩ := pivot (k00 := m 2 2 - m 0 0 - m 1 1 + 1) (k11 := m 0 0 + m 1 1 + m 2 2 + 1) (k22 := m 0 0 - m 1 1 - m 2 2 + 1) (k33 := m 1 1 - m 2 2 - m 0 0 + 1) (k01 := m 1 0 - m 0 1) (k02 := m 0 2 + m 2 0) (k03 := m 1 2 + m 2 1) (k12 := m 2 1 - m 1 2) (k13 := m 0 2 - m 2 0) (k23 := m 0 1 + m 1 0)
        (by linarith) (by ring) (by linarith) (by linarith) (by linarith) (by linarith) (by linarith) (by linarith)
      rw [← hr, ← hs]
      clear c1 c2 c3 c4 c5 c6 r1 r2 r3 r4 r5 r6 a1 a2 a3 a4 a5 a6 a7 a8 a9
      constructor
      · rw [sqNorm4]; simp only [cons_val]; linarith
      · ext i j
        fin_cases i <;> fin_cases j <;> simp [rotationOf] <;> linarith
    · obtain ⟨r, s, hr, hs, e⟩ := pivot (k00 := m 1 1 - m 2 2 - m 0 0 + 1) (k11 := m 0 0 + m 1 1 + m 2 2 + 1) (k22 := m 0 0 - m 1 1 - m 2 2 + 1) (k33 := m 2 2 - m 0 0 - m 1 1 + 1) (k01 := m 0 2 - m 2 0) (k02 := m 0 1 + m 1 0) (k03 := m 2 1 + m 1 2) (k12 := m 2 1 - m 1 2) (k13 := m 1 0 - m 0 1) (k23 := m 0 2 + m 2 0)
        (by linarith) (by ring) (by linarith) (by linarith) (by linarith) (by linarith) (by linarith) (by linarith)
      rw [← hr, ← hs]
      clear c1 c2 c3 c4 c5 c6 r1 r2 r3 r4 r5 r6 a1 a2 a3 a4 a5 a6 a7 a8 a9
      constructor
      · rw [sqNorm4]; simp only [cons_val]; linarith
      · ext i j
        fin_cases i <;> fin_cases j <;> simp [rotationOf] <;> linarith
    · obtain ⟨r, s, hr, hs, e⟩ := pivot (k00 := m 2 2 - m 0 0 - m 1 1 + 1) (k11 := m 0 0 + m 1 1 + m 2 2 + 1) (k22 := m 0 0 - m 1 1 - m 2 2 + 1) (k33 := m 1 1 - m 2 2 - m 0 0 + 1) (k01 := m 1 0 - m 0 1) (k02 := m 0 2 + m 2 0) (k03 := m 1 2 + m 2 1) (k12 := m 2 1 - m 1 2) (k13 := m 0 2 - m 2 0) (k23 := m 0 1 + m 1 0)
        (by linarith) (by ring) (by linarith) (by linarith) (by linarith) (by linarith) (by linarith) (by linarith)
      rw [← hr, ← hs]
      clear c1 c2 c3 c4 c5 c6 r1 r2 r3 r4 r5 r6 a1 a2 a3 a4 a5 a6 a7 a8 a9
      constructor
      · rw [sqNorm4]; simp only [cons_val]; linarith
      · ext i j
        fin_cases i <;> fin_cases j <;> simp [rotationOf] <;> linarith
    · obtain ⟨r, s, hr, hs, e⟩ := pivot (k00 := m 0 0 - m 1 1 - m 2 2 + 1) (k11 := m 0 0 + m 1 1 + m 2 2 + 1) (k22 := m 1 1 - m 2 2 - m 0 0 + 1) (k33 := m 2 2 - m 0 0 - m 1 1 + 1) (k01 := m 2 1 - m 1 2) (k02 := m 1 0 + m 0 1) (k03 := m 2 0 + m 0 2) (k12 := m 0 2 - m 2 0) (k13 := m 1 0 - m 0 1) (k23 := m 1 2 + m 2 1)
        (by linarith) (by ring) (by linarith) (by linarith) (by linarith) (by linarith) (by linarith) (by linarith)
      rw [← hr, ← hs]
      clear c1 c2 c3 c4 c5 c6 r1 r2 r3 r4 r5 r6 a1 a2 a3 a4 a5 a6 a7 a8 a9
      constructor
      · rw [sqNorm4]; simp only [cons_val]; linarith
      · ext i j
        fin_cases i <;> fin_cases j <;> simp [rotationOf] <;> linarith
  refine ⟨key.1, ?_⟩
  rw [toRotationMatrix_unit key.1, key.2]

end CRU.Math
