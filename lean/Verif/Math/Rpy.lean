import Verif.Math.AverageRotation
import Mathlib.Analysis.SpecialFunctions.Complex.Arg
/-
  C87: roll, pitch and yaw, and the conversions between containers (conversions.cpp), over the real numbers. `eulerAngles` is
  Eigen's (a dependency); it is a parameter of the model, with the contract that the angles describe the matrix. The algorithm that
  Eigen publishes for it is given as well, and shown to meet the contract for every rotation matrix.
-/
namespace CRU.Math
open Matrix

def unitX : Vec 3 := ![1, 0, 0]
def unitY : Vec 3 := ![0, 1, 0]
def unitZ : Vec 3 := ![0, 0, 1]

/-- conversions.cpp:11-20 `QuaternionFromRPY`. -/
noncomputable def quaternionFromRPY (r p y : ℝ) : Vec 4 :=
  let roll := ofAngleAxis r unitX
  let pitch := ofAngleAxis p unitY
  let yaw := ofAngleAxis y unitZ
  qmul (qmul roll pitch) yaw

/-- conversions.cpp:22-32 `QuaternionFromUrdfRPY`. -/
noncomputable def quaternionFromUrdfRPY (r p y : ℝ) : Vec 4 :=
  let roll := ofAngleAxis r unitX
  let pitch := ofAngleAxis p unitY
  let yaw := ofAngleAxis y unitZ
  qmul (qmul yaw pitch) roll

/-- conversions.cpp:34-41 `EulerAnglesFromRotationMatrix`. -/
def eulerFromMatrix (eulerAngles : Mat 3 → Vec 3) (m : Mat 3) : Vec 3 := eulerAngles m

/-- conversions.cpp:43-47 `EulerAnglesFromQuaternion`. -/
def eulerFromQuaternion (eulerAngles : Mat 3 → Vec 3) (q : Vec 4) : Vec 3 := eulerFromMatrix eulerAngles (toRotationMatrix q)

/-- conversions.cpp:49-53 `EulerAnglesFromIsometry3d`. -/
def eulerFromPose (eulerAngles : Mat 3 → Vec 3) (t : Pose) : Vec 3 := eulerFromMatrix eulerAngles t.rotation

/-- conversions.cpp:55-65 `TransformFromXYZRPY`. -/
noncomputable def transformFromXYZRPY (x y z roll pitch yaw : ℝ) : Pose :=
  ⟨toRotationMatrix (quaternionFromRPY roll pitch yaw), ![x, y, z]⟩

/-- conversions.cpp:67-74 `TransformFromRPY(translation, rotation)`. -/
noncomputable def transformFromRPY3 (translation rotation : Vec 3) : Pose :=
  ⟨toRotationMatrix (quaternionFromRPY (rotation 0) (rotation 1) (rotation 2)), translation⟩

/-- conversions.cpp:76-92 `TransformFromRPY(components)`. -/
noncomputable def transformFromRPY (components : List ℝ) : Res Pose :=
  if components.length = 6 then do
    let x ← atRaw components 0
    let y ← atRaw components 1
    let z ← atRaw components 2
    let roll ← atRaw components 3
    let pitch ← atRaw components 4
    let yaw ← atRaw components 5
    return ⟨toRotationMatrix (quaternionFromRPY roll pitch yaw), ![x, y, z]⟩
  else .throw .invalidArgument

/-- conversions.cpp:94-105 `TransformFromUrdfXYZRPY`. -/
noncomputable def transformFromUrdfXYZRPY (x y z roll pitch yaw : ℝ) : Pose :=
  ⟨toRotationMatrix (quaternionFromUrdfRPY roll pitch yaw), ![x, y, z]⟩

/-- conversions.cpp:107-115 `TransformFromUrdfRPY(translation, rotation)`. -/
noncomputable def transformFromUrdfRPY3 (translation rotation : Vec 3) : Pose :=
  ⟨toRotationMatrix (quaternionFromUrdfRPY (rotation 0) (rotation 1) (rotation 2)), translation⟩

/-- conversions.cpp:117-134 `TransformFromUrdfRPY(components)`. -/
noncomputable def transformFromUrdfRPY (components : List ℝ) : Res Pose :=
  if components.length = 6 then do
    let x ← atRaw components 0
    let y ← atRaw components 1
    let z ← atRaw components 2
    let roll ← atRaw components 3
    let pitch ← atRaw components 4
    let yaw ← atRaw components 5
    return ⟨toRotationMatrix (quaternionFromUrdfRPY roll pitch yaw), ![x, y, z]⟩
  else .throw .invalidArgument

/-- conversions.cpp:136-144 `TransformToRPY`. -/
def transformToRPY (eulerAngles : Mat 3 → Vec 3) (t : Pose) : List ℝ :=
  let translation := t.translation
  let rotation := eulerFromMatrix eulerAngles t.rotation
  [translation 0, translation 1, translation 2, rotation 0, rotation 1, rotation 2]

/-- conversions.cpp:146-158 `StdVectorDoubleToEigenVector3d`. -/
def toVector3 {K : Type} (v : List K) : Res (Fin 3 → K) :=
  if v.length = 3 then do
    let x ← atChecked v 0
    let y ← atChecked v 1
    let z ← atChecked v 2
    return ![x, y, z]
  else .throw .invalidArgument

/-- conversions.cpp:160-170 `StdVectorDoubleToEigenVectorXd`; a `VectorXd` is a length and that many elements. -/
def toVectorX {K : Type} (v : List K) : (n : Nat) × (Fin n → K) := ⟨v.length, fun i => v[i]⟩

/-- conversions.cpp:172-176 `EigenVector3dToStdVectorDouble`. -/
def ofVector3 {K : Type} (v : Fin 3 → K) : List K := [v 0, v 1, v 2]

/-- conversions.cpp:178-188 `EigenVectorXdToStdVectorDouble`. -/
def ofVectorX {K : Type} (v : (n : Nat) × (Fin n → K)) : List K := List.ofFn v.2

/-- conversions.cpp:190-203 `StdVectorDoubleToEigenQuaterniond`: the elements are x, y, z, w. -/
def toQuaternion {K : Type} (v : List K) : Res (Fin 4 → K) :=
  if v.length = 4 then do
    let w ← atChecked v 3
    let x ← atChecked v 0
    let y ← atChecked v 1
    let z ← atChecked v 2
    return ![w, x, y, z]
  else .throw .invalidArgument

/-- conversions.cpp:205-210 `EigenQuaterniondToStdVectorDouble`. -/
def ofQuaternion {K : Type} (q : Fin 4 → K) : List K := [q 1, q 2, q 3, q 0]

/-! ### Specification -/

/-- The rotations about the three axes. -/
noncomputable def rotX (a : ℝ) : Mat 3 := !![1, 0, 0; 0, Real.cos a, -Real.sin a; 0, Real.sin a, Real.cos a]
noncomputable def rotY (a : ℝ) : Mat 3 := !![Real.cos a, 0, Real.sin a; 0, 1, 0; -Real.sin a, 0, Real.cos a]
noncomputable def rotZ (a : ℝ) : Mat 3 := !![Real.cos a, -Real.sin a, 0; Real.sin a, Real.cos a, 0; 0, 0, 1]

/-- What is assumed about `eulerAngles(0, 1, 2)`. -/
def EulerContract (eulerAngles : Mat 3 → Vec 3) : Prop :=
  ∀ m, IsRotation m → rotX (eulerAngles m 0) * rotY (eulerAngles m 1) * rotZ (eulerAngles m 2) = m

/-! ### Proofs -/

theorem unit_axes : sqNorm unitX = 1 ∧ sqNorm unitY = 1 ∧ sqNorm unitZ = 1 := by
  refine ⟨?_, ?_, ?_⟩ <;> simp [sqNorm, unitX, unitY, unitZ, dotProduct, Fin.sum_univ_succ]

theorem half_angle (a : ℝ) : Real.cos a = 1 - 2 * (Real.sin (1 / 2 * a) * Real.sin (1 / 2 * a)) ∧
    Real.sin a = 2 * (Real.cos (1 / 2 * a) * Real.sin (1 / 2 * a)) := by
  have h : a = 2 * (1 / 2 * a) := by ring
  constructor
  · conv_lhs => rw [h, Real.cos_two_mul]
    have := Real.sin_sq_add_cos_sq (1 / 2 * a)
    linear_combination (-2) * this + 2 * this + 2 * this
  · conv_lhs => rw [h, Real.sin_two_mul]
    ring

theorem axis_matrices (a : ℝ) : toRotationMatrix (ofAngleAxis a unitX) = rotX a ∧ toRotationMatrix (ofAngleAxis a unitY) = rotY a ∧
    toRotationMatrix (ofAngleAxis a unitZ) = rotZ a := by
  obtain ⟨hc, hs⟩ := half_angle a
  refine ⟨?_, ?_, ?_⟩ <;> ext i j <;> fin_cases i <;> fin_cases j <;>
    simp [toRotationMatrix, ofAngleAxis, unitX, unitY, unitZ, rotX, rotY, rotZ] <;>
    simp only [one_div] at hc hs <;> first | linarith

/-- **C87.** Roll, pitch and yaw give the rotation about x by the roll, times the one about y by the pitch, times the one about z by
the yaw; in the URDF convention the other way round. The quaternions are unit quaternions. -/
theorem C87_rpy (r p y : ℝ) :
    sqNorm (quaternionFromRPY r p y) = 1 ∧ toRotationMatrix (quaternionFromRPY r p y) = rotX r * rotY p * rotZ y ∧
    sqNorm (quaternionFromUrdfRPY r p y) = 1 ∧ toRotationMatrix (quaternionFromUrdfRPY r p y) = rotZ y * rotY p * rotX r := by
  obtain ⟨hx, hy, hz⟩ := unit_axes
  have h1 := sqNorm_ofAngleAxis hx r
  have h2 := sqNorm_ofAngleAxis hy p
  have h3 := sqNorm_ofAngleAxis hz y
  have h12 : sqNorm (qmul (ofAngleAxis r unitX) (ofAngleAxis p unitY)) = 1 := by rw [sqNorm_qmul, h1, h2, one_mul]
  have h32 : sqNorm (qmul (ofAngleAxis y unitZ) (ofAngleAxis p unitY)) = 1 := by rw [sqNorm_qmul, h3, h2, one_mul]
  unfold quaternionFromRPY quaternionFromUrdfRPY
  dsimp only
  refine ⟨by rw [sqNorm_qmul, h12, h3, one_mul], ?_, by rw [sqNorm_qmul, h32, h1, one_mul], ?_⟩
  · rw [toRotationMatrix_qmul h12 h3, toRotationMatrix_qmul h1 h2, (axis_matrices r).1, (axis_matrices p).2.1, (axis_matrices y).2.2]
  · rw [toRotationMatrix_qmul h32 h1, toRotationMatrix_qmul h3 h2, (axis_matrices r).1, (axis_matrices p).2.1, (axis_matrices y).2.2]

theorem rpy_rotation (r p y : ℝ) : IsRotation (rotX r * rotY p * rotZ y) := by
  rw [← (C87_rpy r p y).2.1]
  exact toRotationMatrix_rotation (C87_rpy r p y).1

/-- **C87.** The transforms: the translation is the one given, the rotation that of the angles; the three forms agree, and a vector
of components is accepted exactly if it has six elements. -/
theorem C87_transform (x y z r p w : ℝ) (components : List ℝ) :
    transformFromXYZRPY x y z r p w = ⟨rotX r * rotY p * rotZ w, ![x, y, z]⟩ ∧
    transformFromRPY3 ![x, y, z] ![r, p, w] = ⟨rotX r * rotY p * rotZ w, ![x, y, z]⟩ ∧
    transformFromRPY [x, y, z, r, p, w] = .ok ⟨rotX r * rotY p * rotZ w, ![x, y, z]⟩ ∧
    transformFromUrdfXYZRPY x y z r p w = ⟨rotZ w * rotY p * rotX r, ![x, y, z]⟩ ∧
    transformFromUrdfRPY3 ![x, y, z] ![r, p, w] = ⟨rotZ w * rotY p * rotX r, ![x, y, z]⟩ ∧
    transformFromUrdfRPY [x, y, z, r, p, w] = .ok ⟨rotZ w * rotY p * rotX r, ![x, y, z]⟩ ∧
    (components.length ≠ 6 → transformFromRPY components = .throw .invalidArgument ∧
      transformFromUrdfRPY components = .throw .invalidArgument) := by
  obtain ⟨_, h1, _, h2⟩ := C87_rpy r p w
  refine ⟨?_, ?_, ?_, ?_, ?_, ?_, fun h => ⟨if_neg h, if_neg h⟩⟩
  · unfold transformFromXYZRPY; rw [h1]
  · unfold transformFromRPY3; simp [h1]
  · simp [transformFromRPY, atRaw, h1]
  · unfold transformFromUrdfXYZRPY; rw [h2]
  · unfold transformFromUrdfRPY3; simp [h2]
  · simp [transformFromUrdfRPY, atRaw, h2]

/-- **C87.** The components of a rigid transform give this transform back. -/
theorem C87_round_trip {eulerAngles : Mat 3 → Vec 3} (he : EulerContract eulerAngles) (t : Pose) (ht : IsRotation t.rotation) :
    transformFromRPY (transformToRPY eulerAngles t) = .ok t ∧ (transformToRPY eulerAngles t).length = 6 ∧
    transformFromRPY3 t.translation (eulerFromPose eulerAngles t) = t ∧
    (∀ q : Vec 4, sqNorm q = 1 → toRotationMatrix (quaternionFromRPY (eulerFromQuaternion eulerAngles q 0) (eulerFromQuaternion eulerAngles q 1)
      (eulerFromQuaternion eulerAngles q 2)) = toRotationMatrix q) := by
  have h3 : ∀ v : Vec 3, ![v 0, v 1, v 2] = v := by
    intro v; funext i; fin_cases i <;> rfl
  have hp : ∀ v : Vec 3, (⟨rotX (eulerAngles t.rotation 0) * rotY (eulerAngles t.rotation 1) * rotZ (eulerAngles t.rotation 2), v⟩ : Pose) =
      ⟨t.rotation, v⟩ := fun v => by rw [he _ ht]
  refine ⟨?_, rfl, ?_, ?_⟩
  · unfold transformToRPY eulerFromMatrix
    dsimp only
    rw [(C87_transform _ _ _ _ _ _ []).2.2.1, h3, hp]
  · unfold transformFromRPY3 eulerFromPose eulerFromMatrix
    rw [(C87_rpy _ _ _).2.1, hp]
  · intro q hq
    rw [(C87_rpy _ _ _).2.1]
    exact he _ (toRotationMatrix_rotation hq)

/-! ### Eigen's Euler angles -/

/-- std::atan2 (atan2(0, 0) = 0). -/
noncomputable def atan2 (y x : ℝ) : ℝ := Complex.arg ⟨x, y⟩

open Classical in
/-- The algorithm of Eigen 3.3 and 3.4 for `eulerAngles(0, 1, 2)` (called at conversions.cpp:39). -/
noncomputable def eigenEuler (m : Mat 3) : Vec 3 :=
  let a := atan2 (m 1 2) (m 2 2)
  let c2 := Real.sqrt (m 0 0 * m 0 0 + m 0 1 * m 0 1)
  let r0 := if a > 0 then a - Real.pi else a
  let r1 := if a > 0 then atan2 (-m 0 2) (-c2) else atan2 (-m 0 2) c2
  let s1 := Real.sin r0
  let c1 := Real.cos r0
  let r2 := atan2 (s1 * m 2 0 - c1 * m 1 0) (c1 * m 1 1 - s1 * m 2 1)
  ![-r0, -r1, -r2]

theorem atan2_unit {x y : ℝ} (h : x * x + y * y = 1) : Real.sin (atan2 y x) = y ∧ Real.cos (atan2 y x) = x := by
  have hn : ‖(⟨x, y⟩ : ℂ)‖ = 1 := by
    rw [Complex.norm_def, Complex.normSq_mk, h, Real.sqrt_one]
  constructor
  · unfold atan2; rw [Complex.sin_arg, hn, div_one]
  · unfold atan2
    rw [Complex.cos_arg (by intro h0; rw [h0, norm_zero] at hn; exact zero_ne_one hn), hn, div_one]

theorem atan2_pos {x y ρ : ℝ} (h : x * x + y * y = ρ * ρ) (hρ : 0 < ρ) : Real.sin (atan2 y x) = y / ρ ∧ Real.cos (atan2 y x) = x / ρ := by
  have hn : ‖(⟨x, y⟩ : ℂ)‖ = ρ := by
    rw [Complex.norm_def, Complex.normSq_mk, h, Real.sqrt_mul_self hρ.le]
  constructor
  · unfold atan2; rw [Complex.sin_arg, hn]
  · unfold atan2
    rw [Complex.cos_arg (by intro h0; rw [h0, norm_zero] at hn; exact hρ.ne hn), hn]

theorem rpy_entries {a b c : ℝ} {sa ca sb cb sc cc : ℝ} (h1 : Real.sin a = sa) (h2 : Real.cos a = ca) (h3 : Real.sin b = sb)
    (h4 : Real.cos b = cb) (h5 : Real.sin c = sc) (h6 : Real.cos c = cc) :
    rotX (-a) * rotY (-b) * rotZ (-c) = !![cb * cc, cb * sc, -sb; -(ca * sc) + sa * sb * cc, ca * cc + sa * sb * sc, sa * cb;
      sa * sc + ca * sb * cc, -(sa * cc) + ca * sb * sc, ca * cb] := by
  ext i j
  fin_cases i <;> fin_cases j <;> simp [rotX, rotY, rotZ, mul_apply, Fin.sum_univ_three, h1, h2, h3, h4, h5, h6] <;> ring

/-- **C87.** Eigen's algorithm meets the contract, for every rotation matrix (the gimbal lock included). -/
theorem C87_euler : EulerContract eigenEuler := by
  intro m hm
  obtain ⟨⟨k1, k2, k3, k4, k5, k6⟩, ⟨r1, r2, r3, r4, r5, r6⟩, ⟨a1, a2, a3, a4, a5, a6, a7, a8, a9⟩⟩ := rotation_eqs hm
  have hρρ : Real.sqrt (m 0 0 * m 0 0 + m 0 1 * m 0 1) * Real.sqrt (m 0 0 * m 0 0 + m 0 1 * m 0 1) = m 0 0 * m 0 0 + m 0 1 * m 0 1 :=
    Real.mul_self_sqrt (add_nonneg (mul_self_nonneg _) (mul_self_nonneg _))
  have hρ0 := Real.sqrt_nonneg (m 0 0 * m 0 0 + m 0 1 * m 0 1)
  simp only [eigenEuler, cons_val_zero, cons_val_one, cons_val]
  generalize Real.sqrt (m 0 0 * m 0 0 + m 0 1 * m 0 1) = ρ at hρρ hρ0
  -- the sign
  obtain ⟨σ, hσ, hσ1, hs0, hc0, hr1⟩ : ∃ σ : ℝ, σ * σ = 1 ∧ (m 1 2 = 0 → m 2 2 = 0 → σ = 1) ∧
      Real.sin (if atan2 (m 1 2) (m 2 2) > 0 then atan2 (m 1 2) (m 2 2) - Real.pi else atan2 (m 1 2) (m 2 2)) = σ * Real.sin (atan2 (m 1 2) (m 2 2)) ∧
      Real.cos (if atan2 (m 1 2) (m 2 2) > 0 then atan2 (m 1 2) (m 2 2) - Real.pi else atan2 (m 1 2) (m 2 2)) = σ * Real.cos (atan2 (m 1 2) (m 2 2)) ∧
      (if atan2 (m 1 2) (m 2 2) > 0 then atan2 (-m 0 2) (-ρ) else atan2 (-m 0 2) ρ) = atan2 (-m 0 2) (σ * ρ) := by
    by_cases h : atan2 (m 1 2) (m 2 2) > 0
    · refine ⟨-1, by norm_num, ?_, ?_, ?_, ?_⟩
      · intro h1 h2
        rw [h1, h2] at h
        exfalso
        have : atan2 0 0 = 0 := Complex.arg_zero
        rw [this] at h
        exact lt_irrefl _ h
      · rw [if_pos h, Real.sin_sub_pi]; ring
      · rw [if_pos h, Real.cos_sub_pi]; ring
      · rw [if_pos h]; simp
    · refine ⟨1, by norm_num, fun _ _ => rfl, ?_, ?_, ?_⟩
      · rw [if_neg h, one_mul]
      · rw [if_neg h, one_mul]
      · rw [if_neg h, one_mul]
  rw [hs0, hc0, hr1]
  generalize (if atan2 (m 1 2) (m 2 2) > 0 then atan2 (m 1 2) (m 2 2) - Real.pi else atan2 (m 1 2) (m 2 2)) = A at hs0 hc0
  obtain ⟨hsb, hcb⟩ := atan2_unit (x := σ * ρ) (y := -m 0 2) (by linear_combination ρ * ρ * hσ + hρρ + r1)
  rcases hρ0.lt_or_eq with hpos | hz
  · obtain ⟨hsa, hca⟩ := atan2_pos (x := m 2 2) (y := m 1 2) (ρ := ρ) (by linarith) hpos
    rw [hsa] at hs0
    rw [hca] at hc0
    have hne := hpos.ne'
    have hu : σ * Real.sin (atan2 (m 1 2) (m 2 2)) * m 2 0 - σ * Real.cos (atan2 (m 1 2) (m 2 2)) * m 1 0 = σ * m 0 1 / ρ := by
      rw [hsa, hca]; field_simp; linear_combination (-σ) * a2
    have hv : σ * Real.cos (atan2 (m 1 2) (m 2 2)) * m 1 1 - σ * Real.sin (atan2 (m 1 2) (m 2 2)) * m 2 1 = σ * m 0 0 / ρ := by
      rw [hsa, hca]; field_simp; linear_combination (-σ) * a1
    rw [hu, hv]
    obtain ⟨hsc, hcc⟩ := atan2_unit (x := σ * m 0 0 / ρ) (y := σ * m 0 1 / ρ) (by
      field_simp
      linear_combination (m 0 0 * m 0 0 + m 0 1 * m 0 1) * hσ - hρρ)
    rw [rpy_entries hs0 hc0 hsb hcb hsc hcc]
    have fin : ∀ {x e v : ℝ}, e = σ * σ * x / (ρ * ρ) → x = v * (ρ * ρ) → e = v := by
      intro x e v h1 h2
      rw [h1, h2, hσ]
      field_simp
    have e00 : σ * ρ * (σ * m 0 0 / ρ) = m 0 0 := by field_simp; linear_combination m 0 0 * hσ
    have e01 : σ * ρ * (σ * m 0 1 / ρ) = m 0 1 := by field_simp; linear_combination m 0 1 * hσ
    have e12 : σ * (m 1 2 / ρ) * (σ * ρ) = m 1 2 := by field_simp; linear_combination m 1 2 * hσ
    have e22 : σ * (m 2 2 / ρ) * (σ * ρ) = m 2 2 := by field_simp; linear_combination m 2 2 * hσ
    have e10 : -(σ * (m 2 2 / ρ) * (σ * m 0 1 / ρ)) + σ * (m 1 2 / ρ) * -m 0 2 * (σ * m 0 0 / ρ) = m 1 0 :=
      fin (x := -(m 2 2 * m 0 1) - m 1 2 * m 0 2 * m 0 0) (by field_simp; ring)
        (by linear_combination (-m 0 0) * r4 - (m 0 1) * a9 - (m 1 0) * hρρ)
    have e11 : σ * (m 2 2 / ρ) * (σ * m 0 0 / ρ) + σ * (m 1 2 / ρ) * -m 0 2 * (σ * m 0 1 / ρ) = m 1 1 :=
      fin (x := m 2 2 * m 0 0 - m 1 2 * m 0 2 * m 0 1) (by field_simp; ring)
        (by linear_combination (m 0 0) * a9 - (m 0 1) * r4 - (m 1 1) * hρρ)
    have e20 : σ * (m 1 2 / ρ) * (σ * m 0 1 / ρ) + σ * (m 2 2 / ρ) * -m 0 2 * (σ * m 0 0 / ρ) = m 2 0 :=
      fin (x := m 1 2 * m 0 1 - m 2 2 * m 0 2 * m 0 0) (by field_simp; ring)
        (by linear_combination (m 0 1) * a6 - (m 0 0) * r5 - (m 2 0) * hρρ)
    have e21 : -(σ * (m 1 2 / ρ) * (σ * m 0 0 / ρ)) + σ * (m 2 2 / ρ) * -m 0 2 * (σ * m 0 1 / ρ) = m 2 1 :=
      fin (x := -(m 1 2 * m 0 0) - m 2 2 * m 0 2 * m 0 1) (by field_simp; ring)
        (by linear_combination (-m 0 0) * a6 - (m 0 1) * r5 - (m 2 1) * hρρ)
    rw [e00, e01, e12, e22, e10, e11, e20, e21, neg_neg]
    ext i j
    fin_cases i <;> fin_cases j <;> rfl
  · subst hz
    obtain ⟨h00, h01⟩ : m 0 0 = 0 ∧ m 0 1 = 0 := mul_self_add_mul_self_eq_zero.mp (by linarith)
    obtain ⟨h12, h22⟩ : m 1 2 = 0 ∧ m 2 2 = 0 := mul_self_add_mul_self_eq_zero.mp (by linarith)
    have hσ' := hσ1 h12 h22
    subst hσ'
    have hat : atan2 0 0 = 0 := Complex.arg_zero
    rw [h12, h22, hat, Real.sin_zero] at hs0
    rw [h12, h22, hat, Real.cos_zero] at hc0
    obtain ⟨hsc, hcc⟩ := atan2_unit (x := m 1 1) (y := -m 1 0) (by rw [h12] at r2; linarith)
    rw [h12, h22, hat, Real.sin_zero, Real.cos_zero]
    simp only [mul_zero, zero_mul, mul_one, one_mul, zero_sub, sub_zero] at hs0 hc0 hsb hcb ⊢
    rw [rpy_entries hs0 hc0 hsb hcb hsc hcc]
    ext i j
    fin_cases i <;> fin_cases j <;> simp [h00, h01, h12, h22]
    · rw [a7, h01]; ring
    · rw [a8, h00]; ring

/-- **C87.** In the URDF convention the components do not give the transform back, whatever `eulerAngles` does. -/
theorem C87_urdf_round_trip_false {eulerAngles : Mat 3 → Vec 3} (he : EulerContract eulerAngles) :
    ∃ t : Pose, IsRotation t.rotation ∧ transformFromUrdfRPY (transformToRPY eulerAngles t) ≠ .ok t := by
  refine ⟨⟨rotX (Real.pi / 2) * rotY (Real.pi / 2) * rotZ 0, 0⟩, rpy_rotation _ _ _, ?_⟩
  have hm := he _ (rpy_rotation (Real.pi / 2) (Real.pi / 2) 0)
  unfold transformToRPY eulerFromMatrix
  dsimp only
  rw [(C87_transform _ _ _ _ _ _ []).2.2.2.2.2.1]
  intro h
  have h1 : rotZ _ * rotY _ * rotX _ = rotX (Real.pi / 2) * rotY (Real.pi / 2) * rotZ 0 := congrArg Pose.rotation (Res.ok.inj h)
  generalize eulerAngles (rotX (Real.pi / 2) * rotY (Real.pi / 2) * rotZ 0) = e at hm h1
  have e1 := congrFun (congrFun hm 0) 2
  have e2 := congrFun (congrFun h1 2) 0
  simp [rotX, rotY, rotZ, mul_apply, Fin.sum_univ_three] at e1 e2
  rw [e1] at e2
  norm_num at e2

/-- **C87.** Conversions between containers: exactly the sizes 3 and 4 are accepted; all round trips give the same elements; the
elements of a quaternion are in the order x, y, z, w. -/
theorem C87_containers {K : Type} (v : List K) (v3 : Fin 3 → K) (vx : (n : Nat) × (Fin n → K)) (q : Fin 4 → K) :
    toVector3 (ofVector3 v3) = .ok v3 ∧ ofVector3 v3 = [v3 0, v3 1, v3 2] ∧
    (v.length = 3 → ∃ r, toVector3 v = .ok r ∧ ofVector3 r = v) ∧ (v.length ≠ 3 → toVector3 v = .throw .invalidArgument) ∧
    ofVectorX (toVectorX v) = v ∧ toVectorX (ofVectorX vx) = vx ∧
    toQuaternion (ofQuaternion q) = .ok q ∧ (∀ x y z w : K, toQuaternion [x, y, z, w] = .ok ![w, x, y, z]) ∧
    (v.length = 4 → ∃ r, toQuaternion v = .ok r ∧ ofQuaternion r = v) ∧ (v.length ≠ 4 → toQuaternion v = .throw .invalidArgument) := by
  have hv3 : ![v3 0, v3 1, v3 2] = v3 := by funext i; fin_cases i <;> rfl
  have hq : ![q 0, q 1, q 2, q 3] = q := by funext i; fin_cases i <;> rfl
  refine ⟨?_, rfl, ?_, fun h => if_neg h, ?_, ?_, ?_, ?_, ?_, fun h => if_neg h⟩
  · simp [toVector3, ofVector3, atChecked, hv3]
  · intro h
    obtain ⟨a, b, c, rfl⟩ : ∃ a b c, v = [a, b, c] := List.length_eq_three.mp h
    exact ⟨![a, b, c], by simp [toVector3, atChecked], rfl⟩
  · unfold ofVectorX toVectorX
    exact List.ofFn_getElem
  · obtain ⟨n, f⟩ := vx
    exact List.equivSigmaTuple.right_inv ⟨n, f⟩
  · simp [toQuaternion, ofQuaternion, atChecked, hq]
  · intro x y z w
    simp [toQuaternion, atChecked]
  · intro h
    match v, h with
    | [a, b, c, d], _ => exact ⟨![d, a, b, c], by simp [toQuaternion, atChecked], rfl⟩

example : transformFromRPY (transformToRPY eigenEuler ⟨rotX 1 * rotY 2 * rotZ 3, ![4, 5, 6]⟩) = .ok ⟨rotX 1 * rotY 2 * rotZ 3, ![4, 5, 6]⟩ :=
  (C87_round_trip C87_euler _ (rpy_rotation 1 2 3)).1

end CRU.Math
