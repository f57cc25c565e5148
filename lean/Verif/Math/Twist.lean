import Verif.Math.Projection
import Mathlib.LinearAlgebra.CrossProduct
import Mathlib.LinearAlgebra.Matrix.NonsingularInverse
import Mathlib.Analysis.SpecialFunctions.Trigonometric.Basic
/-
  C70: twists, adjoints and the exponential map (math.cpp:241-382), over the real numbers. Matrices are Mathlib matrices; a twist is a
  vector of six numbers (translational velocity first), a transform its 4 x 4 matrix.
-/
namespace CRU.Math
open Matrix

abbrev Mat (n : Nat) : Type := Matrix (Fin n) (Fin n) ℝ

/-- math.cpp:241-248 `Skew`. -/
def skew (v : Vec 3) : Mat 3 := !![0, -v 2, v 1; v 2, 0, -v 0; -v 1, v 0, 0]

/-- math.cpp:250-257 `Unskew`. -/
noncomputable def unskew (m : Mat 3) : Vec 3 :=
  let s : Mat 3 := (1 / 2 : ℝ) • (m - mᵀ)
  ![s 2 1, s 0 2, s 1 0]

/-- `twist.segment<3>(0)` and `twist.segment<3>(3)`. -/
def transPart (ξ : Vec 6) : Vec 3 := ![ξ 0, ξ 1, ξ 2]
def rotPart (ξ : Vec 6) : Vec 3 := ![ξ 3, ξ 4, ξ 5]
/-- Assigning both segments. -/
def mkTwist (v w : Vec 3) : Vec 6 := ![v 0, v 1, v 2, w 0, w 1, w 2]

/-- `matrix.block<3, 3>(0, 0)` and `matrix.block<3, 1>(0, 3)`. -/
def rotBlock (m : Mat 4) : Mat 3 := !![m 0 0, m 0 1, m 0 2; m 1 0, m 1 1, m 1 2; m 2 0, m 2 1, m 2 2]
def transBlock (m : Mat 4) : Vec 3 := ![m 0 3, m 1 3, m 2 3]
/-- Assigning both blocks of a matrix whose last row is (0, 0, 0, c). -/
def mk4 (r : Mat 3) (p : Vec 3) (c : ℝ) : Mat 4 :=
  !![r 0 0, r 0 1, r 0 2, p 0; r 1 0, r 1 1, r 1 2, p 1; r 2 0, r 2 1, r 2 2, p 2; 0, 0, 0, c]

/-- math.cpp:259-267 `TwistHat`. -/
def twistHat (ξ : Vec 6) : Mat 4 := mk4 (skew (rotPart ξ)) (transPart ξ) 0

/-- math.cpp:269-277 `TwistUnhat`. -/
noncomputable def twistUnhat (m : Mat 4) : Vec 6 := mkTwist (transBlock m) (unskew (rotBlock m))

/-- math.cpp:279-292 `AdjointFromTransform`. -/
def adjointFromTransform (t : Mat 4) : Mat 6 :=
  let r := rotBlock t
  let b := skew (transBlock t) * r
  !![r 0 0, r 0 1, r 0 2, b 0 0, b 0 1, b 0 2;
     r 1 0, r 1 1, r 1 2, b 1 0, b 1 1, b 1 2;
     r 2 0, r 2 1, r 2 2, b 2 0, b 2 1, b 2 2;
     0, 0, 0, r 0 0, r 0 1, r 0 2;
     0, 0, 0, r 1 0, r 1 1, r 1 2;
     0, 0, 0, r 2 0, r 2 1, r 2 2]

/-- math.cpp:294-300 `TransformTwist`. -/
def transformTwist (t : Mat 4) (ξ : Vec 6) : Vec 6 := adjointFromTransform t *ᵥ ξ

open Classical in
/-- math.cpp:310-326 `ExpMatrixExact`. -/
noncomputable def expMatrixExact (m : Mat 3) (dt : ℝ) : Res (Mat 3) :=
  if |norm (unskew m) - 1| < 1 / 10 ^ 10 then .ok (1 + Real.sin dt • m + (1 - Real.cos dt) • (m * m)) else .throw .invalidArgument

/-- math.cpp:338-352 and again 364-378: displacement of a twist with rotation. -/
noncomputable def expScrew (v w : Vec 3) (dt : ℝ) : Res (Mat 4) := do
  let s := dt * norm w
  let v' := (norm w)⁻¹ • v
  let w' := (norm w)⁻¹ • w
  let r ← expMatrixExact (skew w') s
  let p := (1 - r) *ᵥ (w' ⨯₃ v') + s • ((w' ⬝ᵥ v') • w')
  .ok (mk4 r p 1)

open Classical in
/-- math.cpp:328-382 `ExpTwist`. `w' w'ᵀ v'` is written `(w' · v') w'`. -/
noncomputable def expTwist (ξ : Vec 6) (dt : ℝ) : Res (Mat 4) :=
  let v := transPart ξ
  let w := rotPart ξ
  if norm w ≥ 1 / 10 ^ 100 then expScrew v w dt
  else if norm v ≥ 1 / 10 ^ 100 ∨ norm w = 0 then .ok (mk4 1 (dt • v) 1)
  else expScrew v w dt

/-- math.cpp:302-308 `TwistBetweenTransforms`, with the matrix logarithm of Eigen as a parameter. `Isometry3d::inverse` is the inverse matrix. -/
noncomputable def twistBetween (log : Mat 4 → Mat 4) (a b : Mat 4) : Vec 6 := twistUnhat (log (a⁻¹ * b))

/-! ### Specification -/

/-- `r` is a rotation. -/
def IsRotation (r : Mat 3) : Prop := rᵀ * r = 1 ∧ r.det = 1

/-- `t` is a rigid motion: a rotation and a translation, last row (0, 0, 0, 1). -/
def IsRigid (t : Mat 4) : Prop := IsRotation (rotBlock t) ∧ t 3 0 = 0 ∧ t 3 1 = 0 ∧ t 3 2 = 0 ∧ t 3 3 = 1

end CRU.Math
