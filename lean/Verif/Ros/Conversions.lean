import Verif.Base
import Verif.Math.AverageRotation
import Verif.Math.Rpy
/-
  Conversions between ROS geometry messages and Eigen types (C93): src/common_robotics_utilities/ros_conversions.cpp, and the time
  stamps of include/common_robotics_utilities/ros_helpers.hpp. The message types are ROS's own (not in /repo): plain structures with
  the fields named here. Numbers are copied, so everything about points, vectors and quaternions holds of any number type `K`, bit
  for bit; the functions on poses need rotation matrices and are over the real numbers. A quaternion of Eigen is given by
  (w, x, y, z), the order of its constructor.
-/
namespace CRU.Ros
open CRU.Math

/-- `geometry_msgs::Point` (ros_conversions.hpp:28, 37). -/
@[ext] structure PointMsg (K : Type) where
  x : K
  y : K
  z : K

/-- `geometry_msgs::Vector3` (ros_conversions.hpp:35, 44). -/
@[ext] structure Vector3Msg (K : Type) where
  x : K
  y : K
  z : K

/-- `geometry_msgs::Quaternion` (ros_conversions.hpp:32, 41). -/
@[ext] structure QuaternionMsg (K : Type) where
  x : K
  y : K
  z : K
  w : K

/-- `geometry_msgs::Pose` (ros_conversions.hpp:30, 39). -/
@[ext] structure PoseMsg (K : Type) where
  position : PointMsg K
  orientation : QuaternionMsg K

/-- `geometry_msgs::Transform` (ros_conversions.hpp:33, 42). -/
@[ext] structure TransformMsg (K : Type) where
  translation : Vector3Msg K
  rotation : QuaternionMsg K

/-- `std_msgs::Header` (used at ros_conversions.cpp:51), the part that is common to ROS 1 and ROS 2; a fresh header has stamp `0` and no frame. -/
@[ext] structure Header where
  stamp : Int := 0
  frameId : String := ""

/-- The stamped messages (ros_conversions.hpp:29, 31, 34): a header and contents; `childFrameId` exists for transforms only. -/
@[ext] structure Stamped (M : Type) where
  header : Header
  childFrameId : String := ""
  contents : M

section
variable {K : Type}

/-- ros_conversions.cpp:13-18 `GeometryPointToEigenVector3d`. -/
def pointToV3 (p : PointMsg K) : Fin 3 → K := ![p.x, p.y, p.z]

/-- ros_conversions.cpp:20-28 `EigenVector3dToGeometryPoint`. -/
def v3ToPoint (v : Fin 3 → K) : PointMsg K := { x := v 0, y := v 1, z := v 2 }

/-- ros_conversions.cpp:30-35 `GeometryPointToEigenVector4d`. -/
def pointToV4 [One K] (p : PointMsg K) : Fin 4 → K := ![p.x, p.y, p.z, 1]

/-- ros_conversions.cpp:37-45 `EigenVector4dToGeometryPoint`. -/
def v4ToPoint (v : Fin 4 → K) : PointMsg K := { x := v 0, y := v 1, z := v 2 }

/-- ros_conversions.cpp:47-54 `EigenVector3dToGeometryPointStamped`. -/
def v3ToPointStamped (v : Fin 3 → K) (frame : String) : Stamped (PointMsg K) :=
  { header := { frameId := frame }, contents := v3ToPoint v }

/-- ros_conversions.cpp:56-61 `GeometryVector3ToEigenVector3d`. -/
def vectorToV3 (p : Vector3Msg K) : Fin 3 → K := ![p.x, p.y, p.z]

/-- ros_conversions.cpp:63-71 `EigenVector3dToGeometryVector3`. -/
def v3ToVector (v : Fin 3 → K) : Vector3Msg K := { x := v 0, y := v 1, z := v 2 }

/-- ros_conversions.cpp:73-78 `GeometryVector3ToEigenVector4d`. -/
def vectorToV4 [Zero K] (p : Vector3Msg K) : Fin 4 → K := ![p.x, p.y, p.z, 0]

/-- ros_conversions.cpp:80-88 `EigenVector4dToGeometryVector3`. -/
def v4ToVector (v : Fin 4 → K) : Vector3Msg K := { x := v 0, y := v 1, z := v 2 }

/-- ros_conversions.cpp:90-95 `GeometryQuaternionToEigenQuaterniond`. -/
def quatToEigen (q : QuaternionMsg K) : Fin 4 → K := ![q.w, q.x, q.y, q.z]

/-- ros_conversions.cpp:97-106 `EigenQuaterniondToGeometryQuaternion`. -/
def eigenToQuat (q : Fin 4 → K) : QuaternionMsg K := { w := q 0, x := q 1, y := q 2, z := q 3 }

end

/-- ros_conversions.cpp:108-120 `GeometryPoseToEigenIsometry3d`: `trans * quat`. -/
def poseToEigen (pose : PoseMsg ℝ) : Pose :=
  { translation := ![pose.position.x, pose.position.y, pose.position.z]
    rotation := toRotationMatrix ![pose.orientation.w, pose.orientation.x, pose.orientation.y, pose.orientation.z] }

/-- ros_conversions.cpp:122-136 `EigenIsometry3dToGeometryPose`. -/
noncomputable def eigenToPose (t : Pose) : PoseMsg ℝ :=
  let quat := ofRotationMatrix t.rotation
  { position := { x := t.translation 0, y := t.translation 1, z := t.translation 2 }
    orientation := { w := quat 0, x := quat 1, y := quat 2, z := quat 3 } }

/-- ros_conversions.cpp:138-145 `EigenIsometry3dToGeometryPoseStamped`. -/
noncomputable def eigenToPoseStamped (t : Pose) (frame : String) : Stamped (PoseMsg ℝ) :=
  { header := { frameId := frame }, contents := eigenToPose t }

/-- ros_conversions.cpp:147-159 `GeometryTransformToEigenIsometry3d`. -/
def transformToEigen (m : TransformMsg ℝ) : Pose :=
  { translation := ![m.translation.x, m.translation.y, m.translation.z]
    rotation := toRotationMatrix ![m.rotation.w, m.rotation.x, m.rotation.y, m.rotation.z] }

/-- ros_conversions.cpp:161-175 `EigenIsometry3dToGeometryTransform`. -/
noncomputable def eigenToTransform (t : Pose) : TransformMsg ℝ :=
  let quat := ofRotationMatrix t.rotation
  { translation := { x := t.translation 0, y := t.translation 1, z := t.translation 2 }
    rotation := { w := quat 0, x := quat 1, y := quat 2, z := quat 3 } }

/-- ros_conversions.cpp:177-186 `EigenIsometry3dToGeometryTransformStamped`. -/
noncomputable def eigenToTransformStamped (t : Pose) (frame child : String) : Stamped (TransformMsg ℝ) :=
  { header := { frameId := frame }, childFrameId := child, contents := eigenToTransform t }

/-- `vector.at(i) = a` (ros_conversions.cpp:221). -/
def setAt {α : Type} (l : List α) (i : Nat) (a : α) : Res (List α) :=
  if i < l.length then .ok (l.set i a) else .throw .outOfRange

/-- The loops `for (idx = 0; idx < size; idx++) out.at(idx) = f(in.at(idx))` (ros_conversions.cpp:219-222, 232-235, 245-248,
258-261, 271-275, 283-286, 294-298): `n` iterations from `i` on. -/
def copyLoop {α β : Type} (f : α → β) (input : List α) : Nat → Nat → List β → Res (List β)
  | 0, _, out => .ok out
  | n + 1, i, out => do
      let a ← atChecked input i
      let out ← setAt out i (f a)
      copyLoop f input n (i + 1) out

/-- A vector of converted elements: the result is created with as many default elements as there are inputs, then filled
(ros_conversions.cpp:214-300). -/
def copyVector {α β : Type} (dflt : β) (f : α → β) (input : List α) : Res (List β) :=
  copyLoop f input input.length 0 (List.replicate input.length dflt)

/-- ros_conversions.cpp:226-237 `VectorGeometryPointToVectorEigenVector3d`. The elements of `VectorVector3d(n)` are Eigen vectors
that are not initialized: `junk` is whatever they hold. -/
def pointsToVectors {K : Type} (junk : Fin 3 → K) (v : List (PointMsg K)) : Res (List (Fin 3 → K)) := copyVector junk pointToV3 v

/-- ros_conversions.cpp:214-224 `VectorEigenVector3dToVectorGeometryPoint`; messages are created with zeros. -/
def vectorsToPoints {K : Type} [Zero K] (v : List (Fin 3 → K)) : Res (List (PointMsg K)) := copyVector ⟨0, 0, 0⟩ v3ToPoint v

/-- ros_conversions.cpp:239-250 `VectorGeometryVector3ToEigenVector3d`. -/
def vector3sToVectors {K : Type} (junk : Fin 3 → K) (v : List (Vector3Msg K)) : Res (List (Fin 3 → K)) := copyVector junk vectorToV3 v

/-- ros_conversions.cpp:252-263 `VectorGeometryPoseToVectorIsometry3d`. -/
def posesToEigen (junk : Pose) (v : List (PoseMsg ℝ)) : Res (List Pose) := copyVector junk poseToEigen v

/-- ros_conversions.cpp:265-277 `VectorGeometryPoseToVectorIsometry3d` on transforms. -/
def transformsToEigen (junk : Pose) (v : List (TransformMsg ℝ)) : Res (List Pose) := copyVector junk transformToEigen v

/-- ros_conversions.cpp:279-288 `VectorIsometry3dToVectorGeometryPose`. -/
noncomputable def eigenToPoses (dflt : PoseMsg ℝ) (v : List Pose) : Res (List (PoseMsg ℝ)) := copyVector dflt eigenToPose v

/-- ros_conversions.cpp:290-300 `VectorIsometry3dToVectorGeometryTransform`. -/
noncomputable def eigenToTransforms (dflt : TransformMsg ℝ) (v : List Pose) : Res (List (TransformMsg ℝ)) :=
  copyVector dflt eigenToTransform v

/-- `matrix.block<3,1>(0, i) = column`: outside the matrix the behaviour is undefined (ros_conversions.cpp:194). A matrix with three rows is the list of its columns. -/
def setColumn {K : Type} (m : List (Fin 3 → K)) (i : Nat) (c : Fin 3 → K) : Res (List (Fin 3 → K)) :=
  if i < m.length then .ok (m.set i c) else .ub

/-- The loop of ros_conversions.cpp:192-196. -/
def toMatrixLoop {K : Type} (input : List (PointMsg K)) : Nat → Nat → List (Fin 3 → K) → Res (List (Fin 3 → K))
  | 0, _, m => .ok m
  | n + 1, i, m => do
      let a ← atChecked input i
      let m ← setColumn m i (pointToV3 a)
      toMatrixLoop input n (i + 1) m

/-- ros_conversions.cpp:188-198 `VectorGeometryPointToEigenMatrix3Xd`; the matrix is created uninitialized. -/
def pointsToMatrix {K : Type} (junk : Fin 3 → K) (v : List (PointMsg K)) : Res (List (Fin 3 → K)) :=
  toMatrixLoop v v.length 0 (List.replicate v.length junk)

/-- The loop of ros_conversions.cpp:205-210: reading the block of a column outside the matrix is undefined. -/
def ofMatrixLoop {K : Type} (m : List (Fin 3 → K)) : Nat → Nat → List (PointMsg K) → Res (List (PointMsg K))
  | 0, _, out => .ok out
  | n + 1, i, out => do
      let c ← atRaw m i
      let out ← setAt out i (v3ToPoint c)
      ofMatrixLoop m n (i + 1) out

/-- ros_conversions.cpp:200-212 `EigenMatrix3XdToVectorGeometryPoint`. -/
def matrixToPoints {K : Type} [Zero K] (m : List (Fin 3 → K)) : Res (List (PointMsg K)) :=
  ofMatrixLoop m m.length 0 (List.replicate m.length ⟨0, 0, 0⟩)

/-- ros_helpers.hpp:64-71 `SetMessageTimestamps` (and 81-85 for an array of markers). -/
def setTimestamps {M : Type} (messages : List (Stamped M)) (stamp : Int) : List (Stamped M) :=
  messages.map fun m => { m with header := { m.header with stamp := stamp } }

/-! ### Specification -/

/-- `transform * Eigen::Vector4d`: the homogeneous matrix of the pose applied to the vector. -/
def applyHomogeneous (t : Pose) (v : Vec 4) : Vec 4 :=
  let p : Vec 3 := ![v 0, v 1, v 2]
  let r : Vec 3 := t.rotation.mulVec p + v 3 • t.translation
  ![r 0, r 1, r 2, v 3]

/-! ### Proofs -/

theorem copyLoop_spec {α β : Type} (f : α → β) : ∀ (todo : List α) (pre : List α) (dflt : List β), dflt.length = todo.length →
    copyLoop f (pre ++ todo) todo.length pre.length (pre.map f ++ dflt) = .ok ((pre ++ todo).map f)
  | [], pre, dflt, h => by
      have : dflt = [] := List.length_eq_zero_iff.mp h
      simp [copyLoop, this]
  | a :: todo, pre, [], h => by simp at h
  | a :: todo, pre, d :: dflt, h => by
      have ih := copyLoop_spec f todo (pre ++ [a]) dflt (by simpa using h)
      simp only [List.length_cons, copyLoop, atChecked, setAt]
      simp only [List.length_append, List.length_cons, List.length_nil, List.map_append, List.map_cons, List.map_nil, List.append_assoc,
        List.cons_append, List.nil_append, Nat.zero_add] at ih
      simp [ih]

theorem copyVector_eq {α β : Type} (dflt : β) (f : α → β) (input : List α) : copyVector dflt f input = .ok (input.map f) := by
  have h := copyLoop_spec f input [] (List.replicate input.length dflt) (by simp)
  simpa [copyVector] using h

theorem toMatrixLoop_spec {K : Type} : ∀ (todo : List (PointMsg K)) (pre : List (PointMsg K)) (dflt : List (Fin 3 → K)),
    dflt.length = todo.length →
    toMatrixLoop (pre ++ todo) todo.length pre.length (pre.map pointToV3 ++ dflt) = .ok ((pre ++ todo).map pointToV3)
  | [], pre, dflt, h => by
      have : dflt = [] := List.length_eq_zero_iff.mp h
      simp [toMatrixLoop, this]
  | a :: todo, pre, [], h => by simp at h
  | a :: todo, pre, d :: dflt, h => by
      have ih := toMatrixLoop_spec todo (pre ++ [a]) dflt (by simpa using h)
      simp only [List.length_cons, toMatrixLoop, atChecked, setColumn]
      simp only [List.length_append, List.length_cons, List.length_nil, List.map_append, List.map_cons, List.map_nil, List.append_assoc,
        List.cons_append, List.nil_append, Nat.zero_add] at ih
      simp [ih]

theorem ofMatrixLoop_spec {K : Type} : ∀ (todo : List (Fin 3 → K)) (pre : List (Fin 3 → K)) (dflt : List (PointMsg K)),
    dflt.length = todo.length →
    ofMatrixLoop (pre ++ todo) todo.length pre.length (pre.map v3ToPoint ++ dflt) = .ok ((pre ++ todo).map v3ToPoint)
  | [], pre, dflt, h => by
      have : dflt = [] := List.length_eq_zero_iff.mp h
      simp [ofMatrixLoop, this]
  | a :: todo, pre, [], h => by simp at h
  | a :: todo, pre, d :: dflt, h => by
      have ih := ofMatrixLoop_spec todo (pre ++ [a]) dflt (by simpa using h)
      simp only [List.length_cons, ofMatrixLoop, atRaw, setAt]
      simp only [List.length_append, List.length_cons, List.length_nil, List.map_append, List.map_cons, List.map_nil, List.append_assoc,
        List.cons_append, List.nil_append, Nat.zero_add] at ih
      simp [ih]

/-- **C93** (points, vectors, quaternions): a message converted to Eigen and back is the same message, bit for bit, and the other way
round; in homogeneous coordinates a point has fourth coordinate 1 and a vector 0, and a vector of four coordinates survives the trip
through a message exactly if it has that fourth coordinate. -/
theorem C93_points {K : Type} [One K] [Zero K] (p : PointMsg K) (d : Vector3Msg K) (q : QuaternionMsg K) (v : Fin 3 → K) (u e : Fin 4 → K) :
    v3ToPoint (pointToV3 p) = p ∧ pointToV3 (v3ToPoint v) = v ∧ v3ToVector (vectorToV3 d) = d ∧ vectorToV3 (v3ToVector v) = v ∧
    v4ToPoint (pointToV4 p) = p ∧ v4ToVector (vectorToV4 d) = d ∧ pointToV4 p 3 = 1 ∧ vectorToV4 d 3 = 0 ∧
    (pointToV4 (v4ToPoint u) = u ↔ u 3 = 1) ∧ (vectorToV4 (v4ToVector u) = u ↔ u 3 = 0) ∧
    eigenToQuat (quatToEigen q) = q ∧ quatToEigen (eigenToQuat e) = e ∧
    (pointToV3 p 0 = p.x ∧ pointToV3 p 1 = p.y ∧ pointToV3 p 2 = p.z) ∧ (vectorToV3 d 0 = d.x ∧ vectorToV3 d 1 = d.y ∧ vectorToV3 d 2 = d.z) ∧
    (quatToEigen q 0 = q.w ∧ quatToEigen q 1 = q.x ∧ quatToEigen q 2 = q.y ∧ quatToEigen q 3 = q.z) := by
  refine ⟨rfl, ?_, rfl, ?_, rfl, rfl, rfl, rfl, ⟨fun h => by rw [← h]; rfl, fun h => ?_⟩, ⟨fun h => by rw [← h]; rfl, fun h => ?_⟩, rfl, ?_,
    ⟨rfl, rfl, rfl⟩, ⟨rfl, rfl, rfl⟩, rfl, rfl, rfl, rfl⟩
  · funext i; fin_cases i <;> rfl
  · funext i; fin_cases i <;> rfl
  · funext i; fin_cases i <;> first | rfl | exact h.symm
  · funext i; fin_cases i <;> first | rfl | exact h.symm
  · funext i; fin_cases i <;> rfl

/-- **C93** (a pose moves points and turns vectors): the isometry of a pose message applied to a point message's homogeneous
coordinates rotates and translates it; applied to a vector message's it only rotates. -/
theorem C93_homogeneous (t : Pose) (p : PointMsg ℝ) (d : Vector3Msg ℝ) :
    pointToV3 (v4ToPoint (applyHomogeneous t (pointToV4 p))) = t.rotation.mulVec (pointToV3 p) + t.translation ∧
    applyHomogeneous t (pointToV4 p) 3 = 1 ∧
    vectorToV3 (v4ToVector (applyHomogeneous t (vectorToV4 d))) = t.rotation.mulVec (vectorToV3 d) ∧
    applyHomogeneous t (vectorToV4 d) 3 = 0 := by
  refine ⟨?_, rfl, ?_, rfl⟩
  · funext i
    fin_cases i <;>
      simp [applyHomogeneous, pointToV3, pointToV4, v4ToPoint]
  · funext i
    fin_cases i <;>
      simp [applyHomogeneous, vectorToV3, vectorToV4, v4ToVector]

theorem vec4_eta (q : Vec 4) : (![q 0, q 1, q 2, q 3] : Vec 4) = q := by
  funext i; fin_cases i <;> rfl

theorem vec3_eta (q : Vec 3) : (![q 0, q 1, q 2] : Vec 3) = q := by
  funext i; fin_cases i <;> rfl

/-- **C93** (poses): an isometry converted to a pose or transform message and back is the same isometry; the message's quaternion has
length one and is the rotation's. -/
theorem C93_pose_round_trip (t : Pose) (h : IsRotation t.rotation) :
    poseToEigen (eigenToPose t) = t ∧ transformToEigen (eigenToTransform t) = t ∧
    sqNorm (quatToEigen (eigenToPose t).orientation) = 1 ∧
    toRotationMatrix (quatToEigen (eigenToPose t).orientation) = t.rotation ∧
    pointToV3 (eigenToPose t).position = t.translation ∧ vectorToV3 (eigenToTransform t).translation = t.translation ∧
    (eigenToTransform t).rotation = (eigenToPose t).orientation := by
  obtain ⟨h1, h2⟩ := ofRotationMatrix_spec h
  cases t
  simp only [poseToEigen, eigenToPose, transformToEigen, eigenToTransform, quatToEigen, pointToV3, vectorToV3, vec4_eta, vec3_eta] at *
  simp [h1, h2]

/-- Two unit quaternions with the same rotation matrix are equal up to sign. -/
theorem same_rotation {p q : Vec 4} (hp : sqNorm p = 1) (hq : sqNorm q = 1) (h : toRotationMatrix p = toRotationMatrix q) : p = q ∨ p = -q := by
  refine dot_eq_one hp hq (le_of_eq ?_)
  have e : ∀ i j, toRotationMatrix p i j = toRotationMatrix q i j := fun i j => by rw [h]
  have e00 := e 0 0; have e01 := e 0 1; have e02 := e 0 2
  have e10 := e 1 0; have e11 := e 1 1; have e12 := e 1 2
  have e20 := e 2 0; have e21 := e 2 1; have e22 := e 2 2
  simp only [toRotationMatrix, Matrix.of_apply, Matrix.cons_val] at e00 e01 e02 e10 e11 e12 e20 e21 e22
  rw [sqNorm4] at hp hq
  have k01 : p 0 * p 1 = q 0 * q 1 := by linarith
  have k02 : p 0 * p 2 = q 0 * q 2 := by linarith
  have k03 : p 0 * p 3 = q 0 * q 3 := by linarith
  have k12 : p 1 * p 2 = q 1 * q 2 := by linarith
  have k13 : p 1 * p 3 = q 1 * q 3 := by linarith
  have k23 : p 2 * p 3 = q 2 * q 3 := by linarith
  have k00 : p 0 * p 0 = q 0 * q 0 := by linarith
  have k11 : p 1 * p 1 = q 1 * q 1 := by linarith
  have k22 : p 2 * p 2 = q 2 * q 2 := by linarith
  have k33 : p 3 * p 3 = q 3 * q 3 := by linarith
  have hd : (p ⬝ᵥ q) ^ 2 = (p 0 * p 0) * (q 0 * q 0) + (p 1 * p 1) * (q 1 * q 1) + (p 2 * p 2) * (q 2 * q 2) + (p 3 * p 3) * (q 3 * q 3)
      + 2 * ((p 0 * p 1) * (q 0 * q 1) + (p 0 * p 2) * (q 0 * q 2) + (p 0 * p 3) * (q 0 * q 3) + (p 1 * p 2) * (q 1 * q 2)
      + (p 1 * p 3) * (q 1 * q 3) + (p 2 * p 3) * (q 2 * q 3)) := by
    simp only [dotProduct, Fin.sum_univ_four]
    ring
  rw [hd, k01, k02, k03, k12, k13, k23, k00, k11, k22, k33]
  have : (1 : ℝ) = (q 0 * q 0 + q 1 * q 1 + q 2 * q 2 + q 3 * q 3) ^ 2 := by rw [hq]; norm_num
  rw [this]
  ring

/-- **C93** (messages): a pose or transform message whose quaternion has length one gives an isometry; converted back, the position
is the same and the quaternion is the same or its opposite, which is the same rotation. -/
theorem C93_message_round_trip (m : PoseMsg ℝ) (hm : sqNorm (quatToEigen m.orientation) = 1) :
    IsRotation (poseToEigen m).rotation ∧ (eigenToPose (poseToEigen m)).position = m.position ∧
    (quatToEigen (eigenToPose (poseToEigen m)).orientation = quatToEigen m.orientation ∨
      quatToEigen (eigenToPose (poseToEigen m)).orientation = -quatToEigen m.orientation) ∧
    poseToEigen (eigenToPose (poseToEigen m)) = poseToEigen m := by
  have hr : IsRotation (poseToEigen m).rotation := toRotationMatrix_rotation hm
  obtain ⟨h1, -, h3, h4, -⟩ := C93_pose_round_trip (poseToEigen m) hr
  exact ⟨hr, rfl, same_rotation h3 hm h4, h1⟩

/-- **C93** (transform messages): a transform message and the pose message with the same numbers give the same isometry, so all that
is said of pose messages holds of transform messages. -/
theorem C93_transform_messages (m : TransformMsg ℝ) :
    transformToEigen m = poseToEigen ⟨⟨m.translation.x, m.translation.y, m.translation.z⟩, m.rotation⟩ ∧
    ∀ t : Pose, eigenToTransform t = ⟨⟨(eigenToPose t).position.x, (eigenToPose t).position.y, (eigenToPose t).position.z⟩, (eigenToPose t).orientation⟩ :=
  ⟨rfl, fun _ => rfl⟩

/-- **C93** (what does not hold): the quaternion need not come back with its sign, and a message whose quaternion does not have length
one gives an "isometry" that is not one, without an error; the all-zero quaternion of a fresh message gives the identity rotation. -/
theorem C93_message_round_trip_false :
    (∃ m : PoseMsg ℝ, sqNorm (quatToEigen m.orientation) = 1 ∧ eigenToPose (poseToEigen m) ≠ m) ∧
    (∃ m : PoseMsg ℝ, ¬ IsRotation (poseToEigen m).rotation) ∧
    (∀ p, (poseToEigen ⟨p, ⟨0, 0, 0, 0⟩⟩).rotation = 1) := by
  refine ⟨⟨⟨⟨0, 0, 0⟩, ⟨0, 0, 0, -1⟩⟩, ?_, fun h => ?_⟩, ⟨⟨⟨0, 0, 0⟩, ⟨2, 0, 0, 0⟩⟩, fun h => ?_⟩, fun p => ?_⟩
  · simp [sqNorm4, quatToEigen]
  · have hw := congrArg (fun m => m.orientation.w) h
    have hm : (poseToEigen ⟨⟨0, 0, 0⟩, ⟨0, 0, 0, -1⟩⟩).rotation = 1 := by
      ext i j; fin_cases i <;> fin_cases j <;> simp [poseToEigen, toRotationMatrix]
    simp only [eigenToPose, hm, ofRotationMatrix] at hw
    rw [if_pos (by norm_num)] at hw
    have hs : 0 ≤ Real.sqrt ((1 : Mat 3) 0 0 + (1 : Mat 3) 1 1 + (1 : Mat 3) 2 2 + 1) := Real.sqrt_nonneg _
    simp only [Matrix.cons_val_zero] at hw
    linarith
  · have e := (rotation_eqs h).1.2.2.1
    have e2 := (rotation_eqs h).1.2.1
    have e3 := (rotation_eqs h).1.1
    simp [poseToEigen, toRotationMatrix] at e e2 e3
    try norm_num at e
    try norm_num at e2
  · ext i j; fin_cases i <;> fin_cases j <;> simp [poseToEigen, toRotationMatrix]

/-- **C93** (vectors and matrices): the conversions of vectors never fail and convert each element, in order, whatever the fresh
elements hold; the columns of the matrix of a vector of points are the points, and the vector of a matrix's columns is the original. -/
theorem C93_vectors {K : Type} [Zero K] (junk : Fin 3 → K) (pts : List (PointMsg K)) (vecs : List (Fin 3 → K)) (dirs : List (Vector3Msg K))
    (jp : Pose) (poses : List (PoseMsg ℝ)) (trs : List (TransformMsg ℝ)) (isos : List Pose) (dp : PoseMsg ℝ) (dt : TransformMsg ℝ) :
    pointsToMatrix junk pts = .ok (pts.map pointToV3) ∧ matrixToPoints vecs = .ok (vecs.map v3ToPoint) ∧
    vectorsToPoints vecs = .ok (vecs.map v3ToPoint) ∧ pointsToVectors junk pts = .ok (pts.map pointToV3) ∧
    vector3sToVectors junk dirs = .ok (dirs.map vectorToV3) ∧ posesToEigen jp poses = .ok (poses.map poseToEigen) ∧
    transformsToEigen jp trs = .ok (trs.map transformToEigen) ∧ eigenToPoses dp isos = .ok (isos.map eigenToPose) ∧
    eigenToTransforms dt isos = .ok (isos.map eigenToTransform) ∧
    (pointsToMatrix junk pts >>= matrixToPoints) = .ok pts ∧ (matrixToPoints vecs >>= pointsToMatrix junk) = .ok vecs ∧
    ((∀ t ∈ isos, IsRotation t.rotation) →
      (eigenToPoses dp isos >>= posesToEigen jp) = .ok isos ∧ (eigenToTransforms dt isos >>= transformsToEigen jp) = .ok isos) := by
  have h1 : ∀ pts : List (PointMsg K), pointsToMatrix junk pts = .ok (pts.map pointToV3) := fun pts => by
    have h := toMatrixLoop_spec pts [] (List.replicate pts.length junk) (by simp)
    simpa [pointsToMatrix] using h
  have h2 : ∀ vecs : List (Fin 3 → K), matrixToPoints vecs = .ok (vecs.map v3ToPoint) := fun vecs => by
    have h := ofMatrixLoop_spec vecs [] (List.replicate vecs.length ⟨0, 0, 0⟩) (by simp)
    simpa [matrixToPoints] using h
  have hv : ∀ v : Fin 3 → K, pointToV3 (v3ToPoint v) = v := fun v => by funext i; fin_cases i <;> rfl
  refine ⟨h1 _, h2 _, copyVector_eq _ _ _, copyVector_eq _ _ _, copyVector_eq _ _ _, copyVector_eq _ _ _, copyVector_eq _ _ _,
    copyVector_eq _ _ _, copyVector_eq _ _ _, ?_, ?_, fun h => ⟨?_, ?_⟩⟩
  · rw [h1, Res.ok_bind, h2, List.map_map]
    congr 1
    exact (List.map_congr_left fun _ _ => rfl).trans (List.map_id _)
  · rw [h2, Res.ok_bind, h1, List.map_map]
    congr 1
    exact (List.map_congr_left fun v _ => hv v).trans (List.map_id _)
  · rw [eigenToPoses, copyVector_eq, Res.ok_bind, posesToEigen, copyVector_eq, List.map_map]
    congr 1
    exact (List.map_congr_left fun t ht => (C93_pose_round_trip t (h t ht)).1).trans (List.map_id _)
  · rw [eigenToTransforms, copyVector_eq, Res.ok_bind, transformsToEigen, copyVector_eq, List.map_map]
    congr 1
    exact (List.map_congr_left fun t ht => (C93_pose_round_trip t (h t ht)).2.1).trans (List.map_id _)

/-- **C93** (stamped messages): the stamped messages carry the frame names given and the converted contents, with a fresh stamp;
setting time stamps gives every message that stamp and changes nothing else. -/
theorem C93_stamped {K M : Type} (v : Fin 3 → K) (t : Pose) (frame child : String) (messages : List (Stamped M)) (stamp : Int) :
    (v3ToPointStamped v frame).contents = v3ToPoint v ∧ (v3ToPointStamped v frame).header = ⟨0, frame⟩ ∧
    (eigenToPoseStamped t frame).contents = eigenToPose t ∧ (eigenToPoseStamped t frame).header = ⟨0, frame⟩ ∧
    (eigenToTransformStamped t frame child).contents = eigenToTransform t ∧ (eigenToTransformStamped t frame child).header = ⟨0, frame⟩ ∧
    (eigenToTransformStamped t frame child).childFrameId = child ∧
    (setTimestamps messages stamp).length = messages.length ∧
    ∀ i (h : i < messages.length), ∃ m', (setTimestamps messages stamp)[i]? = some m' ∧ m'.header.stamp = stamp ∧
      m'.header.frameId = messages[i].header.frameId ∧ m'.childFrameId = messages[i].childFrameId ∧ m'.contents = messages[i].contents := by
  refine ⟨rfl, rfl, rfl, rfl, rfl, rfl, rfl, by simp [setTimestamps], fun i h => ?_⟩
  exact ⟨{ messages[i] with header := { messages[i].header with stamp := stamp } }, by simp [setTimestamps, h], rfl, rfl, rfl, rfl⟩

/-- There are rotations other than the identity (half a turn about x), and messages with unit quaternions. -/
example : IsRotation (poseToEigen ⟨⟨1, 2, 3⟩, ⟨1, 0, 0, 0⟩⟩).rotation ∧ (poseToEigen ⟨⟨1, 2, 3⟩, ⟨1, 0, 0, 0⟩⟩).rotation 1 1 = -1 := by
  refine ⟨toRotationMatrix_rotation (by simp [sqNorm4]), ?_⟩
  simp [poseToEigen, toRotationMatrix]
  norm_num

end CRU.Ros
