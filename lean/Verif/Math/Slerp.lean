import Verif.Math.AverageRotation
import Verif.Math.Interpolate
/-
  C89: interpolation of rotations and poses (math.cpp), over the real numbers. `slerp` is Eigen's (a dependency), given by its formula.
-/
namespace CRU.Math
open Matrix

open Classical in
/-- Eigen's `Quaternion::slerp` (called at math.cpp:439): linear in the coefficients if the quaternions are equal up to epsilon. -/
noncomputable def slerp (q1 : Vec 4) (t : ℝ) (q2 : Vec 4) : Vec 4 :=
  let one := 1 - epsilon
  let d := q1 ⬝ᵥ q2
  let absD := |d|
  let theta := Real.arccos absD
  let sinTheta := Real.sin theta
  let scale0 := if absD ≥ one then 1 - t else Real.sin ((1 - t) * theta) / sinTheta
  let scale1 := if absD ≥ one then t else Real.sin (t * theta) / sinTheta
  let scale1 := if d < 0 then -scale1 else scale1
  scale0 • q1 + scale1 • q2

/-- math.cpp:432-440 `Interpolate` for quaternions. -/
noncomputable def interpolateQuaternion (q1 q2 : Vec 4) (ratio : ℝ) : Res (Vec 4) := do
  let r ← Util.clampValue ratio 0 1
  return slerp q1 r q2

/-- math.cpp:459-469 `Interpolate3d`, as one expression on vectors. -/
noncomputable def interpolate3 (v1 v2 : Vec 3) (ratio : ℝ) : Res (Vec 3) := do
  let r ← Util.clampValue ratio 0 1
  return (1 - r) • v1 + r • v2

/-- math.cpp:483-498 `Interpolate` for poses; `toQuat` is Eigen's conversion of a rotation matrix to a quaternion. -/
noncomputable def interpolatePose (toQuat : Mat 3 → Vec 4) (t1 t2 : Pose) (ratio : ℝ) : Res Pose := do
  let r ← Util.clampValue ratio 0 1
  let v1 := t1.translation
  let q1 := toQuat t1.rotation
  let v2 := t2.translation
  let q2 := toQuat t2.rotation
  let vint ← interpolate3 v1 v2 r
  let qint ← interpolateQuaternion q1 q2 r
  return ⟨toRotationMatrix qint, vint⟩

/-! ### Specification -/

/-- The angle of the rotation that leads from `a` to `b` (its trace is 1 + 2 cos). -/
noncomputable def angleBetween (a b : Mat 3) : ℝ := Real.arccos ((traceBetween a b - 1) / 2)

/-! ### Proofs -/

theorem angleBetween_unit {p q : Vec 4} (hp : sqNorm p = 1) (hq : sqNorm q = 1) :
    angleBetween (toRotationMatrix p) (toRotationMatrix q) = 2 * Real.arccos |p ⬝ᵥ q| := by
  rw [← rotationAngle_eq hp hq]
  unfold angleBetween rotationAngle
  have h : traceBetween (toRotationMatrix p) (toRotationMatrix q) = traceBetween (rotationOf p) (rotationOf q) := by
    rw [toRotationMatrix_unit hp, toRotationMatrix_unit hq]
    rfl
  rw [h, trace_dot p q hp hq]
  congr 1
  ring

/-- The two cases of `slerp`. -/
theorem slerp_eq (q1 q2 : Vec 4) : ∃ s : ℝ, (s = 1 ∨ s = -1) ∧ s * (q1 ⬝ᵥ q2) = |q1 ⬝ᵥ q2| ∧ (q1 ⬝ᵥ q2 < 0 ↔ s = -1) ∧
    (|q1 ⬝ᵥ q2| ≥ 1 - epsilon → ∀ t, slerp q1 t q2 = (1 - t) • q1 + t • (s • q2)) ∧
    (|q1 ⬝ᵥ q2| < 1 - epsilon → ∀ t, slerp q1 t q2 =
      (Real.sin ((1 - t) * Real.arccos |q1 ⬝ᵥ q2|) / Real.sin (Real.arccos |q1 ⬝ᵥ q2|)) • q1 +
      (Real.sin (t * Real.arccos |q1 ⬝ᵥ q2|) / Real.sin (Real.arccos |q1 ⬝ᵥ q2|)) • (s • q2)) := by
  by_cases h : q1 ⬝ᵥ q2 < 0
  · refine ⟨-1, Or.inr rfl, by rw [abs_of_neg h]; ring, by simp [h], fun hg t => ?_, fun hl t => ?_⟩
    · simp only [slerp, if_pos hg, if_pos h]
      module
    · simp only [slerp, if_neg (not_le.mpr hl), if_pos h]
      module
  · refine ⟨1, Or.inl rfl, by rw [abs_of_nonneg (not_lt.mp h)]; ring, by simp [h]; norm_num, fun hg t => ?_, fun hl t => ?_⟩
    · simp only [slerp, if_pos hg, if_neg h]
      module
    · simp only [slerp, if_neg (not_le.mpr hl), if_neg h]
      module

/-- In the plane of the two quaternions, with an orthonormal basis. -/
theorem slerp_circle {q1 q2 : Vec 4} (h1 : sqNorm q1 = 1) (h2 : sqNorm q2 = 1) (hl : |q1 ⬝ᵥ q2| < 1 - epsilon) :
    ∃ e : Vec 4, sqNorm e = 1 ∧ q1 ⬝ᵥ e = 0 ∧ ∀ t, slerp q1 t q2 =
      Real.cos (t * Real.arccos |q1 ⬝ᵥ q2|) • q1 + Real.sin (t * Real.arccos |q1 ⬝ᵥ q2|) • e := by
  obtain ⟨s, hs, hsd, _, _, hfar⟩ := slerp_eq q1 q2
  have heps := epsilon_pos
  have hc0 := abs_nonneg (q1 ⬝ᵥ q2)
  have hcos : Real.cos (Real.arccos |q1 ⬝ᵥ q2|) = |q1 ⬝ᵥ q2| := Real.cos_arccos (by linarith) (by linarith)
  have hsin : 0 < Real.sin (Real.arccos |q1 ⬝ᵥ q2|) := by
    rw [Real.sin_arccos]
    apply Real.sqrt_pos.mpr
    nlinarith
  have hq2' := sqNorm_sign hs h2
  have hdot : q1 ⬝ᵥ (s • q2) = |q1 ⬝ᵥ q2| := by rw [dotProduct_smul, smul_eq_mul, hsd]
  have hfar' := hfar hl
  generalize s • q2 = p at hq2' hdot hfar'
  generalize hθ : Real.arccos |q1 ⬝ᵥ q2| = θ at hcos hsin hfar' ⊢
  rw [← hdot] at hcos
  have hss := Real.sin_sq_add_cos_sq θ
  refine ⟨(Real.sin θ)⁻¹ • (p + (-Real.cos θ) • q1), ?_, ?_, fun t => ?_⟩
  · rw [sqNorm_smul, sqNorm_add, sqNorm_smul, dotProduct_smul, hq2', h1, dotProduct_comm p q1, ← hcos, smul_eq_mul]
    field_simp
    linear_combination (-1 : ℝ) * hss
  · rw [dotProduct_smul, dotProduct_add, dotProduct_smul, ← hcos]
    have : q1 ⬝ᵥ q1 = 1 := h1
    rw [this]
    simp
  · rw [hfar' t, show (1 - t) * θ = θ - t * θ by ring, Real.sin_sub]
    have hne := hsin.ne'
    rw [show (Real.sin θ * Real.cos (t * θ) - Real.cos θ * Real.sin (t * θ)) / Real.sin θ =
      Real.cos (t * θ) - Real.cos θ * Real.sin (t * θ) / Real.sin θ by field_simp]
    rw [div_eq_mul_inv, div_eq_mul_inv]
    module

theorem slerp_dot {q1 q2 : Vec 4} (h1 : sqNorm q1 = 1) (h2 : sqNorm q2 = 1) (hl : |q1 ⬝ᵥ q2| < 1 - epsilon) (s t : ℝ) :
    slerp q1 s q2 ⬝ᵥ slerp q1 t q2 = Real.cos ((t - s) * Real.arccos |q1 ⬝ᵥ q2|) := by
  obtain ⟨e, he, ho, h⟩ := slerp_circle h1 h2 hl
  have h11 : q1 ⬝ᵥ q1 = 1 := h1
  have hee : e ⬝ᵥ e = 1 := he
  have ho' : e ⬝ᵥ q1 = 0 := by rw [dotProduct_comm]; exact ho
  rw [h s, h t]
  simp only [add_dotProduct, dotProduct_add, smul_dotProduct, dotProduct_smul, h11, hee, ho, ho', smul_eq_mul]
  rw [sub_mul, Real.cos_sub]
  ring

theorem interpolateQuaternion_eq (q1 q2 : Vec 4) (ratio : ℝ) : interpolateQuaternion q1 q2 ratio = .ok (slerp q1 (clamp01 ratio) q2) := by
  unfold interpolateQuaternion
  rw [clamp_ok, Res.ok_bind]
  rfl

/-- **C89.** Interpolation between unit quaternions that are not equal up to epsilon: unit quaternions, and the angle between the
rotations for two ratios is the difference of the ratios times the angle between the given rotations: the rotation turns uniformly,
along the shorter way. -/
theorem C89_slerp {q1 q2 : Vec 4} (h1 : sqNorm q1 = 1) (h2 : sqNorm q2 = 1) (hl : |q1 ⬝ᵥ q2| < 1 - epsilon) (ratio ratio' : ℝ) :
    ∃ q q', interpolateQuaternion q1 q2 ratio = .ok q ∧ interpolateQuaternion q1 q2 ratio' = .ok q' ∧ sqNorm q = 1 ∧ sqNorm q' = 1 ∧
      angleBetween (toRotationMatrix q) (toRotationMatrix q') =
        |clamp01 ratio' - clamp01 ratio| * angleBetween (toRotationMatrix q1) (toRotationMatrix q2) := by
  have hu : ∀ t, sqNorm (slerp q1 t q2) = 1 := by
    intro t
    have := slerp_dot h1 h2 hl t t
    rw [sub_self, zero_mul, Real.cos_zero] at this
    exact this
  refine ⟨_, _, interpolateQuaternion_eq _ _ _, interpolateQuaternion_eq _ _ _, hu _, hu _, ?_⟩
  rw [angleBetween_unit (hu _) (hu _), angleBetween_unit h1 h2, slerp_dot h1 h2 hl]
  obtain ⟨a0, a1⟩ := clamp01_mem ratio
  obtain ⟨b0, b1⟩ := clamp01_mem ratio'
  generalize clamp01 ratio = a at a0 a1
  generalize clamp01 ratio' = b at b0 b1
  have hθ0 := Real.arccos_nonneg |q1 ⬝ᵥ q2|
  have hθ1 := Real.arccos_le_pi_div_two.mpr (abs_nonneg (q1 ⬝ᵥ q2))
  generalize Real.arccos |q1 ⬝ᵥ q2| = θ at hθ0 hθ1
  have hab : |b - a| ≤ 1 := by rw [abs_le]; constructor <;> linarith
  have hm0 : 0 ≤ |b - a| * θ := by positivity
  have hm1 : |b - a| * θ ≤ θ := by nlinarith
  have hpi := Real.pi_pos
  rw [← Real.cos_abs ((b - a) * θ), abs_mul, abs_of_nonneg hθ0, abs_of_nonneg (Real.cos_nonneg_of_mem_Icc ⟨by linarith, by linarith⟩),
    Real.arccos_cos hm0 (by linarith)]
  ring

/-- **C89.** At the ends: the first rotation for ratios up to 0, the second for ratios from 1 (the quaternion itself or its
negative, whichever is nearer to the first). -/
theorem C89_ends {q1 q2 : Vec 4} (h1 : sqNorm q1 = 1) (h2 : sqNorm q2 = 1) (ratio : ℝ) :
    (ratio ≤ 0 → interpolateQuaternion q1 q2 ratio = .ok q1) ∧
    (1 ≤ ratio → ∃ q, interpolateQuaternion q1 q2 ratio = .ok q ∧ (0 ≤ q1 ⬝ᵥ q2 → q = q2) ∧ (q1 ⬝ᵥ q2 < 0 → q = -q2) ∧
      toRotationMatrix q = toRotationMatrix q2) := by
  obtain ⟨s, hs, hsd, hneg, hnear, hfar⟩ := slerp_eq q1 q2
  have hc0 := abs_nonneg (q1 ⬝ᵥ q2)
  have heps := epsilon_pos
  have h0 : slerp q1 0 q2 = q1 ∧ slerp q1 1 q2 = s • q2 := by
    rcases lt_or_ge |q1 ⬝ᵥ q2| (1 - epsilon) with hl | hg
    · have hsin : Real.sin (Real.arccos |q1 ⬝ᵥ q2|) ≠ 0 := by
        rw [Real.sin_arccos]
        apply ne_of_gt
        apply Real.sqrt_pos.mpr
        nlinarith
      rw [hfar hl, hfar hl]
      simp [hsin]
    · rw [hnear hg, hnear hg]
      simp
  constructor
  · intro hr
    have : clamp01 ratio = 0 := by
      unfold clamp01; rw [min_eq_right (by linarith), max_eq_left hr]
    rw [interpolateQuaternion_eq, this, h0.1]
  · intro hr
    have : clamp01 ratio = 1 := by
      unfold clamp01; rw [min_eq_left hr, max_eq_right zero_le_one]
    refine ⟨s • q2, by rw [interpolateQuaternion_eq, this, h0.2], fun h => ?_, fun h => ?_, ?_⟩
    · rcases hs with rfl | rfl
      · rw [one_smul]
      · exact absurd (hneg.mpr rfl) (not_lt.mpr h)
    · rw [hneg.mp h]; simp
    · rcases hs with rfl | rfl
      · rw [one_smul]
      · rw [neg_one_smul, toRotationMatrix_neg]

/-- **C89.** Quaternions of rotations equal up to epsilon: the result is not longer than 1, and its squared length falls short of 1
by at most epsilon / 2. -/
theorem C89_near {q1 q2 : Vec 4} (h1 : sqNorm q1 = 1) (h2 : sqNorm q2 = 1) (hg : 1 - epsilon ≤ |q1 ⬝ᵥ q2|) (ratio : ℝ) :
    ∃ q, interpolateQuaternion q1 q2 ratio = .ok q ∧ 1 - epsilon / 2 ≤ sqNorm q ∧ sqNorm q ≤ 1 := by
  obtain ⟨s, hs, hsd, _, hnear, _⟩ := slerp_eq q1 q2
  refine ⟨_, interpolateQuaternion_eq _ _ _, ?_⟩
  rw [hnear hg]
  obtain ⟨a0, a1⟩ := clamp01_mem ratio
  generalize clamp01 ratio = t at a0 a1
  have hle := abs_dot_le_one h1 h2
  have hss : s * s = 1 := by rcases hs with rfl | rfl <;> norm_num
  have e : sqNorm ((1 - t) • q1 + t • (s • q2)) = 1 - 2 * (t * (1 - t)) * (1 - |q1 ⬝ᵥ q2|) := by
    rw [smul_smul, sqNorm_add, sqNorm_smul, sqNorm_smul, h1, h2, smul_dotProduct, dotProduct_smul, ← hsd, smul_eq_mul, smul_eq_mul]
    linear_combination (t * t) * hss
  rw [e]
  have ht : 0 ≤ t * (1 - t) := mul_nonneg a0 (by linarith)
  have ht4 : t * (1 - t) ≤ 1 / 4 := by nlinarith [sq_nonneg (t - 1 / 2)]
  have heps := epsilon_pos
  constructor
  · nlinarith [mul_nonneg (sub_nonneg.mpr ht4) (sub_nonneg.mpr hle)]
  · nlinarith [mul_nonneg ht (sub_nonneg.mpr hle)]

/-- **C89.** The quaternions that represent the rotations do not matter, unless the rotations are a half turn apart: exchanging one
for its negative changes at most the sign of the result. -/
theorem C89_sign {q1 q2 : Vec 4} (ratio : ℝ) (hne : q1 ⬝ᵥ q2 ≠ 0) :
    interpolateQuaternion q1 (-q2) ratio = interpolateQuaternion q1 q2 ratio ∧
    ∃ q, interpolateQuaternion q1 q2 ratio = .ok q ∧ interpolateQuaternion (-q1) q2 ratio = .ok (-q) := by
  have key : ∀ t, slerp q1 t (-q2) = slerp q1 t q2 ∧ slerp (-q1) t q2 = -slerp q1 t q2 := by
    intro t
    rcases lt_or_gt_of_ne hne with h | h
    · have h' : ¬ -(q1 ⬝ᵥ q2) < 0 := by linarith
      constructor
      · simp only [slerp, dotProduct_neg, abs_neg, if_neg h', if_pos h]
        module
      · simp only [slerp, neg_dotProduct, abs_neg, if_neg h', if_pos h]
        module
    · have h' : -(q1 ⬝ᵥ q2) < 0 := by linarith
      have h'' : ¬ q1 ⬝ᵥ q2 < 0 := by linarith
      constructor
      · simp only [slerp, dotProduct_neg, abs_neg, if_neg h'', if_pos h']
        module
      · simp only [slerp, neg_dotProduct, abs_neg, if_neg h'', if_pos h']
        module
  rw [interpolateQuaternion_eq, interpolateQuaternion_eq, interpolateQuaternion_eq]
  exact ⟨by rw [(key _).1], _, rfl, by rw [(key _).2]⟩

/-- **C89.** Poses: for every ratio the interpolation is defined, the translation is the point at the clamped ratio on the segment; at
the ends the poses themselves; if the rotations are not equal up to epsilon, a rotation that turns uniformly with the ratio. -/
theorem C89_pose {toQuat : Mat 3 → Vec 4} (htq : ∀ m, IsRotation m → sqNorm (toQuat m) = 1 ∧ toRotationMatrix (toQuat m) = m)
    {t1 t2 : Pose} (h1 : IsRotation t1.rotation) (h2 : IsRotation t2.rotation) (ratio : ℝ) :
    ∃ T, interpolatePose toQuat t1 t2 ratio = .ok T ∧
      T.translation = t1.translation + clamp01 ratio • (t2.translation - t1.translation) ∧
      (ratio ≤ 0 → T = t1) ∧ (1 ≤ ratio → T = t2) ∧
      (2 * Real.arccos (1 - epsilon) < angleBetween t1.rotation t2.rotation → IsRotation T.rotation ∧
        ∀ ratio' T', interpolatePose toQuat t1 t2 ratio' = .ok T' →
          angleBetween T.rotation T'.rotation = |clamp01 ratio' - clamp01 ratio| * angleBetween t1.rotation t2.rotation) := by
  obtain ⟨u1, e1⟩ := htq _ h1
  obtain ⟨u2, e2⟩ := htq _ h2
  have hcc : ∀ r : ℝ, clamp01 (clamp01 r) = clamp01 r := by
    intro r
    obtain ⟨a0, a1⟩ := clamp01_mem r
    generalize clamp01 r = a at a0 a1 ⊢
    unfold clamp01
    rw [min_eq_right a1, max_eq_right a0]
  have hval : ∀ r, interpolatePose toQuat t1 t2 r = .ok ⟨toRotationMatrix (slerp (toQuat t1.rotation) (clamp01 r) (toQuat t2.rotation)),
      (1 - clamp01 r) • t1.translation + clamp01 r • t2.translation⟩ := by
    intro r
    unfold interpolatePose interpolate3
    rw [clamp_ok, Res.ok_bind]
    simp only [clamp_ok, interpolateQuaternion_eq, hcc, Res.ok_bind, Res.pure_eq]
  refine ⟨_, hval ratio, ?_, ?_, ?_, ?_⟩
  · dsimp only; module
  · intro hr
    have h := (C89_ends u1 u2 ratio).1 hr
    rw [interpolateQuaternion_eq] at h
    rw [Res.ok.inj h, e1]
    have : clamp01 ratio = 0 := by unfold clamp01; rw [min_eq_right (by linarith), max_eq_left hr]
    rw [this]
    simp
  · intro hr
    obtain ⟨q, h, _, _, hq⟩ := (C89_ends u1 u2 ratio).2 hr
    rw [interpolateQuaternion_eq] at h
    rw [Res.ok.inj h, hq, e2]
    have : clamp01 ratio = 1 := by unfold clamp01; rw [min_eq_left hr, max_eq_right zero_le_one]
    rw [this]
    simp
  · intro hang
    have hl : |toQuat t1.rotation ⬝ᵥ toQuat t2.rotation| < 1 - epsilon := by
      conv at hang => rhs; rw [← e1, ← e2, angleBetween_unit u1 u2]
      by_contra hc
      push Not at hc
      have := Real.arccos_le_arccos hc
      linarith
    obtain ⟨q, _, hq, _, hqu, _, _⟩ := C89_slerp u1 u2 hl ratio ratio
    rw [interpolateQuaternion_eq] at hq
    refine ⟨by dsimp only; rw [Res.ok.inj hq]; exact toRotationMatrix_rotation hqu, ?_⟩
    intro ratio' T' hT'
    rw [hval] at hT'
    obtain ⟨q, q', hq, hq', _, _, ha⟩ := C89_slerp u1 u2 hl ratio ratio'
    rw [interpolateQuaternion_eq] at hq hq'
    rw [e1, e2] at ha
    rw [← Res.ok.inj hT']
    dsimp only
    rw [Res.ok.inj hq, Res.ok.inj hq']
    exact ha

/-! ### The hypotheses are met -/

/-- Halfway between the identity and the half turn about the x axis is the quarter turn. -/
example : ∃ q q', interpolateQuaternion ![1, 0, 0, 0] ![0, 1, 0, 0] (1 / 2) = .ok q ∧ interpolateQuaternion ![1, 0, 0, 0] ![0, 1, 0, 0] 1 = .ok q' ∧
    sqNorm q = 1 ∧ sqNorm q' = 1 ∧ angleBetween (toRotationMatrix q) (toRotationMatrix q') = Real.pi / 2 := by
  obtain ⟨q, q', h1, h2, h3, h4, h5⟩ := C89_slerp (q1 := ![1, 0, 0, 0]) (q2 := ![0, 1, 0, 0]) (by simp [sqNorm4]) (by simp [sqNorm4])
    (by rw [← dot4]; simp; linarith [epsilon_pos.2]) (1 / 2) 1
  refine ⟨q, q', h1, h2, h3, h4, ?_⟩
  rw [h5, angleBetween_unit (by simp [sqNorm4]) (by simp [sqNorm4]), ← dot4]
  simp [clamp01]
  norm_num [abs_of_pos]
  ring

end CRU.Math
