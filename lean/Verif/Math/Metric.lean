import Verif.Math.Projection
import Verif.Utility.Model
import Mathlib.Analysis.SpecialFunctions.Trigonometric.Inverse
import Mathlib.Analysis.InnerProductSpace.PiL2
import Mathlib.Geometry.Euclidean.Angle.Unoriented.TriangleInequality
import Mathlib.Tactic.LinearCombination
/-
  C69: distances between points, rotations and poses (math.cpp), over the real numbers.
-/
namespace CRU.Math

/-- math.cpp:572-588 `SquaredDistance(std::vector, std::vector)`, and 525-535 for Eigen::VectorXd. -/
def squaredDistance (p1 p2 : List ℝ) : Res ℝ :=
  if p1.length = p2.length then .ok ((p1.zip p2).foldl (fun d ab => d + (ab.2 - ab.1) * (ab.2 - ab.1)) 0) else .throw .invalidArgument

/-- math.cpp:590-600 `Distance(std::vector, std::vector)`, and 537-540 for Eigen::VectorXd. -/
noncomputable def vecDistance (p1 p2 : List ℝ) : Res ℝ :=
  if p1.length = p2.length then do
    let s ← squaredDistance p1 p2
    return Real.sqrt s
  else .throw .invalidArgument

/-- math.cpp:500-505 `SquaredDistance(Vector2d, Vector2d)`. -/
def squaredDistance2 (v1 v2 : Vec 2) : ℝ :=
  let xd := v2 0 - v1 0
  let yd := v2 1 - v1 1
  xd * xd + yd * yd

/-- math.cpp:507-510. -/
noncomputable def distance2 (v1 v2 : Vec 2) : ℝ := Real.sqrt (squaredDistance2 v1 v2)

/-- math.cpp:512-518 `SquaredDistance(Vector3d, Vector3d)`. -/
def squaredDistance3 (v1 v2 : Vec 3) : ℝ :=
  let xd := v2 0 - v1 0
  let yd := v2 1 - v1 1
  let zd := v2 2 - v1 2
  xd * xd + yd * yd + zd * zd

/-- math.cpp:520-523. -/
noncomputable def distance3 (v1 v2 : Vec 3) : ℝ := Real.sqrt (squaredDistance3 v1 v2)

/-- std::numeric_limits<double>::epsilon(). -/
noncomputable def epsilon : ℝ := 1 / 4503599627370496

open Classical in
/-- math.cpp:542-556 `Distance(Quaterniond, Quaterniond)`; a quaternion is given by (w, x, y, z). -/
noncomputable def quaternionDistance (q1 q2 : Vec 4) : ℝ :=
  let dq := |q1 0 * q2 0 + q1 1 * q2 1 + q1 2 * q2 2 + q1 3 * q2 3|
  if dq < 1 - epsilon then Real.arccos (2 * (dq * dq) - 1) else 0

/-- math.cpp:558-570 `Distance(Isometry3d, Isometry3d, alpha)`; a pose is given by its translation and its rotation quaternion (the
conversion from a rotation matrix is Eigen's). -/
noncomputable def poseDistance (t1 t2 : Vec 3 × Vec 4) (alpha : ℝ) : Res ℝ := do
  let a ← Util.clampValue alpha 0 1
  let vdist := distance3 t1.1 t2.1 * (1 - a)
  let qdist := quaternionDistance t1.2 t2.2 * a
  return vdist + qdist

/-! ### Specification -/

/-- The rotation matrix of a unit quaternion (w, x, y, z). -/
def rotationOf (q : Vec 4) : Fin 3 → Fin 3 → ℝ :=
  ![![q 0 * q 0 + q 1 * q 1 - q 2 * q 2 - q 3 * q 3, 2 * (q 1 * q 2 - q 0 * q 3), 2 * (q 1 * q 3 + q 0 * q 2)],
    ![2 * (q 1 * q 2 + q 0 * q 3), q 0 * q 0 - q 1 * q 1 + q 2 * q 2 - q 3 * q 3, 2 * (q 2 * q 3 - q 0 * q 1)],
    ![2 * (q 1 * q 3 - q 0 * q 2), 2 * (q 2 * q 3 + q 0 * q 1), q 0 * q 0 - q 1 * q 1 - q 2 * q 2 + q 3 * q 3]]

/-- The trace of R1ᵀ R2, which is 1 + 2 cos(angle of the rotation from R1 to R2). -/
def traceBetween (R1 R2 : Fin 3 → Fin 3 → ℝ) : ℝ := ∑ i, ∑ j, R1 i j * R2 i j

/-! ### Points -/

/-- A list as a vector. -/
def toVec (l : List ℝ) (n : Nat) (h : l.length = n) : Vec n := fun i => l[i.val]'(by rw [h]; exact i.isLt)

theorem foldl_sq (l : List (ℝ × ℝ)) (s : ℝ) : l.foldl (fun d ab => d + (ab.2 - ab.1) * (ab.2 - ab.1)) s =
    s + (l.map fun ab => (ab.2 - ab.1) * (ab.2 - ab.1)).sum := by
  induction l generalizing s with
  | nil => simp
  | cons a l ih => rw [List.foldl_cons, ih, List.map_cons, List.sum_cons]; ring

theorem squaredDistance_eq (p q : List ℝ) (n : Nat) (hp : p.length = n) (hq : q.length = n) :
    squaredDistance p q = .ok (sqNorm (toVec q n hq - toVec p n hp)) := by
  unfold squaredDistance
  rw [if_pos (by omega), foldl_sq, zero_add]
  congr 1
  have hl : ((p.zip q).map fun ab => (ab.2 - ab.1) * (ab.2 - ab.1)).length = n := by simp; omega
  rw [← List.ofFn_getElem (xs := (p.zip q).map fun ab => (ab.2 - ab.1) * (ab.2 - ab.1)), List.sum_ofFn]
  unfold sqNorm dotProduct
  refine Finset.sum_equiv (finCongr hl) (by simp) ?_
  intro i _
  simp [toVec]

theorem norm_add_le' {n : Nat} (v w : Vec n) : norm (v + w) ≤ norm v + norm w := by
  have h := abs_dot_le v w
  have h2 := (abs_le.mp h).2
  apply abs_le_of_sq_le_sq' _ (add_nonneg (norm_nonneg' _) (norm_nonneg' _)) |>.2
  have e1 := norm_sq (v + w)
  have e2 := norm_sq v
  have e3 := norm_sq w
  rw [sqNorm_add] at e1
  nlinarith

theorem norm_neg' {n : Nat} (v : Vec n) : norm (-v) = norm v := by
  have := norm_smul (-1) v
  rwa [neg_one_smul, abs_neg, abs_one, one_mul] at this

/-- C69: on points of equal dimension `Distance` is a metric, the square of which is `SquaredDistance`; both throw `std::invalid_argument`
exactly if the dimensions differ. The versions for two and three dimensions agree with the general one. -/
theorem C69_distance (p q r : List ℝ) :
    (p.length ≠ q.length → squaredDistance p q = .throw .invalidArgument ∧ vecDistance p q = .throw .invalidArgument) ∧
    (p.length = q.length → ∃ d, vecDistance p q = .ok d ∧ squaredDistance p q = .ok (d * d) ∧ 0 ≤ d ∧ (d = 0 ↔ p = q) ∧
      vecDistance q p = .ok d ∧
      (r.length = q.length → ∃ e f, vecDistance q r = .ok e ∧ vecDistance p r = .ok f ∧ f ≤ d + e)) ∧
    (∀ v w : Vec 2, vecDistance [v 0, v 1] [w 0, w 1] = .ok (distance2 v w) ∧ squaredDistance [v 0, v 1] [w 0, w 1] = .ok (squaredDistance2 v w)) ∧
    (∀ v w : Vec 3, vecDistance [v 0, v 1, v 2] [w 0, w 1, w 2] = .ok (distance3 v w) ∧
      squaredDistance [v 0, v 1, v 2] [w 0, w 1, w 2] = .ok (squaredDistance3 v w)) := by
  have hd : ∀ (p q : List ℝ) (n : Nat) (hp : p.length = n) (hq : q.length = n),
      vecDistance p q = .ok (norm (toVec q n hq - toVec p n hp)) := by
    intro p q n hp hq
    unfold vecDistance
    rw [if_pos (by omega), squaredDistance_eq p q n hp hq]
    rfl
  refine ⟨fun h => ?_, fun h => ?_, fun v w => ?_, fun v w => ?_⟩
  · unfold squaredDistance vecDistance
    rw [if_neg h, if_neg h]
    exact ⟨rfl, rfl⟩
  · refine ⟨_, hd p q q.length h rfl, ?_, norm_nonneg' _, ?_, ?_, ?_⟩
    · rw [norm_sq]; exact squaredDistance_eq p q q.length h rfl
    · rw [show (norm (toVec q q.length rfl - toVec p q.length h) = 0) = (Real.sqrt (sqNorm (toVec q q.length rfl - toVec p q.length h)) = 0) from rfl,
        Real.sqrt_eq_zero (sqNorm_nonneg _), sqNorm_eq_zero, sub_eq_zero]
      constructor
      · intro he
        apply List.ext_getElem h
        intro i h1 h2
        have := congrFun he ⟨i, h2⟩
        exact this.symm
      · intro he
        subst he
        rfl
    · rw [hd q p q.length rfl h, ← norm_neg', neg_sub]
    · intro hr
      refine ⟨_, _, hd q r q.length rfl hr, hd p r q.length h hr, ?_⟩
      have e : toVec r q.length hr - toVec p q.length h =
        (toVec q q.length rfl - toVec p q.length h) + (toVec r q.length hr - toVec q q.length rfl) := by abel
      rw [e]
      exact norm_add_le' _ _
  · have h2 : squaredDistance [v 0, v 1] [w 0, w 1] = .ok (squaredDistance2 v w) := by
      unfold squaredDistance squaredDistance2
      simp
    refine ⟨?_, h2⟩
    unfold vecDistance
    rw [if_pos (by simp), h2]
    rfl
  · have h2 : squaredDistance [v 0, v 1, v 2] [w 0, w 1, w 2] = .ok (squaredDistance3 v w) := by
      unfold squaredDistance squaredDistance3
      simp
    refine ⟨?_, h2⟩
    unfold vecDistance
    rw [if_pos (by simp), h2]
    rfl

example : ∃ d, vecDistance [0, 0] [3, 4] = .ok d ∧ 0 ≤ d ∧ squaredDistance [0, 0] [3, 4] = .ok (d * d) := by
  obtain ⟨d, h1, h2, h3, _⟩ := (C69_distance [0, 0] [3, 4] []).2.1 rfl
  exact ⟨d, h1, h3, h2⟩

/-! ### Rotations -/

theorem dot4 (q1 q2 : Vec 4) : q1 0 * q2 0 + q1 1 * q2 1 + q1 2 * q2 2 + q1 3 * q2 3 = q1 ⬝ᵥ q2 := by
  simp [dotProduct, Fin.sum_univ_succ]
  ring

theorem trace_dot (q1 q2 : Vec 4) (h1 : sqNorm q1 = 1) (h2 : sqNorm q2 = 1) :
    traceBetween (rotationOf q1) (rotationOf q2) = 4 * ((q1 ⬝ᵥ q2) * (q1 ⬝ᵥ q2)) - 1 := by
  have e : traceBetween (rotationOf q1) (rotationOf q2) = 4 * ((q1 ⬝ᵥ q2) * (q1 ⬝ᵥ q2)) - sqNorm q1 * sqNorm q2 := by
    unfold traceBetween rotationOf sqNorm
    rw [← dot4, ← dot4, ← dot4]
    simp only [Fin.sum_univ_three, Matrix.cons_val_zero, Matrix.cons_val_one, Matrix.cons_val]
    ring
  rw [e, h1, h2]
  ring

theorem abs_dot_le_one {q1 q2 : Vec 4} (h1 : sqNorm q1 = 1) (h2 : sqNorm q2 = 1) : |q1 ⬝ᵥ q2| ≤ 1 := by
  have h := abs_dot_le q1 q2
  have e1 : norm q1 = 1 := by unfold norm; rw [h1, Real.sqrt_one]
  have e2 : norm q2 = 1 := by unfold norm; rw [h2, Real.sqrt_one]
  rwa [e1, e2, one_mul] at h

theorem quaternionDistance_eq (q1 q2 : Vec 4) :
    (|q1 ⬝ᵥ q2| < 1 - epsilon → quaternionDistance q1 q2 = Real.arccos (2 * ((q1 ⬝ᵥ q2) * (q1 ⬝ᵥ q2)) - 1)) ∧
    (¬|q1 ⬝ᵥ q2| < 1 - epsilon → quaternionDistance q1 q2 = 0) := by
  unfold quaternionDistance
  dsimp only
  rw [dot4]
  constructor
  · intro h
    rw [if_pos h, abs_mul_abs_self]
  · intro h
    rw [if_neg h]

/-- C69: for unit quaternions the distance is the angle of the rotation between them: 1 + 2 cos(distance) is the trace of R1ᵀ R2, unless the
quaternions agree (up to sign) to within machine epsilon, when it is zero. It lies in [0, π], is symmetric, and does not
change when a quaternion is negated (which is the same rotation). -/
theorem C69_quaternion_distance (q1 q2 : Vec 4) (h1 : sqNorm q1 = 1) (h2 : sqNorm q2 = 1) :
    (|q1 ⬝ᵥ q2| < 1 - epsilon → traceBetween (rotationOf q1) (rotationOf q2) = 1 + 2 * Real.cos (quaternionDistance q1 q2)) ∧
    (1 - epsilon ≤ |q1 ⬝ᵥ q2| → quaternionDistance q1 q2 = 0) ∧
    0 ≤ quaternionDistance q1 q2 ∧ quaternionDistance q1 q2 ≤ Real.pi ∧ quaternionDistance q1 q2 = quaternionDistance q2 q1 ∧
    quaternionDistance (-q1) q2 = quaternionDistance q1 q2 ∧ quaternionDistance q1 (-q2) = quaternionDistance q1 q2 := by
  obtain ⟨a1, a2⟩ := quaternionDistance_eq q1 q2
  have hle := abs_dot_le_one h1 h2
  have hsq : (q1 ⬝ᵥ q2) * (q1 ⬝ᵥ q2) ≤ 1 := by
    rw [← abs_mul_abs_self]
    nlinarith [abs_nonneg (q1 ⬝ᵥ q2)]
  refine ⟨fun h => ?_, fun h => a2 (not_lt.mpr h), ?_, ?_, ?_, ?_, ?_⟩
  · rw [a1 h, Real.cos_arccos (by nlinarith [mul_self_nonneg (q1 ⬝ᵥ q2)]) (by linarith), trace_dot q1 q2 h1 h2]
    ring
  · by_cases h : |q1 ⬝ᵥ q2| < 1 - epsilon
    · rw [a1 h]; exact Real.arccos_nonneg _
    · rw [a2 h]
  · by_cases h : |q1 ⬝ᵥ q2| < 1 - epsilon
    · rw [a1 h]; exact Real.arccos_le_pi _
    · rw [a2 h]; exact Real.pi_pos.le
  · unfold quaternionDistance
    dsimp only
    rw [dot4, dot4, dotProduct_comm]
  · unfold quaternionDistance
    dsimp only
    rw [dot4, dot4, neg_dotProduct, abs_neg]
  · unfold quaternionDistance
    dsimp only
    rw [dot4, dot4, dotProduct_neg, abs_neg]

example : sqNorm (![1, 0, 0, 0] : Vec 4) = 1 ∧ quaternionDistance ![1, 0, 0, 0] ![0, 1, 0, 0] = Real.pi := by
  refine ⟨by norm_num [sqNorm, dotProduct, Fin.sum_univ_succ], ?_⟩
  have e : (![1, 0, 0, 0] : Vec 4) ⬝ᵥ ![0, 1, 0, 0] = 0 := by norm_num [dotProduct, Fin.sum_univ_succ]
  rw [(quaternionDistance_eq _ _).1 (by rw [e, abs_zero]; unfold epsilon; norm_num), e]
  norm_num

/-! ### Triangle inequality for rotations -/

/-- The angle between rotations, without the cut-off. -/
noncomputable def rotationAngle (q1 q2 : Vec 4) : ℝ := Real.arccos (2 * ((q1 ⬝ᵥ q2) * (q1 ⬝ᵥ q2)) - 1)

def toE (q : Vec 4) : EuclideanSpace ℝ (Fin 4) := WithLp.toLp 2 q

theorem toE_inner (q1 q2 : Vec 4) : inner ℝ (toE q1) (toE q2) = q1 ⬝ᵥ q2 := by
  rw [toE, toE, EuclideanSpace.inner_toLp_toLp, dotProduct_comm]
  simp

theorem toE_norm {q : Vec 4} (h : sqNorm q = 1) : ‖toE q‖ = 1 := by
  have := real_inner_self_eq_norm_mul_norm (toE q)
  rw [toE_inner] at this
  have e : q ⬝ᵥ q = 1 := h
  rw [e] at this
  nlinarith [norm_nonneg (toE q)]

theorem angle_eq {q1 q2 : Vec 4} (h1 : sqNorm q1 = 1) (h2 : sqNorm q2 = 1) :
    InnerProductGeometry.angle (toE q1) (toE q2) = Real.arccos (q1 ⬝ᵥ q2) := by
  unfold InnerProductGeometry.angle
  rw [toE_norm h1, toE_norm h2, toE_inner]
  simp

/-- The angle between rotations is twice the angle between the lines through the quaternions. -/
theorem rotationAngle_eq {q1 q2 : Vec 4} (h1 : sqNorm q1 = 1) (h2 : sqNorm q2 = 1) :
    rotationAngle q1 q2 = 2 * Real.arccos |q1 ⬝ᵥ q2| := by
  have hle := abs_dot_le_one h1 h2
  unfold rotationAngle
  rw [← abs_mul_abs_self]
  have hx := abs_nonneg (q1 ⬝ᵥ q2)
  generalize |q1 ⬝ᵥ q2| = x at hle hx ⊢
  · have e : 2 * (x * x) - 1 = Real.cos (2 * Real.arccos x) := by
      rw [Real.cos_two_mul, Real.cos_arccos (by linarith) hle]; ring
    rw [e, Real.arccos_cos (by have := Real.arccos_nonneg x; linarith)]
    have := Real.arccos_le_pi_div_two.mpr hx
    linarith

theorem exists_sign (x : ℝ) : ∃ s : ℝ, (s = 1 ∨ s = -1) ∧ s * x = |x| := by
  rcases abs_cases x with ⟨h, _⟩ | ⟨h, _⟩
  · exact ⟨1, Or.inl rfl, by rw [h, one_mul]⟩
  · exact ⟨-1, Or.inr rfl, by rw [h]; ring⟩

theorem sqNorm_sign {s : ℝ} (hs : s = 1 ∨ s = -1) {q : Vec 4} (h : sqNorm q = 1) : sqNorm (s • q) = 1 := by
  rw [sqNorm_smul, h]
  rcases hs with rfl | rfl <;> norm_num

/-- The angle between rotations satisfies the triangle inequality. -/
theorem rotationAngle_triangle {a b c : Vec 4} (ha : sqNorm a = 1) (hb : sqNorm b = 1) (hc : sqNorm c = 1) :
    rotationAngle a c ≤ rotationAngle a b + rotationAngle b c := by
  rw [rotationAngle_eq ha hc, rotationAngle_eq ha hb, rotationAngle_eq hb hc]
  obtain ⟨s, hs, es⟩ := exists_sign (a ⬝ᵥ b)
  obtain ⟨t, ht, et⟩ := exists_sign ((s • b) ⬝ᵥ c)
  have hb' := sqNorm_sign hs hb
  have hc' := sqNorm_sign ht hc
  have h := InnerProductGeometry.angle_le_angle_add_angle (toE a) (toE (s • b)) (toE (t • c))
  rw [angle_eq ha hc', angle_eq ha hb', angle_eq hb' hc'] at h
  have e1 : a ⬝ᵥ (s • b) = |a ⬝ᵥ b| := by rw [dotProduct_smul, smul_eq_mul, es]
  have e2 : (s • b) ⬝ᵥ (t • c) = |b ⬝ᵥ c| := by
    rw [dotProduct_smul, smul_eq_mul, et, smul_dotProduct, smul_eq_mul, abs_mul]
    rcases hs with rfl | rfl <;> norm_num
  have e3 : a ⬝ᵥ (t • c) ≤ |a ⬝ᵥ c| := by
    rw [dotProduct_smul, smul_eq_mul]
    rcases ht with rfl | rfl
    · rw [one_mul]; exact le_abs_self _
    · rw [neg_one_mul]; exact neg_le_abs _
  rw [e1, e2] at h
  have h4 := Real.arccos_le_arccos e3
  linarith

/-- The angle below which the code returns zero (about 4.2e-8). -/
noncomputable def cutoff : ℝ := 2 * Real.arccos (1 - epsilon)

theorem epsilon_pos : 0 < epsilon ∧ epsilon < 1 := by unfold epsilon; constructor <;> norm_num

theorem quaternionDistance_near {a b : Vec 4} (ha : sqNorm a = 1) (hb : sqNorm b = 1) :
    quaternionDistance a b ≤ rotationAngle a b ∧ rotationAngle a b ≤ quaternionDistance a b + cutoff := by
  obtain ⟨a1, a2⟩ := quaternionDistance_eq a b
  by_cases h : |a ⬝ᵥ b| < 1 - epsilon
  · rw [a1 h]
    refine ⟨le_refl _, ?_⟩
    have := Real.arccos_nonneg (1 - epsilon)
    unfold cutoff rotationAngle
    linarith
  · rw [a2 h]
    push Not at h
    refine ⟨Real.arccos_nonneg _, ?_⟩
    rw [rotationAngle_eq ha hb, zero_add]
    unfold cutoff
    have := Real.arccos_le_arccos h
    linarith

/-- C69: the triangle inequality for rotations, up to twice the cut-off angle below which rotations count as equal. (Missing: the
exact inequality, which is false, see `C69_quaternion_triangle_false`.) -/
theorem C69_quaternion_triangle_partial {a b c : Vec 4} (ha : sqNorm a = 1) (hb : sqNorm b = 1) (hc : sqNorm c = 1) :
    quaternionDistance a c ≤ quaternionDistance a b + quaternionDistance b c + 2 * cutoff ∧
    (|a ⬝ᵥ b| < 1 - epsilon → |b ⬝ᵥ c| < 1 - epsilon → quaternionDistance a c ≤ quaternionDistance a b + quaternionDistance b c) := by
  have h := rotationAngle_triangle ha hb hc
  have h1 := (quaternionDistance_near ha hc).1
  refine ⟨?_, fun h2 h3 => ?_⟩
  · have h2 := (quaternionDistance_near ha hb).2
    have h3 := (quaternionDistance_near hb hc).2
    linarith
  · rw [(quaternionDistance_eq a b).1 h2, (quaternionDistance_eq b c).1 h3]
    exact le_trans h1 h

/-- Three rotations about one axis: both steps count as no rotation at all, but together they do not. -/
theorem C69_quaternion_triangle_false : ∃ a b c : Vec 4, sqNorm a = 1 ∧ sqNorm b = 1 ∧ sqNorm c = 1 ∧
    quaternionDistance a b = 0 ∧ quaternionDistance b c = 0 ∧ 0 < quaternionDistance a c := by
  -- t = 2^-27; cosine and sine of the half-angle step are rational
  let C : ℝ := 18014398509481983 / 18014398509481985
  let S : ℝ := 268435456 / 18014398509481985
  have hC : C = 18014398509481983 / 18014398509481985 := rfl
  have hS : S = 268435456 / 18014398509481985 := rfl
  refine ⟨![1, 0, 0, 0], ![C, S, 0, 0], ![C * C - S * S, 2 * S * C, 0, 0], ?_, ?_, ?_, ?_, ?_, ?_⟩
  · norm_num [sqNorm, dotProduct, Fin.sum_univ_succ]
  · norm_num [sqNorm, dotProduct, Fin.sum_univ_succ, hC, hS]
  · norm_num [sqNorm, dotProduct, Fin.sum_univ_succ, hC, hS]
  · have e : (![1, 0, 0, 0] : Vec 4) ⬝ᵥ ![C, S, 0, 0] = C := by norm_num [dotProduct, Fin.sum_univ_succ]
    apply (quaternionDistance_eq _ _).2
    rw [e, hC, abs_of_pos (by norm_num)]
    unfold epsilon
    norm_num
  · have e : (![C, S, 0, 0] : Vec 4) ⬝ᵥ ![C * C - S * S, 2 * S * C, 0, 0] = C := by norm_num [dotProduct, Fin.sum_univ_succ, hC, hS]
    apply (quaternionDistance_eq _ _).2
    rw [e, hC, abs_of_pos (by norm_num)]
    unfold epsilon
    norm_num
  · have e : (![1, 0, 0, 0] : Vec 4) ⬝ᵥ ![C * C - S * S, 2 * S * C, 0, 0] = C * C - S * S := by norm_num [dotProduct, Fin.sum_univ_succ]
    have hp : 0 < C * C - S * S := by rw [hC, hS]; norm_num
    rw [(quaternionDistance_eq _ _).1 (by rw [e, abs_of_pos hp, hC, hS]; unfold epsilon; norm_num), e]
    rw [Real.arccos_pos, hC, hS]
    norm_num

/-- C69: `alpha` is clamped to [0, 1]; for 0 it is the distance of the translations, for 1 that of the rotations, in between the
weighted mean; hence it is symmetric and never negative. -/
theorem C69_pose_distance (t1 t2 : Vec 3 × Vec 4) (alpha : ℝ) :
    (∀ a, Util.clampValue alpha 0 1 = .ok a → poseDistance t1 t2 alpha = poseDistance t1 t2 a) ∧
    (0 ≤ alpha → alpha ≤ 1 → poseDistance t1 t2 alpha = .ok (distance3 t1.1 t2.1 * (1 - alpha) + quaternionDistance t1.2 t2.2 * alpha)) ∧
    (alpha ≤ 0 → poseDistance t1 t2 alpha = .ok (distance3 t1.1 t2.1)) ∧
    (1 ≤ alpha → poseDistance t1 t2 alpha = .ok (quaternionDistance t1.2 t2.2)) ∧
    poseDistance t1 t2 alpha = poseDistance t2 t1 alpha ∧ ∃ d, poseDistance t1 t2 alpha = .ok d ∧ (sqNorm t1.2 = 1 → sqNorm t2.2 = 1 → 0 ≤ d) := by
  have hin : ∀ x : ℝ, 0 ≤ x → x ≤ 1 → Util.clampValue x (0 : ℝ) 1 = .ok x := by
    intro x h0 h1
    unfold Util.clampValue
    rw [if_pos (by norm_num), if_neg (not_lt.mpr h0), if_neg (not_lt.mpr h1)]
  have hlo : ∀ x : ℝ, x ≤ 0 → Util.clampValue x (0 : ℝ) 1 = .ok 0 := by
    intro x h0
    rcases eq_or_lt_of_le h0 with rfl | h
    · exact hin 0 (le_refl _) (by norm_num)
    · unfold Util.clampValue
      rw [if_pos (by norm_num), if_pos h]
  have hhi : ∀ x : ℝ, 1 ≤ x → Util.clampValue x (0 : ℝ) 1 = .ok 1 := by
    intro x h0
    rcases eq_or_lt_of_le h0 with rfl | h
    · exact hin 1 (by norm_num) (le_refl _)
    · unfold Util.clampValue
      rw [if_pos (by norm_num), if_neg (by linarith), if_pos h]
  have hex : ∃ a, Util.clampValue alpha (0 : ℝ) 1 = .ok a ∧ 0 ≤ a ∧ a ≤ 1 := by
    rcases le_total alpha 0 with h | h
    · exact ⟨0, hlo _ h, le_refl _, by norm_num⟩
    · rcases le_total alpha 1 with h' | h'
      · exact ⟨alpha, hin _ h h', h, h'⟩
      · exact ⟨1, hhi _ h', by norm_num, le_refl _⟩
  have hv : ∀ (s1 s2 : Vec 3 × Vec 4) x a, Util.clampValue x (0 : ℝ) 1 = .ok a →
      poseDistance s1 s2 x = .ok (distance3 s1.1 s2.1 * (1 - a) + quaternionDistance s1.2 s2.2 * a) := by
    intro s1 s2 x a h
    unfold poseDistance
    rw [h]
    rfl
  have hs3 : distance3 t1.1 t2.1 = distance3 t2.1 t1.1 := by
    unfold distance3 squaredDistance3
    congr 1
    dsimp only
    ring
  have hsq : quaternionDistance t1.2 t2.2 = quaternionDistance t2.2 t1.2 := by
    unfold quaternionDistance
    dsimp only
    rw [dot4, dot4, dotProduct_comm]
  obtain ⟨a, ha, h0, h1⟩ := hex
  refine ⟨fun b hb => ?_, fun g0 g1 => hv _ _ _ _ (hin _ g0 g1), fun g => ?_, fun g => ?_, ?_, ⟨_, hv _ _ _ _ ha, fun u1 u2 => ?_⟩⟩
  · rw [ha] at hb
    cases hb
    rw [hv _ _ _ _ ha, hv _ _ _ _ (hin _ h0 h1)]
  · rw [hv _ _ _ _ (hlo _ g)]; simp
  · rw [hv _ _ _ _ (hhi _ g)]; simp
  · rw [hv _ _ _ _ ha, hv _ _ _ _ ha, hs3, hsq]
  · have d1 : 0 ≤ distance3 t1.1 t2.1 := Real.sqrt_nonneg _
    have d2 := (C69_quaternion_distance t1.2 t2.2 u1 u2).2.2.1
    have := mul_nonneg d1 (by linarith : 0 ≤ 1 - a)
    have := mul_nonneg d2 h0
    linarith

end CRU.Math
