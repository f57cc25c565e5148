import Verif.Math.Average
import Verif.Math.Fit
import Verif.Math.Quaternion
import Mathlib.Analysis.Matrix.Spectrum
/-
  C86: the average of rotations and of poses (math.cpp `AverageEigenQuaterniond`, `AverageEigenIsometry3d`), over the real numbers.
  Eigen's `EigenSolver` is a parameter; what is assumed about it, for the matrix at hand only, is `EigenContract`: unit
  eigenvectors, with their eigenvalues, and no eigenvalue is missing.
-/
namespace CRU.Math
open Matrix

/-- The real parts of what `Eigen::EigenSolver<Matrix4d>` returns (math.cpp:815-821, 840-845). -/
structure EigenResult where
  values : Fin 4 → ℝ
  vectors : Fin 4 → Vec 4

/-- math.cpp:804-810: the columns of the averaging matrix. -/
noncomputable def scaledColumns (quaternions : List (Vec 4)) (weights : List ℝ) : Res (List (Vec 4)) :=
  (List.range quaternions.length).mapM fun idx => do
    let weight ← weightAt weights idx
    let q ← atRaw quaternions idx
    return weight • q

/-- math.cpp:812-813: the matrix times its transpose. -/
def gram (columns : List (Vec 4)) : Mat 4 := Matrix.of fun i j => (columns.map fun c => c i * c j).sum

open Classical in
/-- math.cpp:825-834: one turn of the loop; `none` is the initial state (maximum -infinity, index -1). -/
noncomputable def maxStep (values : Fin 4 → ℝ) (best : Option (Fin 4)) (idx : Fin 4) : Option (Fin 4) :=
  match best with
  | none => some idx
  | some b => if values idx > values b then some idx else some b

/-- math.cpp:823-834: the index of the largest eigenvalue. -/
noncomputable def maxIndex (values : Fin 4 → ℝ) : Option (Fin 4) := (List.finRange 4).foldl (maxStep values) none

open Classical in
/-- math.cpp:791-801 and 860-870: the shortcut for a single element. -/
noncomputable def single {α : Type} (values : List α) (weights : List ℝ) : Res α :=
  if weights.length > 0 then do
    let w ← atRaw weights 0
    if |w| = 0 then .throw .invalidArgument else atRaw values 0
  else atRaw values 0

/-- math.cpp:776-846 `AverageEigenQuaterniond`. -/
noncomputable def averageQuaternion (solver : Mat 4 → EigenResult) (quaternions : List (Vec 4)) (weights : List ℝ) : Res (Vec 4) :=
  if quaternions.length = 0 then .throw .invalidArgument
  else if weights.length ≠ quaternions.length ∧ weights.length ≠ 0 then .throw .invalidArgument
  else if quaternions.length = 1 then single quaternions weights
  else do
    let columns ← scaledColumns quaternions weights
    let r := solver (gram columns)
    match maxIndex r.values with
    | none => .throw .runtimeError
    | some k => .ok (r.vectors k)

/-- An `Eigen::Isometry3d`: rotation matrix and translation. -/
structure Pose where
  rotation : Mat 3
  translation : Vec 3

/-- math.cpp:848-890 `AverageEigenIsometry3d`; `toQuat` is Eigen's conversion of a rotation matrix to a quaternion. -/
noncomputable def averagePose (toQuat : Mat 3 → Vec 4) (solver : Mat 4 → EigenResult) (transforms : List Pose) (weights : List ℝ) : Res Pose :=
  if transforms.length = 0 then .throw .invalidArgument
  else if weights.length ≠ transforms.length ∧ weights.length ≠ 0 then .throw .invalidArgument
  else if transforms.length = 1 then single transforms weights
  else do
    let translations := transforms.map Pose.translation
    let rotations := transforms.map fun t => toQuat t.rotation
    let averageTranslation ← average translations weights
    let averageRotation ← averageQuaternion solver rotations weights
    return ⟨toRotationMatrix averageRotation, averageTranslation⟩

/-! ### Specification -/

/-- What is assumed about the eigenvalue solver for the symmetric matrix `a`. -/
structure EigenContract (a : Mat 4) (r : EigenResult) : Prop where
  eigen : ∀ k, a *ᵥ r.vectors k = r.values k • r.vectors k
  unit : ∀ k, sqNorm (r.vectors k) = 1
  complete : ∀ (μ : ℝ) (v : Vec 4), v ≠ 0 → a *ᵥ v = μ • v → ∃ k, r.values k = μ

/-- Squared (Frobenius) distance of two matrices: the sum of the squared differences of the entries. For rotations it is
8 sin²(θ/2), where θ is the angle between them. -/
def matrixDistance (a b : Mat 3) : ℝ := ∑ i, ∑ j, (a i j - b i j) ^ 2

/-- The weighted sum of the squared distances of the given rotations from `r`, with the weights `ws`. -/
def spread (rotations : List (Mat 3)) (ws : List ℝ) (r : Mat 3) : ℝ :=
  (List.zipWith (fun w q => w * matrixDistance r q) ws rotations).sum

/-- The matrix for which the eigenvalue solver is called: Σ w² q qᵀ. -/
noncomputable def averagingMatrix (quaternions : List (Vec 4)) (weights : List ℝ) : Mat 4 :=
  gram (List.zipWith (fun (w : ℝ) q => w • q) (weightsOf quaternions weights) quaternions)

/-! ### Proofs -/

theorem maxStep_fold (values : Fin 4 → ℝ) : ∀ (l : List (Fin 4)) (b : Fin 4),
    ∃ k, l.foldl (maxStep values) (some b) = some k ∧ values b ≤ values k ∧ ∀ i ∈ l, values i ≤ values k := by
  intro l
  induction l with
  | nil => intro b; exact ⟨b, rfl, le_refl _, by simp⟩
  | cons a l ih =>
    intro b
    rw [List.foldl_cons]
    unfold maxStep
    by_cases h : values a > values b
    · simp only [h, if_true]
      obtain ⟨k, hk, hb, hl⟩ := ih a
      refine ⟨k, hk, by linarith, ?_⟩
      intro i hi
      rcases List.mem_cons.mp hi with rfl | hi
      · exact hb
      · exact hl i hi
    · simp only [h, if_false]
      obtain ⟨k, hk, hb, hl⟩ := ih b
      refine ⟨k, hk, hb, ?_⟩
      intro i hi
      rcases List.mem_cons.mp hi with rfl | hi
      · linarith
      · exact hl i hi

theorem maxIndex_some (values : Fin 4 → ℝ) : ∃ k, maxIndex values = some k ∧ ∀ i, values i ≤ values k := by
  unfold maxIndex
  rw [List.finRange_succ, List.foldl_cons]
  obtain ⟨k, hk, hb, hl⟩ := maxStep_fold values ((List.finRange 3).map Fin.succ) 0
  refine ⟨k, by rw [← hk]; rfl, ?_⟩
  intro i
  have : i ∈ (0 : Fin 4) :: (List.finRange 3).map Fin.succ := by
    rw [← List.finRange_succ]; exact List.mem_finRange i
  rcases List.mem_cons.mp this with rfl | hi
  · exact hb
  · exact hl i hi

theorem mapM_ok {α β : Type} (f : α → Res β) (g : α → β) : ∀ (l : List α), (∀ a ∈ l, f a = .ok (g a)) → l.mapM f = .ok (l.map g) := by
  intro l
  induction l with
  | nil => intro _; rfl
  | cons a l ih =>
    intro h
    rw [List.mapM_cons, h a (by simp), Res.ok_bind, ih (fun b hb => h b (by simp [hb])), Res.ok_bind]
    rfl

theorem scaledColumns_eq {quaternions : List (Vec 4)} {weights : List ℝ}
    (h : weights.length = quaternions.length ∨ weights.length = 0) :
    scaledColumns quaternions weights =
      .ok (List.zipWith (fun (w : ℝ) q => w • q) (weightsOf quaternions weights) quaternions) := by
  have hlen := weightsOf_length h
  unfold scaledColumns
  rw [mapM_ok _ (fun idx => ((weightsOf quaternions weights)[idx]?.getD 0) • (quaternions[idx]?.getD 0))]
  · congr 1
    apply List.ext_getElem
    · simp [hlen]
    · intro i h1 h2
      have hi : i < quaternions.length := by simpa using h1
      simp [hi, hlen]
  · intro idx hidx
    have hi : idx < quaternions.length := by simpa using hidx
    rw [weight_read h hi, Res.ok_bind]
    have : atRaw quaternions idx = .ok quaternions[idx] := by unfold atRaw; rw [List.getElem?_eq_getElem hi]
    rw [this, Res.ok_bind]
    simp [hi, hlen]

theorem averageQuaternion_eq (solver : Mat 4 → EigenResult) {quaternions : List (Vec 4)} {weights : List ℝ}
    (h2 : 2 ≤ quaternions.length) (h : weights.length = quaternions.length ∨ weights = []) :
    ∃ k, averageQuaternion solver quaternions weights = .ok ((solver (averagingMatrix quaternions weights)).vectors k) ∧
      ∀ i, (solver (averagingMatrix quaternions weights)).values i ≤ (solver (averagingMatrix quaternions weights)).values k := by
  have h' : weights.length = quaternions.length ∨ weights.length = 0 := h.imp id (fun h => by simp [h])
  obtain ⟨k, hk, hmax⟩ := maxIndex_some (solver (averagingMatrix quaternions weights)).values
  refine ⟨k, ?_, hmax⟩
  unfold averageQuaternion
  rw [if_neg (by omega), if_neg (by omega), if_neg (by omega), scaledColumns_eq h', Res.ok_bind]
  unfold averagingMatrix at hk ⊢
  simp only [hk]

theorem gram_symm (c : List (Vec 4)) : (gram c)ᵀ = gram c := by
  ext i j
  unfold gram
  rw [transpose_apply, Matrix.of_apply, Matrix.of_apply]
  congr 1
  apply List.map_congr_left
  intro c _
  ring

theorem gram_quadratic (c : List (Vec 4)) (x : Vec 4) : x ⬝ᵥ (gram c *ᵥ x) = (c.map fun v => (x ⬝ᵥ v) ^ 2).sum := by
  induction c with
  | nil => simp [gram, dotProduct, mulVec]
  | cons a c ih =>
    have h : gram (a :: c) = (Matrix.of fun i j => a i * a j : Mat 4) + gram c := by
      ext i j; simp [gram]
    rw [h, add_mulVec, dotProduct_add, ih, List.map_cons, List.sum_cons]
    congr 1
    simp [dotProduct, mulVec, Fin.sum_univ_four]
    ring

/-- No unit vector has a larger quadratic form than the largest eigenvalue. -/
theorem rayleigh {a : Mat 4} (ha : aᵀ = a) {M : ℝ} (hM : ∀ (μ : ℝ) (v : Vec 4), v ≠ 0 → a *ᵥ v = μ • v → μ ≤ M) (x : Vec 4) :
    x ⬝ᵥ (a *ᵥ x) ≤ M * sqNorm x := by
  have hA : a.IsHermitian := by
    unfold Matrix.IsHermitian
    rw [conjTranspose_eq_transpose_of_trivial]; exact ha
  let b := hA.eigenvectorBasis
  let e : Fin 4 → Vec 4 := fun k => (b k).ofLp
  have heig : ∀ k, a *ᵥ e k = hA.eigenvalues k • e k := fun k => hA.mulVec_eigenvectorBasis k
  have hne : ∀ k, e k ≠ 0 := by
    intro k h
    have : b k = 0 := by
      have h2 := congrArg (WithLp.toLp 2) h
      simpa [e] using h2
    have h1 := b.orthonormal.1 k
    rw [this, norm_zero] at h1
    exact zero_ne_one h1
  have hle : ∀ k, hA.eigenvalues k ≤ M := fun k => hM _ _ (hne k) (heig k)
  have hin : ∀ u v : Vec 4, inner ℝ (WithLp.toLp 2 u) (WithLp.toLp 2 v) = u ⬝ᵥ v := fun u v => toE_inner u v
  have hexp : ∀ u v : Vec 4, u ⬝ᵥ v = ∑ k, (u ⬝ᵥ e k) * (e k ⬝ᵥ v) := by
    intro u v
    rw [← hin, ← b.sum_inner_mul_inner]
    apply Finset.sum_congr rfl
    intro k _
    rw [← hin, ← hin]
  have hsym : ∀ u v : Vec 4, u ⬝ᵥ (a *ᵥ v) = (a *ᵥ u) ⬝ᵥ v := by
    intro u v
    rw [dotProduct_mulVec, ← mulVec_transpose, ha]
  have h1 : x ⬝ᵥ (a *ᵥ x) = ∑ k, hA.eigenvalues k * (x ⬝ᵥ e k) ^ 2 := by
    rw [hexp x (a *ᵥ x)]
    apply Finset.sum_congr rfl
    intro k _
    rw [hsym, heig, smul_dotProduct, dotProduct_comm (e k) x, smul_eq_mul]
    ring
  have h2 : sqNorm x = ∑ k, (x ⬝ᵥ e k) ^ 2 := by
    rw [sqNorm, hexp x x]
    apply Finset.sum_congr rfl
    intro k _
    rw [dotProduct_comm (e k) x]
    ring
  rw [h1, h2, Finset.mul_sum]
  apply Finset.sum_le_sum
  intro k _
  exact mul_le_mul_of_nonneg_right (hle k) (sq_nonneg _)

/-- The maximiser. -/
theorem averageQuaternion_max (solver : Mat 4 → EigenResult) {quaternions : List (Vec 4)} {weights : List ℝ}
    (h2 : 2 ≤ quaternions.length) (h : weights.length = quaternions.length ∨ weights = [])
    (hs : EigenContract (averagingMatrix quaternions weights) (solver (averagingMatrix quaternions weights))) :
    ∃ q, averageQuaternion solver quaternions weights = .ok q ∧ sqNorm q = 1 ∧
      ∀ p : Vec 4, sqNorm p = 1 → p ⬝ᵥ (averagingMatrix quaternions weights *ᵥ p) ≤ q ⬝ᵥ (averagingMatrix quaternions weights *ᵥ q) := by
  obtain ⟨k, hk, hmax⟩ := averageQuaternion_eq solver h2 h
  refine ⟨_, hk, hs.unit k, ?_⟩
  intro p hp
  have hr := rayleigh (gram_symm _ : (averagingMatrix quaternions weights)ᵀ = _) (M := (solver (averagingMatrix quaternions weights)).values k)
    (fun μ v hv hav => by
      obtain ⟨l, hl⟩ := hs.complete μ v hv hav
      exact hl ▸ hmax l) p
  rw [hp, mul_one] at hr
  rw [hs.eigen k, dotProduct_smul]
  have := hs.unit k
  unfold sqNorm at this
  rw [this]
  simpa [averagingMatrix] using hr

theorem zipWith_form (ws : List ℝ) (qs : List (Vec 4)) (p : Vec 4) :
    p ⬝ᵥ (gram (List.zipWith (fun (w : ℝ) q => w • q) ws qs) *ᵥ p) = (List.zipWith (fun w q => w ^ 2 * (p ⬝ᵥ q) ^ 2) ws qs).sum := by
  rw [gram_quadratic, List.map_zipWith]
  congr 2
  funext w q
  rw [dotProduct_smul, smul_eq_mul]
  ring

/-- Distance of the rotations of two unit quaternions. -/
theorem matrixDistance_unit {p q : Vec 4} (hp : sqNorm p = 1) (hq : sqNorm q = 1) :
    matrixDistance (toRotationMatrix p) (toRotationMatrix q) = 8 * (1 - (p ⬝ᵥ q) ^ 2) := by
  rw [toRotationMatrix_unit hp, toRotationMatrix_unit hq, ← dot4]
  rw [sqNorm4] at hp hq
  have hpq : (p 0 * p 0 + p 1 * p 1 + p 2 * p 2 + p 3 * p 3) * (q 0 * q 0 + q 1 * q 1 + q 2 * q 2 + q 3 * q 3) = 1 := by rw [hp, hq, one_mul]
  have hp2 : (p 0 * p 0 + p 1 * p 1 + p 2 * p 2 + p 3 * p 3) ^ 2 = 1 := by rw [hp]; norm_num
  have hq2 : (q 0 * q 0 + q 1 * q 1 + q 2 * q 2 + q 3 * q 3) ^ 2 = 1 := by rw [hq]; norm_num
  simp [matrixDistance, rotationOf, Fin.sum_univ_three]
  linear_combination 3 * hp2 + 3 * hq2 + 2 * hpq

theorem spread_eq : ∀ (ws : List ℝ) (qs : List (Vec 4)) {p : Vec 4}, sqNorm p = 1 → (∀ q ∈ qs, sqNorm q = 1) → ws.length = qs.length →
    spread (qs.map toRotationMatrix) (ws.map fun w => w ^ 2) (toRotationMatrix p) =
      8 * (ws.map fun w => w ^ 2).sum - 8 * (List.zipWith (fun w q => w ^ 2 * (p ⬝ᵥ q) ^ 2) ws qs).sum := by
  intro ws
  induction ws with
  | nil => intro qs p hp hq hl; simp [spread]
  | cons w ws ih =>
    intro qs p hp hq hl
    cases qs with
    | nil => simp at hl
    | cons q qs =>
      have := ih qs hp (fun q' h => hq q' (by simp [h])) (by simpa using hl)
      unfold spread at this ⊢
      simp only [List.map_cons, List.zipWith_cons_cons, List.sum_cons] at this ⊢
      rw [this, matrixDistance_unit hp (hq q (by simp))]
      ring

/-- **C86.** For at least two unit quaternions, weights absent or one per quaternion, and any result of the eigenvalue solver: the
result is a unit quaternion whose rotation has the smallest weighted sum of squared distances from the given rotations, of all
rotations. The weights act by their squares. -/
theorem C86_quaternion_mean (solver : Mat 4 → EigenResult) {quaternions : List (Vec 4)} {weights : List ℝ}
    (h2 : 2 ≤ quaternions.length) (hw : weights.length = quaternions.length ∨ weights = [])
    (hunit : ∀ q ∈ quaternions, sqNorm q = 1)
    (hs : EigenContract (averagingMatrix quaternions weights) (solver (averagingMatrix quaternions weights))) :
    ∃ q, averageQuaternion solver quaternions weights = .ok q ∧ sqNorm q = 1 ∧ IsRotation (toRotationMatrix q) ∧
      ∀ r : Mat 3, IsRotation r →
        spread (quaternions.map toRotationMatrix) ((weightsOf quaternions weights).map fun w => w ^ 2) (toRotationMatrix q) ≤
        spread (quaternions.map toRotationMatrix) ((weightsOf quaternions weights).map fun w => w ^ 2) r := by
  obtain ⟨q, hq, hq1, hmax⟩ := averageQuaternion_max solver h2 hw hs
  refine ⟨q, hq, hq1, toRotationMatrix_rotation hq1, ?_⟩
  intro r hr
  obtain ⟨hp1, hpr⟩ := ofRotationMatrix_spec hr
  have hlen := weightsOf_length (hw.imp id (fun h => by simp [h]) : weights.length = quaternions.length ∨ weights.length = 0)
  rw [← hpr, spread_eq _ _ hq1 hunit hlen, spread_eq _ _ hp1 hunit hlen]
  have := hmax _ hp1
  unfold averagingMatrix at this
  rw [zipWith_form, zipWith_form] at this
  linarith

theorem dot_eq_one {p q : Vec 4} (hp : sqNorm p = 1) (hq : sqNorm q = 1) (h : 1 ≤ (p ⬝ᵥ q) ^ 2) : p = q ∨ p = -q := by
  have hsub : ∀ c : ℝ, sqNorm (p + c • q) = 1 + 2 * c * (p ⬝ᵥ q) + c * c := by
    intro c
    rw [sqNorm_add, sqNorm_smul, hp, hq, dotProduct_smul, smul_eq_mul]
    ring
  have hz : ∀ c : ℝ, sqNorm (p + c • q) ≤ 0 → p = -(c • q) := fun c hc =>
    eq_neg_of_add_eq_zero_left (sqNorm_eq_zero.mp (le_antisymm hc (sqNorm_nonneg _)))
  rcases le_total 0 (p ⬝ᵥ q) with h0 | h0
  · left
    have := hz (-1) (by rw [hsub]; nlinarith)
    simpa using this
  · right
    have := hz 1 (by rw [hsub]; nlinarith)
    simpa using this

/-- The sum of the squared weights. -/
theorem sum_sq_pos {ws : List ℝ} (h : ∃ w ∈ ws, w ≠ 0) : 0 < (ws.map fun w => w ^ 2).sum := by
  obtain ⟨w, hw, hw0⟩ := h
  have hnn : ∀ x ∈ ws.map (fun w => w ^ 2), (0 : ℝ) ≤ x := by
    intro x hx
    obtain ⟨y, _, rfl⟩ := List.mem_map.mp hx
    exact sq_nonneg _
  have hle := List.single_le_sum hnn (w ^ 2) (List.mem_map.mpr ⟨w, hw, rfl⟩)
  have : 0 < w ^ 2 := by positivity
  linarith

theorem weightsOf_ne {quaternions : List (Vec 4)} {weights : List ℝ} (hne : quaternions ≠ []) (hw : weights = [] ∨ ∃ w ∈ weights, w ≠ 0) :
    ∃ w ∈ weightsOf quaternions weights, w ≠ 0 := by
  unfold weightsOf
  split
  · obtain ⟨q, qs, rfl⟩ := List.exists_cons_of_ne_nil hne
    exact ⟨1, by simp, one_ne_zero⟩
  · rename_i h
    obtain ⟨w, hw, hw0⟩ := hw.resolve_left h
    exact ⟨|w|, List.mem_map.mpr ⟨w, hw, rfl⟩, abs_ne_zero.mpr hw0⟩

/-- **C86.** The average of copies of one rotation, given by either of its two quaternions, is this rotation. -/
theorem C86_quaternion_common (solver : Mat 4 → EigenResult) {quaternions : List (Vec 4)} {weights : List ℝ} {c : Vec 4}
    (h2 : 2 ≤ quaternions.length) (hw : weights.length = quaternions.length ∨ weights = [])
    (hnz : weights = [] ∨ ∃ w ∈ weights, w ≠ 0) (hc : sqNorm c = 1) (hall : ∀ q ∈ quaternions, q = c ∨ q = -c)
    (hs : EigenContract (averagingMatrix quaternions weights) (solver (averagingMatrix quaternions weights))) :
    ∃ q, averageQuaternion solver quaternions weights = .ok q ∧ (q = c ∨ q = -c) ∧ toRotationMatrix q = toRotationMatrix c := by
  obtain ⟨q, hq, hq1, hmax⟩ := averageQuaternion_max solver h2 hw hs
  have hlen := weightsOf_length (hw.imp id (fun h => by simp [h]) : weights.length = quaternions.length ∨ weights.length = 0)
  have hform : ∀ (ws : List ℝ) (qs : List (Vec 4)) (p : Vec 4), ws.length = qs.length → (∀ q ∈ qs, q = c ∨ q = -c) →
      (List.zipWith (fun w q => w ^ 2 * (p ⬝ᵥ q) ^ 2) ws qs).sum = (ws.map fun w => w ^ 2).sum * (p ⬝ᵥ c) ^ 2 := by
    intro ws
    induction ws with
    | nil => intro qs p _ _; simp
    | cons w ws ih =>
      intro qs p hl hqs
      cases qs with
      | nil => simp at hl
      | cons a qs =>
        rw [List.zipWith_cons_cons, List.sum_cons, ih qs p (by simpa using hl) (fun q h => hqs q (by simp [h])), List.map_cons, List.sum_cons]
        have : (p ⬝ᵥ a) ^ 2 = (p ⬝ᵥ c) ^ 2 := by
          rcases hqs a (by simp) with rfl | rfl
          · rfl
          · rw [dotProduct_neg]; ring
        rw [this]
        ring
  have h1 := hmax c hc
  unfold averagingMatrix at h1
  rw [zipWith_form, zipWith_form, hform _ _ _ hlen hall, hform _ _ _ hlen hall] at h1
  have hpos := sum_sq_pos (weightsOf_ne (quaternions := quaternions) (by rintro rfl; simp at h2) hnz)
  have hcc : (c ⬝ᵥ c) = 1 := hc
  rw [hcc] at h1
  have hge : 1 ≤ (q ⬝ᵥ c) ^ 2 := by
    by_contra hlt
    push Not at hlt
    have := mul_lt_mul_of_pos_left hlt hpos
    linarith
  have := dot_eq_one hq1 hc hge
  refine ⟨q, hq, this, ?_⟩
  rcases this with rfl | rfl
  · rfl
  · exact toRotationMatrix_neg c

/-- **C86.** Which of its two quaternions represents a rotation does not matter: the outcome is the same. -/
theorem C86_quaternion_sign (solver : Mat 4 → EigenResult) {quaternions quaternions' : List (Vec 4)} {weights : List ℝ}
    (h2 : 2 ≤ quaternions.length) (h : List.Forall₂ (fun q q' => q' = q ∨ q' = -q) quaternions quaternions') :
    averageQuaternion solver quaternions' weights = averageQuaternion solver quaternions weights := by
  have hl := h.length_eq
  by_cases hw : weights.length = quaternions.length ∨ weights = []
  · have hw' : weights.length = quaternions.length ∨ weights.length = 0 := hw.imp id (fun h => by simp [h])
    unfold averageQuaternion
    rw [if_neg (by omega), if_neg (by omega), if_neg (by omega), if_neg (by omega), if_neg (by omega), if_neg (by omega),
      scaledColumns_eq hw', scaledColumns_eq (by rw [← hl]; exact hw'), Res.ok_bind, Res.ok_bind]
    have hwo : weightsOf quaternions' weights = weightsOf quaternions weights := by
      unfold weightsOf
      split
      · simp [hl]
      · rfl
    rw [hwo]
    have hg : ∀ (ws : List ℝ) (a b : List (Vec 4)), List.Forall₂ (fun q q' => q' = q ∨ q' = -q) a b →
        gram (List.zipWith (fun (w : ℝ) q => w • q) ws b) = gram (List.zipWith (fun (w : ℝ) q => w • q) ws a) := by
      intro ws a b hab
      ext i j
      simp only [gram, of_apply]
      congr 1
      induction hab generalizing ws with
      | nil => rfl
      | @cons q q' a b hq hab ih =>
        cases ws with
        | nil => rfl
        | cons w ws =>
          simp only [List.zipWith_cons_cons, List.map_cons]
          rw [ih ws]
          congr 1
          rcases hq with rfl | rfl
          · rfl
          · simp
    rw [hg _ _ _ h]
  · push Not at hw
    have h0 : weights.length ≠ 0 := by simpa using hw.2
    unfold averageQuaternion
    rw [if_neg (by omega), if_pos ⟨by omega, h0⟩, if_neg (by omega), if_pos ⟨hw.1, h0⟩]

/-- **C86.** One element is returned as it is, unless it has weight 0; no elements, or weights of another number, are rejected. -/
theorem C86_quaternion_cases (solver : Mat 4 → EigenResult) (quaternions : List (Vec 4)) (weights : List ℝ) :
    (∀ q, averageQuaternion solver [q] [] = .ok q) ∧ (∀ q w, w ≠ 0 → averageQuaternion solver [q] [w] = .ok q) ∧
    (∀ q, averageQuaternion solver [q] [0] = .throw .invalidArgument) ∧
    (quaternions = [] → averageQuaternion solver quaternions weights = .throw .invalidArgument) ∧
    (weights ≠ [] → weights.length ≠ quaternions.length → averageQuaternion solver quaternions weights = .throw .invalidArgument) := by
  refine ⟨fun q => ?_, fun q w hw => ?_, fun q => ?_, ?_, ?_⟩
  · simp [averageQuaternion, single, atRaw]
  · simp [averageQuaternion, single, atRaw, hw]
  · simp [averageQuaternion, single, atRaw]
  · rintro rfl; rfl
  · intro hw hl
    have h0 : weights.length ≠ 0 := by simpa using hw
    unfold averageQuaternion
    split
    · rfl
    · rw [if_pos ⟨hl, h0⟩]

/-- **C86, the exception that is not thrown.** Unlike the averages of vectors (C51), several quaternions whose weights are all 0 are
not rejected: the result does not depend on them at all. -/
theorem C86_zero_weights_false (solver : Mat 4 → EigenResult) {quaternions : List (Vec 4)} {weights : List ℝ}
    (h2 : 2 ≤ quaternions.length) (hw : weights.length = quaternions.length) (h0 : ∀ w ∈ weights, w = 0) :
    ∃ k, averageQuaternion solver quaternions weights = .ok ((solver 0).vectors k) := by
  obtain ⟨k, hk, _⟩ := averageQuaternion_eq solver h2 (Or.inl hw)
  refine ⟨k, ?_⟩
  rw [hk]
  have : averagingMatrix quaternions weights = 0 := by
    unfold averagingMatrix
    have hz : ∀ w ∈ weightsOf quaternions weights, w = 0 := by
      unfold weightsOf
      rw [if_neg (by rintro rfl; simp at hw; omega)]
      intro w hw'
      obtain ⟨a, ha, rfl⟩ := List.mem_map.mp hw'
      rw [h0 a ha, abs_zero]
    ext i j
    simp only [gram, of_apply, Matrix.zero_apply]
    apply List.sum_eq_zero
    intro x hx
    obtain ⟨c, hc, rfl⟩ := List.mem_map.mp hx
    obtain ⟨n, hn, rfl⟩ := List.getElem_of_mem hc
    simp only [List.getElem_zipWith]
    rw [hz _ (List.getElem_mem _)]
    simp
  rw [this]

/-- **C86.** The average pose: the translation is the weighted mean of the translations (C51, weights by absolute value), the rotation
the mean rotation (weights by their squares). `toQuat` may be any conversion that inverts the one to matrices (Eigen's does:
`ofRotationMatrix_spec`). -/
theorem C86_pose_mean {toQuat : Mat 3 → Vec 4} (htq : ∀ m, IsRotation m → sqNorm (toQuat m) = 1 ∧ toRotationMatrix (toQuat m) = m)
    (solver : Mat 4 → EigenResult) {transforms : List Pose} {weights : List ℝ}
    (h2 : 2 ≤ transforms.length) (hw : weights.length = transforms.length ∨ weights = []) (hnz : weights = [] ∨ ∃ w ∈ weights, w ≠ 0)
    (hrot : ∀ t ∈ transforms, IsRotation t.rotation)
    (hs : EigenContract (averagingMatrix (transforms.map fun t => toQuat t.rotation) weights)
      (solver (averagingMatrix (transforms.map fun t => toQuat t.rotation) weights))) :
    ∃ T, averagePose toQuat solver transforms weights = .ok T ∧ IsRotation T.rotation ∧
      T.translation = (weightsOf transforms weights).sum⁻¹ • weightedSum (weightsOf transforms weights) (transforms.map Pose.translation) ∧
      ∀ r : Mat 3, IsRotation r →
        spread (transforms.map Pose.rotation) ((weightsOf transforms weights).map fun w => w ^ 2) T.rotation ≤
        spread (transforms.map Pose.rotation) ((weightsOf transforms weights).map fun w => w ^ 2) r := by
  have hwo : ∀ {β : Type} (f : Pose → β), weightsOf (transforms.map f) weights = weightsOf transforms weights := by
    intro β f
    unfold weightsOf
    split
    · rw [List.map_map]; rfl
    · rfl
  have hne : transforms ≠ [] := by rintro rfl; simp at h2
  have hw0 : weights.length = transforms.length ∨ weights.length = 0 := hw.imp id (fun h => by simp [h])
  obtain ⟨q, hq, hq1, hqr, hmin⟩ := C86_quaternion_mean solver (quaternions := transforms.map fun t => toQuat t.rotation) (weights := weights)
    (by simpa using h2) (by simpa using hw)
    (by intro q hq; obtain ⟨t, ht, rfl⟩ := List.mem_map.mp hq; exact (htq _ (hrot t ht)).1) hs
  obtain ⟨_, ht⟩ := (C51_average (transforms.map Pose.translation) weights).1 (by simpa using hne) (by simpa using hw) hnz
  rw [hwo] at ht
  refine ⟨⟨toRotationMatrix q, (weightsOf transforms weights).sum⁻¹ • weightedSum (weightsOf transforms weights) (transforms.map Pose.translation)⟩,
    ?_, hqr, rfl, ?_⟩
  · unfold averagePose
    rw [if_neg (by omega), if_neg (by omega), if_neg (by omega)]
    dsimp only
    rw [ht, Res.ok_bind, hq, Res.ok_bind]
    rfl
  · rw [hwo] at hmin
    have : (transforms.map fun t => toQuat t.rotation).map toRotationMatrix = transforms.map Pose.rotation := by
      rw [List.map_map]
      apply List.map_congr_left
      intro t ht
      exact (htq _ (hrot t ht)).2
    rw [this] at hmin
    exact hmin

/-- **C86.** The exceptions of the average pose; all weights 0 is rejected here. -/
theorem C86_pose_cases (toQuat : Mat 3 → Vec 4) (solver : Mat 4 → EigenResult) (transforms : List Pose) (weights : List ℝ) :
    (∀ t, averagePose toQuat solver [t] [] = .ok t) ∧ (∀ t w, w ≠ 0 → averagePose toQuat solver [t] [w] = .ok t) ∧
    (transforms = [] → averagePose toQuat solver transforms weights = .throw .invalidArgument) ∧
    (weights ≠ [] → (∀ w ∈ weights, w = 0) → averagePose toQuat solver transforms weights = .throw .invalidArgument) ∧
    (weights ≠ [] → weights.length ≠ transforms.length → averagePose toQuat solver transforms weights = .throw .invalidArgument) := by
  refine ⟨fun q => ?_, fun q w hw => ?_, ?_, ?_, ?_⟩
  · simp [averagePose, single, atRaw]
  · simp [averagePose, single, atRaw, hw]
  · rintro rfl; rfl
  · intro hw hz
    have h0 : weights.length ≠ 0 := by simpa using hw
    unfold averagePose
    split
    · rfl
    · split
      · rfl
      · rename_i hl
        have hl' : weights.length = transforms.length := by
          by_contra hc; exact hl ⟨hc, h0⟩
        split
        · obtain ⟨w, ws, rfl⟩ := List.exists_cons_of_ne_nil hw
          have := hz w (by simp)
          simp [single, atRaw, this]
        · dsimp only
          rw [(C51_average (transforms.map Pose.translation) weights).2 (Or.inr (Or.inr ⟨hw, hz⟩)), Res.throw_bind]
  · intro hw hl
    have h0 : weights.length ≠ 0 := by simpa using hw
    unfold averagePose
    split
    · rfl
    · rw [if_pos ⟨hl, h0⟩]

/-! ### The hypotheses are met -/

/-- The identity with weight 2 and the half turn about the x axis with weight 1. -/
def twoRotations : List (Vec 4) := [![1, 0, 0, 0], ![0, 1, 0, 0]]

theorem twoRotations_matrix : averagingMatrix twoRotations [2, 1] = diagonal ![4, 1, 0, 0] := by
  ext i j
  fin_cases i <;> fin_cases j <;> simp [averagingMatrix, gram, twoRotations, weightsOf] <;> norm_num

theorem twoRotations_contract : EigenContract (diagonal ![4, 1, 0, 0]) ⟨![4, 1, 0, 0], fun k => unitVec k⟩ := by
  refine ⟨fun k => ?_, fun k => ?_, fun μ v hv h => ?_⟩
  · funext i
    rw [mulVec_diagonal]
    fin_cases k <;> fin_cases i <;> simp [unitVec]
  · rw [sqNorm4]
    fin_cases k <;> simp [unitVec]
  · obtain ⟨i, hi⟩ : ∃ i, v i ≠ 0 := by
      by_contra hc
      push Not at hc
      exact hv (funext hc)
    refine ⟨i, ?_⟩
    have := congrFun h i
    rw [mulVec_diagonal, Pi.smul_apply, smul_eq_mul] at this
    exact mul_right_cancel₀ hi this

example : ∃ q, averageQuaternion (fun _ => ⟨![4, 1, 0, 0], fun k => unitVec k⟩) twoRotations [2, 1] = .ok q ∧ sqNorm q = 1 ∧
    IsRotation (toRotationMatrix q) ∧
      ∀ r : Mat 3, IsRotation r →
        spread (twoRotations.map toRotationMatrix) ((weightsOf twoRotations [2, 1]).map fun w => w ^ 2) (toRotationMatrix q) ≤
        spread (twoRotations.map toRotationMatrix) ((weightsOf twoRotations [2, 1]).map fun w => w ^ 2) r := by
  apply C86_quaternion_mean _ (by simp [twoRotations]) (Or.inl (by simp [twoRotations]))
  · intro q hq
    simp [twoRotations] at hq
    rcases hq with rfl | rfl <;> simp [sqNorm4]
  · rw [twoRotations_matrix]
    exact twoRotations_contract

/-- **C86, what the weights do not mean.** The identity with weight 3/2 and twice the half turn about the x axis with weight 1: the
result is the identity, although the half turn has the smaller sum of distances with these weights. -/
theorem C86_plain_weights_false : ∃ (solver : Mat 4 → EigenResult) (quaternions : List (Vec 4)) (weights : List ℝ) (q : Vec 4) (r : Mat 3),
    EigenContract (averagingMatrix quaternions weights) (solver (averagingMatrix quaternions weights)) ∧
    (∀ p ∈ quaternions, sqNorm p = 1) ∧ averageQuaternion solver quaternions weights = .ok q ∧ IsRotation r ∧
    spread (quaternions.map toRotationMatrix) weights r < spread (quaternions.map toRotationMatrix) weights (toRotationMatrix q) := by
  have hm : averagingMatrix [![1, 0, 0, 0], ![0, 1, 0, 0], ![0, 1, 0, 0]] [3 / 2, 1, 1] = diagonal ![9 / 4, 2, 0, 0] := by
    ext i j
    fin_cases i <;> fin_cases j <;> simp [averagingMatrix, gram, weightsOf] <;> norm_num [abs_of_pos]
  have hc : EigenContract (diagonal ![9 / 4, 2, 0, 0]) ⟨![9 / 4, 2, 0, 0], fun k => unitVec k⟩ := by
    refine ⟨fun k => ?_, fun k => ?_, fun μ v hv h => ?_⟩
    · funext i
      rw [mulVec_diagonal]
      fin_cases k <;> fin_cases i <;> simp [unitVec]
    · rw [sqNorm4]
      fin_cases k <;> simp [unitVec]
    · obtain ⟨i, hi⟩ : ∃ i, v i ≠ 0 := by
        by_contra hc
        push Not at hc
        exact hv (funext hc)
      refine ⟨i, ?_⟩
      have := congrFun h i
      rw [mulVec_diagonal, Pi.smul_apply, smul_eq_mul] at this
      exact mul_right_cancel₀ hi this
  have hu0 : sqNorm (![1, 0, 0, 0] : Vec 4) = 1 := by simp [sqNorm4]
  have hu1 : sqNorm (![0, 1, 0, 0] : Vec 4) = 1 := by simp [sqNorm4]
  obtain ⟨k, hk, hmax⟩ := averageQuaternion_eq (fun _ => ⟨![9 / 4, 2, 0, 0], fun k => unitVec k⟩)
    (quaternions := [![1, 0, 0, 0], ![0, 1, 0, 0], ![0, 1, 0, 0]]) (weights := [3 / 2, 1, 1]) (by simp) (Or.inl rfl)
  have hk0 : k = 0 := by
    have := hmax 0
    fin_cases k <;> first | rfl | (norm_num at this)
  subst hk0
  refine ⟨_, _, _, _, toRotationMatrix ![0, 1, 0, 0], ?_, ?_, hk, toRotationMatrix_rotation hu1, ?_⟩
  · rw [hm]; exact hc
  · intro p hp
    simp at hp
    rcases hp with rfl | rfl
    · exact hu0
    · exact hu1
  · have he : (unitVec 0 : Vec 4) = ![1, 0, 0, 0] := by
      funext i; fin_cases i <;> simp [unitVec]
    dsimp only
    rw [he]
    simp only [spread, List.map_cons, List.map_nil, List.zipWith_cons_cons, List.zipWith_nil_left, List.sum_cons, List.sum_nil]
    rw [matrixDistance_unit hu1 hu0, matrixDistance_unit hu1 hu1, matrixDistance_unit hu0 hu0, matrixDistance_unit hu0 hu1]
    simp
    norm_num

end CRU.Math
