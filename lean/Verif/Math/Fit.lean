import Verif.Math.Average
import Verif.Math.Projection
import Mathlib.LinearAlgebra.Matrix.NonsingularInverse
import Mathlib.Data.Matrix.Mul
import Mathlib.Data.Fin.VecNotation
/-
  C85: the best-fit hyperplane of a set of points (math.cpp `FitPlaneToPoints`), over the real numbers. Eigen's `JacobiSVD` is
  a parameter; what is assumed about it, for the matrix at hand only, is the textbook definition of a thin singular value
  decomposition (`IsThinSvd`), with the singular values in any order.
-/
namespace CRU.Math
open Matrix

variable {d N : Nat}

/-- What `Eigen::JacobiSVD<MatrixXd>` with `ComputeThinU | ComputeThinV` returns for a `d × N` matrix (math.cpp:947-953). -/
structure ThinSvd (d N : Nat) where
  u : Matrix (Fin d) (Fin (min d N)) ℝ
  sigma : Fin (min d N) → ℝ
  v : Matrix (Fin N) (Fin (min d N)) ℝ

/-- math.cpp:939-945: the columns are the points minus the centroid. -/
def centered (points : List (Vec d)) (centroid : Vec d) : Matrix (Fin d) (Fin points.length) ℝ :=
  fun i j => (points[j] - centroid) i

open Classical in
/-- math.cpp:957-965: one turn of the loop; `none` is the initial state (minimum infinity, index -1). -/
noncomputable def minStep {m : Nat} (sigma : Fin m → ℝ) (best : Option (Fin m)) (idx : Fin m) : Option (Fin m) :=
  match best with
  | none => some idx
  | some b => if sigma idx < sigma b then some idx else some b

/-- math.cpp:955-965: the index of the least singular value. -/
noncomputable def minIndex {m : Nat} (sigma : Fin m → ℝ) : Option (Fin m) := (List.finRange m).foldl (minStep sigma) none

/-- math.cpp:934-978 `FitPlaneToPoints`, for points of dimension `d`. -/
noncomputable def fitPlane (svd : (N : Nat) → Matrix (Fin d) (Fin N) ℝ → ThinSvd d N) (points : List (Vec d)) : Res (Hyperplane d) := do
  let centroid ← average points ([] : List ℝ)
  let s := svd points.length (centered points centroid)
  match minIndex s.sigma with
  | none => .throw .runtimeError
  | some k => Hyperplane.make centroid (normalized fun i => s.u i k)

/-! ### Specification -/

/-- `s` is a thin singular value decomposition of `x`. -/
structure IsThinSvd (x : Matrix (Fin d) (Fin N) ℝ) (s : ThinSvd d N) : Prop where
  product : x = s.u * diagonal s.sigma * s.v.transpose
  u_orthonormal : s.u.transpose * s.u = 1
  v_orthonormal : s.v.transpose * s.v = 1
  nonneg : ∀ k, 0 ≤ s.sigma k

/-- The sum of the squared distances of the points from the plane through `o` with unit normal `n`. -/
def cost (points : List (Vec d)) (o n : Vec d) : ℝ := (points.map fun p => ((p - o) ⬝ᵥ n) ^ 2).sum

/-- The arithmetic mean. -/
noncomputable def mean (points : List (Vec d)) : Vec d := (points.length : ℝ)⁻¹ • points.sum

/-! ### Proofs -/

theorem minStep_fold {m : Nat} (sigma : Fin m → ℝ) : ∀ (l : List (Fin m)) (b : Fin m),
    ∃ k, l.foldl (minStep sigma) (some b) = some k ∧ sigma k ≤ sigma b ∧ ∀ i ∈ l, sigma k ≤ sigma i := by
  intro l
  induction l with
  | nil => intro b; exact ⟨b, rfl, le_refl _, by simp⟩
  | cons a l ih =>
    intro b
    rw [List.foldl_cons]
    unfold minStep
    by_cases h : sigma a < sigma b
    · simp only [h, if_true]
      obtain ⟨k, hk, hb, hl⟩ := ih a
      refine ⟨k, hk, by linarith, ?_⟩
      intro i hi
      rcases List.mem_cons.mp hi with rfl | hi
      · exact hb
      · exact hl i hi
    · simp only [h, if_false]
      obtain ⟨k, hk, hb, hl⟩ := ih b
      refine ⟨k, hk, hb, ?_⟩
      intro i hi
      rcases List.mem_cons.mp hi with rfl | hi
      · linarith
      · exact hl i hi

theorem minIndex_some {m : Nat} (sigma : Fin m → ℝ) (hm : 0 < m) : ∃ k, minIndex sigma = some k ∧ ∀ i, sigma k ≤ sigma i := by
  obtain ⟨m, rfl⟩ : ∃ m', m = m' + 1 := ⟨m - 1, by omega⟩
  unfold minIndex
  rw [List.finRange_succ, List.foldl_cons]
  obtain ⟨k, hk, hb, hl⟩ := minStep_fold sigma ((List.finRange m).map Fin.succ) 0
  refine ⟨k, by rw [← hk]; rfl, ?_⟩
  intro i
  have : i ∈ (0 : Fin (m + 1)) :: (List.finRange m).map Fin.succ := by
    rw [← List.finRange_succ]; exact List.mem_finRange i
  rcases List.mem_cons.mp this with rfl | hi
  · exact hb
  · exact hl i hi

theorem list_sum_eq_finset {α : Type} (l : List α) (f : α → ℝ) : (l.map f).sum = ∑ j : Fin l.length, f l[j] := by
  rw [← List.sum_ofFn]
  congr 1
  apply List.ext_getElem
  · simp
  · intro i h1 h2; simp

/-- The cost with the centroid as the origin is the squared norm of `xᵀ n`. -/
theorem cost_eq (points : List (Vec d)) (o n : Vec d) :
    cost points o n = sqNorm ((centered points o).transpose *ᵥ n) := by
  unfold cost
  rw [list_sum_eq_finset]
  unfold sqNorm dotProduct
  apply Finset.sum_congr rfl
  intro j _
  rw [sq]
  rfl

theorem average_mean {points : List (Vec d)} (h : points ≠ []) : average points ([] : List ℝ) = .ok (mean points) := by
  obtain ⟨_, h2⟩ := (C51_average points ([] : List ℝ)).1 h (Or.inr rfl) (Or.inl rfl)
  rw [h2]
  congr 1
  unfold mean weightsOf weightedSum
  have h1 : ∀ l : List (Vec d), (List.zipWith (fun (w : ℝ) v => w • v) (l.map fun _ => (1 : ℝ)) l) = l := by
    intro l
    induction l with
    | nil => rfl
    | cons a l ih => simp only [List.map_cons, List.zipWith_cons_cons, one_smul, ih]
  simp only [if_true, h1]
  congr 2
  simp

theorem sqNorm_orthonormal {a b : Nat} {v : Matrix (Fin a) (Fin b) ℝ} (hv : v.transpose * v = 1) (w : Vec b) :
    sqNorm (v *ᵥ w) = sqNorm w := by
  unfold sqNorm
  rw [dotProduct_mulVec, ← mulVec_transpose, mulVec_mulVec, hv, one_mulVec]

theorem sqNorm_diagonal {a : Nat} (s w : Vec a) : sqNorm (diagonal s *ᵥ w) = ∑ k, s k ^ 2 * w k ^ 2 := by
  unfold sqNorm dotProduct
  apply Finset.sum_congr rfl
  intro k _
  rw [mulVec_diagonal]
  ring

theorem svd_cost {x : Matrix (Fin d) (Fin N) ℝ} {s : ThinSvd d N} (hs : IsThinSvd x s) (n : Vec d) :
    sqNorm (x.transpose *ᵥ n) = ∑ k, s.sigma k ^ 2 * ((s.u.transpose *ᵥ n) k) ^ 2 := by
  have h : x.transpose = s.v * (diagonal s.sigma * s.u.transpose) := by
    rw [hs.product, transpose_mul, transpose_mul, transpose_transpose, diagonal_transpose]
  rw [h, ← mulVec_mulVec, sqNorm_orthonormal hs.v_orthonormal, ← mulVec_mulVec, sqNorm_diagonal]

theorem u_column {x : Matrix (Fin d) (Fin N) ℝ} {s : ThinSvd d N} (hs : IsThinSvd x s) (k : Fin (min d N)) :
    s.u.transpose *ᵥ (fun i => s.u i k) = fun l => if l = k then 1 else 0 := by
  funext l
  have := congrFun (congrFun hs.u_orthonormal l) k
  rw [one_apply] at this
  rw [← this]
  rfl

theorem u_unit {x : Matrix (Fin d) (Fin N) ℝ} {s : ThinSvd d N} (hs : IsThinSvd x s) (k : Fin (min d N)) :
    sqNorm (fun i => s.u i k) = 1 := by
  have := congrFun (u_column hs k) k
  simp only [if_true] at this
  exact this

theorem cost_shift (points : List (Vec d)) (hp : points ≠ []) (o n : Vec d) :
    cost points o n = cost points (mean points) n + points.length * ((mean points - o) ⬝ᵥ n) ^ 2 := by
  have hl : (points.length : ℝ) ≠ 0 := by
    have : points.length ≠ 0 := by simpa using hp
    exact_mod_cast this
  have hsum : ∀ (l : List (Vec d)) (c : Vec d), (l.map fun p => (p - c) ⬝ᵥ n).sum = (l.sum - (l.length : ℝ) • c) ⬝ᵥ n := by
    intro l c
    induction l with
    | nil => simp
    | cons a l ih =>
      rw [List.map_cons, List.sum_cons, ih, List.sum_cons, ← add_dotProduct, List.length_cons]
      congr 1
      push_cast
      module
  have hzero : (points.map fun p => (p - mean points) ⬝ᵥ n).sum = 0 := by
    rw [hsum]
    unfold mean
    rw [smul_smul, mul_inv_cancel₀ hl, one_smul, sub_self, zero_dotProduct]
  have hexp : ∀ (l : List (Vec d)), (l.map fun p => ((p - o) ⬝ᵥ n) ^ 2).sum =
      (l.map fun p => ((p - mean points) ⬝ᵥ n) ^ 2).sum + 2 * ((mean points - o) ⬝ᵥ n) * (l.map fun p => (p - mean points) ⬝ᵥ n).sum +
        l.length * ((mean points - o) ⬝ᵥ n) ^ 2 := by
    intro l
    induction l with
    | nil => simp
    | cons a l ih =>
      simp only [List.map_cons, List.sum_cons, List.length_cons]
      rw [ih]
      have h : (a - o) ⬝ᵥ n = (a - mean points) ⬝ᵥ n + (mean points - o) ⬝ᵥ n := by
        rw [← add_dotProduct]; congr 1; abel
      rw [h]
      push_cast
      ring
  unfold cost
  rw [hexp, hzero]
  ring

/-- The least singular value is 0 when there are fewer points than dimensions. -/
theorem sigma_zero {points : List (Vec d)} (hp : points ≠ []) (hlt : points.length < d) {s : ThinSvd d points.length}
    (hs : IsThinSvd (centered points (mean points)) s) : ∃ k, s.sigma k = 0 := by
  by_contra hc
  push Not at hc
  -- the centered columns add up to 0
  have hone : centered points (mean points) *ᵥ (fun _ => (1 : ℝ)) = 0 := by
    funext i
    have hl : (points.length : ℝ) ≠ 0 := by
      have : points.length ≠ 0 := by simpa using hp
      exact_mod_cast this
    have h1 : (centered points (mean points) *ᵥ (fun _ => (1 : ℝ))) i = ∑ j : Fin points.length, (points[j] i - mean points i) := by
      unfold mulVec dotProduct centered
      apply Finset.sum_congr rfl
      intro j _
      simp
    rw [h1, Finset.sum_sub_distrib, ← list_sum_eq_finset points (fun p => p i)]
    have h2 : points.sum i = (points.map fun p => p i).sum := by
      clear * -
      induction points with
      | nil => rfl
      | cons a l ih => simp [ih]
    unfold mean
    simp only [Finset.sum_const, Finset.card_univ, Fintype.card_fin, Pi.smul_apply, smul_eq_mul, nsmul_eq_mul, Pi.zero_apply]
    rw [← h2]
    field_simp
    ring
  have hm : min d points.length = points.length := by omega
  -- σₖ (vᵀ 1)ₖ = 0
  have h0 : s.v.transpose *ᵥ (fun _ => (1 : ℝ)) = 0 := by
    have h := congrArg (fun w => s.u.transpose *ᵥ w) hone
    simp only [mulVec_zero] at h
    rw [hs.product, ← mulVec_mulVec, ← mulVec_mulVec, mulVec_mulVec _ s.u.transpose s.u, hs.u_orthonormal, one_mulVec] at h
    funext k
    have hk := congrFun h k
    rw [mulVec_diagonal] at hk
    simpa [hc k] using hk
  -- v is square, so vᵀ is injective
  have hvv : s.v * s.v.transpose = 1 := by
    have e : Fin (min d points.length) ≃ Fin points.length := finCongr hm
    exact (Matrix.mul_eq_one_comm_of_equiv e).mp hs.v_orthonormal
  have h1 : (fun _ => (1 : ℝ)) = (0 : Fin points.length → ℝ) := by
    rw [← one_mulVec (fun _ : Fin points.length => (1 : ℝ)), ← hvv, ← mulVec_mulVec, h0, mulVec_zero]
  have hl : 0 < points.length := List.length_pos_iff.mpr hp
  exact one_ne_zero (congrFun h1 ⟨0, hl⟩)

theorem normalized_unit {n : Nat} {v : Vec n} (h : sqNorm v = 1) : normalized v = v := by
  unfold normalized norm
  rw [h, Real.sqrt_one]
  simp

theorem sqNorm_sum {n : Nat} (v : Vec n) : sqNorm v = ∑ k, v k ^ 2 := by
  unfold sqNorm dotProduct
  exact Finset.sum_congr rfl fun k _ => (sq _).symm

theorem fit_eq {svd : (N : Nat) → Matrix (Fin d) (Fin N) ℝ → ThinSvd d N} {points : List (Vec d)} (hp : points ≠ [])
    (hd : 0 < d) (hs : IsThinSvd (centered points (mean points)) (svd points.length (centered points (mean points)))) :
    ∃ n : Vec d, fitPlane svd points = .ok ⟨mean points, n⟩ ∧ sqNorm n = 1 ∧
      ∀ n', sqNorm n' = 1 → cost points (mean points) n ≤ cost points (mean points) n' := by
  have hl : 0 < points.length := List.length_pos_iff.mpr hp
  generalize hsv : svd points.length (centered points (mean points)) = s at hs
  obtain ⟨k, hk, hmin⟩ := minIndex_some s.sigma (by omega : 0 < min d points.length)
  refine ⟨fun i => s.u i k, ?_, u_unit hs k, ?_⟩
  · unfold fitPlane
    rw [average_mean hp, Res.ok_bind]
    simp only [hsv, hk]
    rw [normalized_unit (u_unit hs k)]
    unfold Hyperplane.make
    simp
  · intro n' hn'
    rw [cost_eq, cost_eq, svd_cost hs, svd_cost hs, u_column hs k]
    have hL : ∑ l, s.sigma l ^ 2 * (if l = k then (1 : ℝ) else 0) ^ 2 = s.sigma k ^ 2 := by
      rw [Finset.sum_eq_single k]
      · simp
      · intro b _ hb; simp [hb]
      · intro h; exact absurd (Finset.mem_univ _) h
    rw [hL]
    by_cases hlt : points.length < d
    · obtain ⟨z, hz⟩ := sigma_zero hp hlt hs
      have : s.sigma k = 0 := le_antisymm (hz ▸ hmin z) (hs.nonneg k)
      rw [this]
      have : 0 ≤ ∑ l, s.sigma l ^ 2 * ((s.u.transpose *ᵥ n') l) ^ 2 := Finset.sum_nonneg fun l _ => by positivity
      simpa using this
    · have e : Fin (min d points.length) ≃ Fin d := finCongr (by omega)
      have huu : s.u * s.u.transpose = 1 := (Matrix.mul_eq_one_comm_of_equiv e).mp hs.u_orthonormal
      have hn : sqNorm (s.u.transpose *ᵥ n') = 1 := by
        rw [sqNorm_orthonormal (by rw [transpose_transpose]; exact huu), hn']
      have hge : ∑ l, s.sigma k ^ 2 * ((s.u.transpose *ᵥ n') l) ^ 2 ≤ ∑ l, s.sigma l ^ 2 * ((s.u.transpose *ᵥ n') l) ^ 2 := by
        apply Finset.sum_le_sum
        intro l _
        apply mul_le_mul_of_nonneg_right _ (sq_nonneg _)
        exact pow_le_pow_left₀ (hs.nonneg k) (hmin l) 2
      rw [← Finset.mul_sum, ← sqNorm_sum, hn, mul_one] at hge
      exact hge

/-- **C85.** For points that are not empty, of dimension at least 1, and any decomposition of the centred points that Eigen may
return: the plane returned passes through the mean of the points, its normal is a unit vector, and no plane at all has a smaller
sum of squared distances. -/
theorem C85_best_fit {svd : (N : Nat) → Matrix (Fin d) (Fin N) ℝ → ThinSvd d N} {points : List (Vec d)} (hp : points ≠ [])
    (hd : 0 < d) (hs : IsThinSvd (centered points (mean points)) (svd points.length (centered points (mean points)))) :
    ∃ h : Hyperplane d, fitPlane svd points = .ok h ∧ h.origin = mean points ∧ sqNorm h.normal = 1 ∧
      ∀ o n : Vec d, sqNorm n = 1 → cost points h.origin h.normal ≤ cost points o n := by
  obtain ⟨n, h1, h2, h3⟩ := fit_eq hp hd hs
  refine ⟨_, h1, rfl, h2, ?_⟩
  intro o n' hn'
  rw [cost_shift points hp o n']
  have := h3 n' hn'
  have h4 : 0 ≤ (points.length : ℝ) * ((mean points - o) ⬝ᵥ n') ^ 2 := by positivity
  linarith

/-- The cost is the sum of the squared distances to the plane that the library itself reports. -/
theorem C85_cost_distance {points : List (Vec d)} {h : Hyperplane d} (hn : sqNorm h.normal = 1) :
    cost points h.origin h.normal = (points.map h.sqDistance).sum := by
  unfold cost
  congr 1
  apply List.map_congr_left
  intro p _
  unfold Hyperplane.sqDistance vectorProjection
  rw [hn]
  simp only [gt_iff_lt, zero_lt_one, if_true, div_one]
  rw [sqNorm_smul, hn, dotProduct_comm]
  ring

/-- **C85.** Points of a common plane are all on the plane returned; in particular up to `d` points always are. -/
theorem C85_coplanar {svd : (N : Nat) → Matrix (Fin d) (Fin N) ℝ → ThinSvd d N} {points : List (Vec d)} (hp : points ≠ [])
    (hd : 0 < d) (hs : IsThinSvd (centered points (mean points)) (svd points.length (centered points (mean points))))
    (hc : (∃ o n : Vec d, sqNorm n = 1 ∧ ∀ p ∈ points, (p - o) ⬝ᵥ n = 0) ∨ points.length < d) :
    ∃ h : Hyperplane d, fitPlane svd points = .ok h ∧ sqNorm h.normal = 1 ∧ ∀ p ∈ points, h.On p := by
  obtain ⟨h, hf, ho, hn, hmin⟩ := C85_best_fit hp hd hs
  refine ⟨h, hf, hn, ?_⟩
  have hzero : cost points h.origin h.normal ≤ 0 := by
    rcases hc with ⟨o, n, hn', hon⟩ | hlt
    · refine (hmin o n hn').trans (le_of_eq ?_)
      unfold cost
      apply List.sum_eq_zero
      intro x hx
      obtain ⟨p, hp', rfl⟩ := List.mem_map.mp hx
      rw [hon p hp']
      ring
    · generalize hsv : svd points.length (centered points (mean points)) = s at hs
      obtain ⟨z, hz⟩ := sigma_zero hp hlt hs
      refine (hmin (mean points) (fun i => s.u i z) (u_unit hs z)).trans (le_of_eq ?_)
      rw [cost_eq, svd_cost hs, u_column hs z]
      apply Finset.sum_eq_zero
      intro l _
      by_cases hlz : l = z
      · subst hlz; rw [hz]; ring
      · simp [hlz]
  intro p hp'
  unfold Hyperplane.On
  have hle : ((p - h.origin) ⬝ᵥ h.normal) ^ 2 ≤ cost points h.origin h.normal := by
    unfold cost
    apply List.single_le_sum
    · intro x hx
      obtain ⟨q, _, rfl⟩ := List.mem_map.mp hx
      exact sq_nonneg _
    · exact List.mem_map.mpr ⟨p, hp', rfl⟩
  have : ((p - h.origin) ⬝ᵥ h.normal) ^ 2 = 0 := le_antisymm (hle.trans hzero) (sq_nonneg _)
  exact pow_eq_zero_iff (two_ne_zero) |>.mp this

/-- **C85.** No points: an exception. Points of dimension 0: another one. -/
theorem C85_rejected (svd : (N : Nat) → Matrix (Fin d) (Fin N) ℝ → ThinSvd d N) (points : List (Vec d)) :
    (fitPlane svd points = .throw .invalidArgument ↔ points = []) ∧
    (d = 0 → points ≠ [] → fitPlane svd points = .throw .runtimeError) := by
  constructor
  · constructor
    · intro h
      by_contra hp
      unfold fitPlane at h
      rw [average_mean hp, Res.ok_bind] at h
      dsimp only at h
      split at h
      · simp at h
      · unfold Hyperplane.make at h
        simp at h
    · rintro rfl
      rfl
  · intro hd hp
    subst hd
    unfold fitPlane
    rw [average_mean hp, Res.ok_bind]
    dsimp only
    have : ∀ (m : Nat), m = 0 → ∀ (sig : Fin m → ℝ), minIndex sig = none := by
      rintro m rfl sig
      rfl
    rw [this _ (by omega)]

/-! ### The hypotheses are met -/

/-- The corners of a 4 × 2 rectangle. -/
def rectangle : List (Vec 2) := [![2, 1], ![2, -1], ![-2, 1], ![-2, -1]]

/-- A decomposition of the (already centred) corners; zero elsewhere. -/
noncomputable def rectangleSvd (N : Nat) (_ : Matrix (Fin 2) (Fin N) ℝ) : ThinSvd 2 N where
  u := fun i k => if i.val = k.val then 1 else 0
  sigma := fun k => if k.val = 0 then 4 else 2
  v := fun j k => if k.val = 0 then (if j.val < 2 then 1 / 2 else -1 / 2) else (if j.val % 2 = 0 then 1 / 2 else -1 / 2)

theorem rectangle_mean : mean rectangle = 0 := by
  unfold mean rectangle
  funext i
  fin_cases i <;> simp

theorem rectangle_svd : IsThinSvd (centered rectangle (mean rectangle)) (rectangleSvd rectangle.length (centered rectangle (mean rectangle))) := by
  rw [rectangle_mean]
  have h2 : ∀ f : Fin (min 2 rectangle.length) → ℝ, ∑ k, f k = f ⟨0, by decide⟩ + f ⟨1, by decide⟩ := fun f => Fin.sum_univ_two (M := ℝ) f
  have h4 : ∀ f : Fin rectangle.length → ℝ, ∑ k, f k = f ⟨0, by decide⟩ + f ⟨1, by decide⟩ + f ⟨2, by decide⟩ + f ⟨3, by decide⟩ :=
    fun f => Fin.sum_univ_four (M := ℝ) f
  constructor
  · ext i j
    rw [mul_apply]
    simp only [mul_diagonal, transpose_apply]
    rw [h2]
    fin_cases i <;> fin_cases j <;> norm_num [centered, rectangle, rectangleSvd]
  · ext i j
    rw [mul_apply, one_apply, Fin.sum_univ_two]
    simp only [transpose_apply]
    fin_cases i <;> fin_cases j <;> norm_num [rectangleSvd] <;> decide
  · ext i j
    rw [mul_apply, one_apply, h4]
    simp only [transpose_apply]
    fin_cases i <;> fin_cases j <;> norm_num [rectangleSvd] <;> decide
  · intro k
    unfold rectangleSvd
    dsimp only
    split <;> norm_num

example : ∃ h : Hyperplane 2, fitPlane rectangleSvd rectangle = .ok h ∧ h.origin = 0 ∧ sqNorm h.normal = 1 ∧
    ∀ o n : Vec 2, sqNorm n = 1 → cost rectangle h.origin h.normal ≤ cost rectangle o n := by
  rw [← rectangle_mean]
  exact C85_best_fit (by simp [rectangle]) (by norm_num) rectangle_svd

end CRU.Math
