import Verif.Base
import Mathlib.Analysis.Real.Sqrt
import Mathlib.LinearAlgebra.Matrix.DotProduct
import Mathlib.Algebra.BigOperators.Fin
import Mathlib.Tactic.FieldSimp
import Mathlib.Tactic.Module
import Mathlib.Tactic.Linarith
import Mathlib.Tactic.FinCases
/-
  C68: projections, orthogonal vectors and hyperplanes (math.hpp), over the real numbers. A vector of dimension `n` is a function
  from `Fin n`; operations on vectors of different sizes are outside the model (Eigen rejects them).
-/
namespace CRU.Math

/-- A vector of real numbers. -/
abbrev Vec (n : Nat) : Type := Fin n → ℝ

variable {n : Nat}

/-- Eigen's `squaredNorm` and `norm`. -/
def sqNorm (v : Vec n) : ℝ := v ⬝ᵥ v
noncomputable def norm (v : Vec n) : ℝ := Real.sqrt (sqNorm v)

open Classical in
/-- math.hpp:408-432 `VectorProjection`. -/
noncomputable def vectorProjection (base v : Vec n) : Vec n :=
  if sqNorm base > 0 then (base ⬝ᵥ v / sqNorm base) • base else 0

/-- math.hpp:434-443 `VectorRejection`. -/
noncomputable def vectorRejection (base v : Vec n) : Vec n := v - vectorProjection base v

/-- The unit vector with index `i`. -/
def unitVec (i : Fin n) : Vec n := fun j => if j = i then 1 else 0

open Classical in
/-- math.hpp:453-467: try the unit vectors in turn. -/
noncomputable def orthogonalLoop (v : Vec n) : List (Fin n) → Res (Vec n)
  | [] => .throw .runtimeError
  | i :: is =>
    let rejected := vectorRejection v (unitVec i)
    if sqNorm rejected > 0 then .ok rejected else orthogonalLoop v is

/-- math.hpp:445-474 `GetArbitraryOrthogonalVector`. -/
noncomputable def arbitraryOrthogonal (v : Vec n) : Res (Vec n) :=
  if n > 0 then orthogonalLoop v (List.finRange n) else .throw .invalidArgument

/-- math.hpp:603-679 `Hyperplane`, of dimension `n`. -/
structure Hyperplane (n : Nat) where
  origin : Vec n
  normal : Vec n

/-- math.hpp:611-618: the constructor. -/
def Hyperplane.make {m n : Nat} (origin : Vec m) (normal : Vec n) : Res (Hyperplane n) :=
  if h : m = n then .ok ⟨h ▸ origin, normal⟩ else .throw .invalidArgument

open Classical in
/-- Eigen's `stableNormalized` (in exact arithmetic): the zero vector stays zero. -/
noncomputable def normalized (v : Vec n) : Vec n := if norm v > 0 then (norm v)⁻¹ • v else v

/-- math.hpp:631-637 `GetNormedDotProduct`. -/
noncomputable def Hyperplane.normedDot (h : Hyperplane n) (p : Vec n) : ℝ := normalized (p - h.origin) ⬝ᵥ h.normal

/-- math.hpp:639-644 `GetRawDotProduct`. -/
def Hyperplane.rawDot (h : Hyperplane n) (p : Vec n) : ℝ := (p - h.origin) ⬝ᵥ h.normal

/-- math.hpp:646-649 `RejectVectorOntoPlane`. -/
noncomputable def Hyperplane.rejectVector (h : Hyperplane n) (v : Vec n) : Vec n := vectorProjection h.normal v

/-- math.hpp:651-655 `GetSquaredDistanceToPlane`. -/
noncomputable def Hyperplane.sqDistance (h : Hyperplane n) (p : Vec n) : ℝ := sqNorm (vectorProjection h.normal (p - h.origin))

/-- math.hpp:657-661 `GetDistanceToPlane`. -/
noncomputable def Hyperplane.distance (h : Hyperplane n) (p : Vec n) : ℝ := norm (vectorProjection h.normal (p - h.origin))

/-- math.hpp:663-666 `ProjectVectorOntoPlane`. -/
noncomputable def Hyperplane.projectVector (h : Hyperplane n) (v : Vec n) : Vec n := vectorRejection h.normal v

/-- math.hpp:668-676 `ProjectPointOntoPlane`. -/
noncomputable def Hyperplane.projectPoint (h : Hyperplane n) (p : Vec n) : Vec n :=
  h.origin + vectorRejection h.normal (p - h.origin)

open Classical in
/-- math.hpp:348-358 `ClampNorm`, for vectors. -/
noncomputable def clampNorm (v : Vec n) (maxNorm : ℝ) : Vec n :=
  if norm v > maxNorm then (maxNorm / norm v) • v else v

/-! ### Specification -/

/-- The points of a hyperplane. -/
def Hyperplane.On (h : Hyperplane n) (q : Vec n) : Prop := (q - h.origin) ⬝ᵥ h.normal = 0

/-! ### Proofs -/

theorem sqNorm_nonneg (v : Vec n) : 0 ≤ sqNorm v := by
  unfold sqNorm dotProduct
  exact Finset.sum_nonneg (fun i _ => mul_self_nonneg _)

theorem sqNorm_eq_zero {v : Vec n} : sqNorm v = 0 ↔ v = 0 := by
  unfold sqNorm
  exact dotProduct_self_eq_zero

theorem sqNorm_pos {v : Vec n} : 0 < sqNorm v ↔ v ≠ 0 := by
  rw [lt_iff_le_and_ne]
  constructor
  · rintro ⟨_, h⟩ rfl
    exact h (sqNorm_eq_zero.mpr rfl).symm
  · intro h
    exact ⟨sqNorm_nonneg v, fun hc => h (sqNorm_eq_zero.mp hc.symm)⟩

theorem sqNorm_add (v w : Vec n) : sqNorm (v + w) = sqNorm v + 2 * (v ⬝ᵥ w) + sqNorm w := by
  unfold sqNorm
  rw [add_dotProduct, dotProduct_add, dotProduct_add, dotProduct_comm w v]
  ring

theorem sqNorm_smul (c : ℝ) (v : Vec n) : sqNorm (c • v) = c * c * sqNorm v := by
  unfold sqNorm
  rw [smul_dotProduct, dotProduct_smul, smul_eq_mul, smul_eq_mul]
  ring

theorem norm_smul (c : ℝ) (v : Vec n) : norm (c • v) = |c| * norm v := by
  unfold norm
  rw [sqNorm_smul, Real.sqrt_mul (mul_self_nonneg c), Real.sqrt_mul_self_eq_abs]

theorem norm_sq (v : Vec n) : norm v * norm v = sqNorm v := Real.mul_self_sqrt (sqNorm_nonneg v)

theorem norm_nonneg' (v : Vec n) : 0 ≤ norm v := Real.sqrt_nonneg _

theorem norm_pos {v : Vec n} : 0 < norm v ↔ v ≠ 0 := by
  unfold norm
  rw [Real.sqrt_pos, sqNorm_pos]

theorem rejection_orthogonal (b v : Vec n) : b ⬝ᵥ vectorRejection b v = 0 := by
  unfold vectorRejection vectorProjection
  split
  · rename_i h
    rw [dotProduct_sub, dotProduct_smul, smul_eq_mul]
    have : b ⬝ᵥ b = sqNorm b := rfl
    rw [this]
    field_simp
    ring
  · rename_i h
    have : b = 0 := by
      by_contra hc
      exact h (sqNorm_pos.mpr hc)
    rw [this, zero_dotProduct]

/-- C68: `VectorProjection` and `VectorRejection` split every vector into a part along the base vector and a part orthogonal to
it; it is the only such splitting when the base is not zero, and the squared lengths add up. Projecting onto the zero vector
gives zero. -/
theorem C68_projection (b v : Vec n) :
    vectorProjection b v + vectorRejection b v = v ∧
    (∃ c : ℝ, vectorProjection b v = c • b) ∧ b ⬝ᵥ vectorRejection b v = 0 ∧
    (b ≠ 0 → ∀ (c : ℝ) (w : Vec n), c • b + w = v → b ⬝ᵥ w = 0 → c • b = vectorProjection b v ∧ w = vectorRejection b v) ∧
    sqNorm v = sqNorm (vectorProjection b v) + sqNorm (vectorRejection b v) ∧
    vectorProjection (0 : Vec n) v = 0 := by
  have hpar : ∃ c : ℝ, vectorProjection b v = c • b := by
    unfold vectorProjection
    split
    · exact ⟨_, rfl⟩
    · exact ⟨0, by rw [zero_smul]⟩
  have hsum : vectorProjection b v + vectorRejection b v = v := by unfold vectorRejection; module
  refine ⟨hsum, hpar, rejection_orthogonal b v, ?_, ?_, ?_⟩
  · intro hb c w hw ho
    have hb' := sqNorm_pos.mpr hb
    have e : vectorProjection b v = c • b := by
      unfold vectorProjection
      rw [if_pos hb']
      congr 1
      rw [← hw, dotProduct_add, dotProduct_smul, ho, add_zero, smul_eq_mul]
      have : b ⬝ᵥ b = sqNorm b := rfl
      rw [this]
      field_simp
    refine ⟨e.symm, ?_⟩
    unfold vectorRejection
    rw [e, ← hw]
    module
  · obtain ⟨c, hc⟩ := hpar
    conv_lhs => rw [← hsum]
    rw [sqNorm_add, hc, smul_dotProduct, rejection_orthogonal]
    simp
  · unfold vectorProjection
    rw [if_neg]
    rw [sqNorm_eq_zero.mpr rfl]
    exact lt_irrefl 0

example : vectorProjection ![3, 0] ![4, 5] = (![4, 0] : Vec 2) ∧ vectorRejection ![3, 0] ![4, 5] = (![0, 5] : Vec 2) := by
  obtain ⟨_, _, _, h, _⟩ := C68_projection (![3, 0] : Vec 2) ![4, 5]
  have := h (by intro hc; have := congrFun hc 0; norm_num at this) (4 / 3) ![0, 5] (by ext i; fin_cases i <;> norm_num) (by norm_num [dotProduct, Fin.sum_univ_succ])
  refine ⟨?_, this.2.symm⟩
  rw [← this.1]
  ext i
  fin_cases i <;> norm_num

theorem orthogonalLoop_spec (v : Vec n) (is : List (Fin n)) :
    (∃ w, orthogonalLoop v is = .ok w ∧ w ≠ 0 ∧ v ⬝ᵥ w = 0) ∨
    (orthogonalLoop v is = .throw .runtimeError ∧ ∀ i ∈ is, vectorRejection v (unitVec i) = 0) := by
  induction is with
  | nil => exact Or.inr ⟨rfl, by simp⟩
  | cons i is ih =>
    unfold orthogonalLoop
    dsimp only
    split
    · rename_i h
      exact Or.inl ⟨_, rfl, sqNorm_pos.mp h, rejection_orthogonal _ _⟩
    · rename_i h
      have h0 : vectorRejection v (unitVec i) = 0 := by
        by_contra hc
        exact h (sqNorm_pos.mpr hc)
      rcases ih with ih | ⟨ih, hz⟩
      · exact Or.inl ih
      · refine Or.inr ⟨ih, fun j hj => ?_⟩
        rcases List.mem_cons.mp hj with rfl | hj
        · exact h0
        · exact hz j hj

/-- C68: in two or more dimensions `GetArbitraryOrthogonalVector` returns, for every vector, a vector that is orthogonal to it and not zero.
In one dimension it does so only for the zero vector and throws `std::runtime_error` otherwise (no such vector exists); it throws
`std::invalid_argument` for empty vectors. -/
theorem C68_orthogonal (v : Vec n) :
    (2 ≤ n ∨ (n = 1 ∧ v = 0) → ∃ w, arbitraryOrthogonal v = .ok w ∧ w ≠ 0 ∧ v ⬝ᵥ w = 0) ∧
    (n = 1 → v ≠ 0 → arbitraryOrthogonal v = .throw .runtimeError) ∧
    (n = 0 → arbitraryOrthogonal v = .throw .invalidArgument) := by
  refine ⟨fun hn => ?_, fun hn hv => ?_, fun hn => ?_⟩
  · have h0 : n > 0 := by omega
    unfold arbitraryOrthogonal
    rw [if_pos h0]
    rcases orthogonalLoop_spec v (List.finRange n) with h | ⟨_, hz⟩
    · exact h
    · exfalso
      have hr : ∀ i : Fin n, unitVec i = vectorProjection v (unitVec i) := by
        intro i
        have := hz i (List.mem_finRange i)
        unfold vectorRejection at this
        exact sub_eq_zero.mp this
      by_cases hv : v = 0
      · have h1 := hr ⟨0, h0⟩
        rw [hv, (C68_projection (0 : Vec n) (unitVec ⟨0, h0⟩)).2.2.2.2.2] at h1
        have := congrFun h1 ⟨0, h0⟩
        simp [unitVec] at this
      · have h2 : 2 ≤ n := by
          rcases hn with hn | hn
          · exact hn
          · exact absurd hn.2 hv
        -- two different unit vectors are both multiples of v
        obtain ⟨c, hc⟩ := (C68_projection v (unitVec ⟨0, h0⟩)).2.1
        obtain ⟨d, hd⟩ := (C68_projection v (unitVec ⟨1, by omega⟩)).2.1
        rw [← hr] at hc hd
        have e1 := congrFun hc ⟨0, h0⟩
        have e2 := congrFun hc ⟨1, by omega⟩
        have e3 := congrFun hd ⟨0, h0⟩
        have e4 := congrFun hd ⟨1, by omega⟩
        simp only [unitVec, Pi.smul_apply, smul_eq_mul, Fin.mk.injEq, if_true, if_false, one_ne_zero, zero_ne_one] at e1 e2 e3 e4
        have hc0 : c ≠ 0 := by rintro rfl; simp at e1
        have hv1 : v ⟨1, by omega⟩ = 0 := (mul_eq_zero.mp e2.symm).resolve_left hc0
        rw [hv1] at e4
        simp at e4
  · subst hn
    unfold arbitraryOrthogonal
    rw [if_pos (by norm_num)]
    rcases orthogonalLoop_spec v (List.finRange 1) with ⟨w, _, hw, ho⟩ | h
    · exfalso
      have hv0 : v 0 ≠ 0 := fun hc => hv (by ext i; rw [Subsingleton.elim i 0]; exact hc)
      apply hw
      ext i
      rw [Subsingleton.elim i 0]
      simp [dotProduct] at ho
      rcases ho with ho | ho
      · exact absurd ho hv0
      · exact ho
    · exact h.1
  · unfold arbitraryOrthogonal
    rw [if_neg (by omega)]

example : ∃ w, arbitraryOrthogonal (![1, 1, 0] : Vec 3) = .ok w ∧ w ≠ 0 ∧ ![1, 1, 0] ⬝ᵥ w = 0 := (C68_orthogonal _).1 (Or.inl (by norm_num))

/-- C68: for a hyperplane with a normal vector that is not zero (of any length): the projection of a point lies on the plane, is
nearer to the point than every other point of the plane, and its distance from the point is what `GetDistanceToPlane` returns, which is
|raw dot product| / |normal|; `GetSquaredDistanceToPlane` is its square; points of the plane are projected to themselves. -/
theorem C68_hyperplane (h : Hyperplane n) (hn : h.normal ≠ 0) (p : Vec n) :
    h.On (h.projectPoint p) ∧
    (∀ q, h.On q → norm (p - h.projectPoint p) ≤ norm (p - q) ∧ (norm (p - q) = norm (p - h.projectPoint p) → q = h.projectPoint p)) ∧
    norm (p - h.projectPoint p) = h.distance p ∧ h.distance p = |h.rawDot p| / norm h.normal ∧
    h.sqDistance p = h.distance p * h.distance p ∧ (h.distance p = 0 ↔ h.On p) ∧ (h.projectPoint p = p ↔ h.On p) := by
  obtain ⟨hsum, ⟨c, hc⟩, ho, _, _, _⟩ := C68_projection h.normal (p - h.origin)
  have hN := norm_pos.mpr hn
  have hS := sqNorm_pos.mpr hn
  have hcv : c = h.rawDot p / sqNorm h.normal := by
    have h1 : h.normal ⬝ᵥ (p - h.origin) = c * sqNorm h.normal := by
      conv_lhs => rw [← hsum]
      rw [dotProduct_add, ho, add_zero, hc, dotProduct_smul, smul_eq_mul]
      rfl
    rw [Hyperplane.rawDot, dotProduct_comm, h1]
    field_simp
  have hdiff : p - h.projectPoint p = c • h.normal := by
    unfold Hyperplane.projectPoint
    rw [← hc]
    have : p = h.origin + (p - h.origin) := by module
    conv_lhs => lhs; rw [this, ← hsum]
    module
  have hon : h.On (h.projectPoint p) := by
    unfold Hyperplane.On Hyperplane.projectPoint
    rw [add_sub_cancel_left, dotProduct_comm]
    exact ho
  have hd1 : norm (p - h.projectPoint p) = h.distance p := by
    rw [hdiff, ← hc]; rfl
  have hd2 : h.distance p = |h.rawDot p| / norm h.normal := by
    rw [← hd1, hdiff, norm_smul, hcv, abs_div, abs_of_pos hS, ← norm_sq]
    field_simp
  have hd0 : h.distance p = 0 ↔ h.On p := by
    rw [hd2, div_eq_zero_iff]
    constructor
    · rintro (h0 | h0)
      · exact abs_eq_zero.mp h0
      · exact absurd h0 hN.ne'
    · intro h0
      left
      exact abs_eq_zero.mpr h0
  refine ⟨hon, ?_, hd1, hd2, ?_, hd0, ⟨fun he => he ▸ hon, fun he => ?_⟩⟩
  · intro q hq
    -- Pythagoras
    have hort : (p - h.projectPoint p) ⬝ᵥ (h.projectPoint p - q) = 0 := by
      have e : h.projectPoint p - q = (h.projectPoint p - h.origin) - (q - h.origin) := by module
      rw [hdiff, smul_dotProduct, e, dotProduct_sub, dotProduct_comm h.normal, dotProduct_comm h.normal, hon, hq]
      simp
    have hpy : sqNorm (p - q) = sqNorm (p - h.projectPoint p) + sqNorm (h.projectPoint p - q) := by
      have e : p - q = (p - h.projectPoint p) + (h.projectPoint p - q) := by module
      rw [e, sqNorm_add, hort]
      ring
    constructor
    · unfold norm
      apply Real.sqrt_le_sqrt
      rw [hpy]
      linarith [sqNorm_nonneg (h.projectPoint p - q)]
    · intro he
      have h2 : sqNorm (p - q) = sqNorm (p - h.projectPoint p) := by rw [← norm_sq, ← norm_sq, he]
      have h3 : sqNorm (h.projectPoint p - q) = 0 := by linarith
      exact (sub_eq_zero.mp (sqNorm_eq_zero.mp h3)).symm
  · exact (norm_sq _).symm
  · have := hd0.mpr he
    rw [← hd1] at this
    have h3 : p - h.projectPoint p = 0 := by
      by_contra hcon
      exact (norm_pos.mpr hcon).ne' this
    exact (sub_eq_zero.mp h3).symm

/-- The plane 2 y = 6 of the real plane, and the point (7, 5). -/
example : (⟨![0, 3], ![0, 2]⟩ : Hyperplane 2).normal ≠ 0 ∧ (⟨![0, 3], ![0, 2]⟩ : Hyperplane 2).distance ![7, 5] = 2 := by
  have hn : (⟨![0, 3], ![0, 2]⟩ : Hyperplane 2).normal ≠ 0 := by intro hc; have := congrFun hc 1; norm_num at this
  refine ⟨hn, ?_⟩
  rw [(C68_hyperplane _ hn ![7, 5]).2.2.2.1]
  have e : sqNorm (![0, 2] : Vec 2) = 2 * 2 := by norm_num [sqNorm, dotProduct, Fin.sum_univ_succ]
  have e2 : norm (![0, 2] : Vec 2) = 2 := by rw [norm, e, Real.sqrt_mul_self (by norm_num)]
  rw [e2]
  norm_num [Hyperplane.rawDot, dotProduct, Fin.sum_univ_succ]

/-- C68: with a zero normal vector (which the constructor accepts) every point has distance zero and is projected to itself. The
constructor throws exactly when the sizes differ. -/
theorem C68_hyperplane_degenerate (h : Hyperplane n) (hn : h.normal = 0) (p : Vec n) :
    h.distance p = 0 ∧ h.sqDistance p = 0 ∧ h.projectPoint p = p ∧
    ∀ {m k : Nat} (o : Vec m) (nr : Vec k), (m ≠ k → Hyperplane.make o nr = .throw .invalidArgument) ∧ (m = k → ∃ h', Hyperplane.make o nr = .ok h' ∧ h'.normal = nr) := by
  have hz : vectorProjection h.normal (p - h.origin) = 0 := by rw [hn]; exact (C68_projection 0 _).2.2.2.2.2
  refine ⟨?_, ?_, ?_, fun {m k} o nr => ⟨fun hmk => ?_, fun hmk => ?_⟩⟩
  · unfold Hyperplane.distance norm
    rw [hz, sqNorm_eq_zero.mpr rfl, Real.sqrt_zero]
  · unfold Hyperplane.sqDistance
    rw [hz, sqNorm_eq_zero.mpr rfl]
  · unfold Hyperplane.projectPoint vectorRejection
    rw [hz]
    module
  · unfold Hyperplane.make
    rw [dif_neg hmk]
  · subst hmk
    exact ⟨_, by unfold Hyperplane.make; rw [dif_pos rfl], rfl⟩

/-- Cauchy-Schwarz. -/
theorem abs_dot_le (a b : Vec n) : |a ⬝ᵥ b| ≤ norm a * norm b := by
  by_cases ha : a = 0
  · rw [ha, zero_dotProduct, abs_zero]
    exact mul_nonneg (norm_nonneg' _) (norm_nonneg' _)
  · obtain ⟨_, ⟨c, hc⟩, _, _, hpy, _⟩ := C68_projection a b
    have hA := sqNorm_pos.mpr ha
    have h1 : (a ⬝ᵥ b) * (a ⬝ᵥ b) ≤ sqNorm a * sqNorm b := by
      have e : sqNorm (vectorProjection a b) = (a ⬝ᵥ b) * (a ⬝ᵥ b) / sqNorm a := by
        unfold vectorProjection
        rw [if_pos hA, sqNorm_smul]
        field_simp
      have := sqNorm_nonneg (vectorRejection a b)
      have h2 : (a ⬝ᵥ b) * (a ⬝ᵥ b) / sqNorm a ≤ sqNorm b := by linarith
      rw [div_le_iff₀ hA] at h2
      linarith
    apply abs_le_of_sq_le_sq _ (mul_nonneg (norm_nonneg' _) (norm_nonneg' _))
    nlinarith [norm_sq a, norm_sq b]

/-- C68: `ProjectVectorOntoPlane` and `RejectVectorOntoPlane` split a vector into its parts in the plane and along the normal. The
normed dot product is the raw one divided by the distance from the origin of the plane (zero there), and never exceeds the
length of the normal. -/
theorem C68_hyperplane_vectors (h : Hyperplane n) (v p : Vec n) :
    h.projectVector v + h.rejectVector v = v ∧ h.normal ⬝ᵥ h.projectVector v = 0 ∧ (∃ c : ℝ, h.rejectVector v = c • h.normal) ∧
    (p ≠ h.origin → h.normedDot p = h.rawDot p / norm (p - h.origin)) ∧ h.normedDot h.origin = 0 ∧
    |h.normedDot p| ≤ norm h.normal := by
  obtain ⟨hsum, hpar, ho, _, _, _⟩ := C68_projection h.normal v
  have hdot : p ≠ h.origin → h.normedDot p = h.rawDot p / norm (p - h.origin) := by
    intro hp
    have hpos := norm_pos.mpr (sub_ne_zero.mpr hp)
    unfold Hyperplane.normedDot normalized Hyperplane.rawDot
    rw [if_pos hpos, smul_dotProduct, smul_eq_mul, inv_mul_eq_div]
  have hzero : h.normedDot h.origin = 0 := by
    unfold Hyperplane.normedDot normalized
    rw [sub_self]
    split <;> simp
  refine ⟨by rw [add_comm]; exact hsum, ho, hpar, hdot, hzero, ?_⟩
  by_cases hp : p = h.origin
  · rw [hp, hzero, abs_zero]; exact norm_nonneg' _
  · have hpos := norm_pos.mpr (sub_ne_zero.mpr hp)
    rw [hdot hp, abs_div, abs_of_pos hpos, div_le_iff₀ hpos, mul_comm]
    exact abs_dot_le _ _

/-- C68: `ClampNorm` with a bound that is not negative returns a vector no longer than the bound, in the same direction (a
multiple by a factor in [0, 1]), the vector itself exactly when it is not longer than the bound, and a vector of length equal to the
bound otherwise. -/
theorem C68_clamp_norm (v : Vec n) {m : ℝ} (hm : 0 ≤ m) :
    norm (clampNorm v m) = min (norm v) m ∧ (∃ c : ℝ, 0 ≤ c ∧ c ≤ 1 ∧ clampNorm v m = c • v) ∧ (clampNorm v m = v ↔ norm v ≤ m) := by
  unfold clampNorm
  split
  · rename_i h
    have hpos : 0 < norm v := lt_of_le_of_lt hm h
    have e : norm ((m / norm v) • v) = m := by
      rw [norm_smul, abs_div, abs_of_nonneg hm, abs_of_pos hpos]
      field_simp
    refine ⟨by rw [e, min_eq_right h.le], ⟨_, by positivity, by rw [div_le_one hpos]; exact h.le, rfl⟩, ⟨fun hc => ?_, fun hc => ?_⟩⟩
    · rw [hc] at e
      linarith
    · linarith
  · rename_i h
    push Not at h
    exact ⟨(min_eq_left h).symm, ⟨1, by norm_num, le_refl _, (one_smul _ _).symm⟩, ⟨fun _ => h, fun _ => rfl⟩⟩

/-- With a negative bound the result is turned around and longer than the bound. -/
theorem C68_clamp_norm_false : norm (clampNorm (![3] : Vec 1) (-2)) = 2 ∧ clampNorm (![3] : Vec 1) (-2) = ![-2] := by
  have e : sqNorm (![3] : Vec 1) = 3 * 3 := by norm_num [sqNorm, dotProduct, Fin.sum_univ_succ]
  have e2 : norm (![3] : Vec 1) = 3 := by rw [norm, e, Real.sqrt_mul_self (by norm_num)]
  have e3 : clampNorm (![3] : Vec 1) (-2) = ![-2] := by
    unfold clampNorm
    rw [e2, if_pos (by norm_num)]
    ext i
    rw [Subsingleton.elim i 0]
    norm_num
  refine ⟨?_, e3⟩
  rw [e3]
  have e : sqNorm (![-2] : Vec 1) = 2 * 2 := by norm_num [sqNorm, dotProduct, Fin.sum_univ_succ]
  rw [norm, e, Real.sqrt_mul_self (by norm_num)]

end CRU.Math
