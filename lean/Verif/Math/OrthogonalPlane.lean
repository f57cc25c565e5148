import Verif.Math.Projection
/-
  C68: a vector within a plane that is orthogonal to a given vector (math.hpp), over the real numbers.
-/
namespace CRU.Math

/-- math.hpp:485-488: a vector divided by its norm. For the zero vector the code gets a NaN, which compares unequal to one, here 0/0 = 0 is unequal to one as
well. -/
noncomputable def unitOf {n : Nat} (v : Vec n) : Vec n := (norm v)⁻¹ • v

open Classical in
/-- math.hpp:476-528 `GetArbitraryOrthogonalVectorToPlane`. (The function cannot be instantiated as it is written: it declares variables of type
`Eigen::MatrixBase`, which has no public constructor. Modelled is what it does with vectors in their place.) -/
noncomputable def orthogonalInPlane {n1 n2 n : Nat} (p1 : Vec n1) (p2 : Vec n2) (v : Vec n) : Res (Vec n) :=
  if h : 0 < n ∧ n = n1 ∧ n = n2 then
    let p1 : Vec n := h.2.1 ▸ p1
    let p2 : Vec n := h.2.2 ▸ p2
    if |unitOf p1 ⬝ᵥ unitOf p2| = 1 then .throw .invalidArgument
    else if sqNorm (vectorRejection v p1) > 0 then .ok (vectorRejection v p1)
    else if sqNorm (vectorRejection v p2) > 0 then .ok (vectorRejection v p2)
    else .throw .runtimeError
  else .throw .invalidArgument

/-! ### Specification -/

/-- The vector `r` is in the plane through the origin that `p1` and `p2` span. -/
def InPlane {n : Nat} (p1 p2 r : Vec n) : Prop := ∃ a b : ℝ, r = a • p1 + b • p2

/-- The vectors have the same or opposite direction. -/
def Parallel {n : Nat} (p1 p2 : Vec n) : Prop := p1 ≠ 0 ∧ ∃ c : ℝ, c ≠ 0 ∧ p2 = c • p1

/-! ### Proofs -/

variable {n : Nat}

theorem sqNorm_unitOf {v : Vec n} (h : v ≠ 0) : sqNorm (unitOf v) = 1 := by
  have hn : norm v ≠ 0 := (norm_pos.mpr h).ne'
  unfold unitOf
  rw [sqNorm_smul, ← norm_sq]
  field_simp

theorem unitOf_zero : unitOf (0 : Vec n) = 0 := by unfold unitOf; rw [smul_zero]

theorem parallel_iff (p1 p2 : Vec n) : |unitOf p1 ⬝ᵥ unitOf p2| = 1 ↔ Parallel p1 p2 := by
  constructor
  · intro h
    have h1 : p1 ≠ 0 := by
      rintro rfl
      rw [unitOf_zero, zero_dotProduct, abs_zero] at h
      exact zero_ne_one h
    have h2 : p2 ≠ 0 := by
      rintro rfl
      rw [unitOf_zero, dotProduct_zero, abs_zero] at h
      exact zero_ne_one h
    have n1 : norm p1 ≠ 0 := (norm_pos.mpr h1).ne'
    have n2 : norm p2 ≠ 0 := (norm_pos.mpr h2).ne'
    have key : ∃ s : ℝ, s * s = 1 ∧ unitOf p2 = s • unitOf p1 := by
      have hs : (unitOf p1 ⬝ᵥ unitOf p2) * (unitOf p1 ⬝ᵥ unitOf p2) = 1 := by rw [← abs_mul_abs_self, h]; norm_num
      refine ⟨unitOf p1 ⬝ᵥ unitOf p2, hs, ?_⟩
      generalize hc : unitOf p1 ⬝ᵥ unitOf p2 = c at hs ⊢
      have hz : sqNorm (unitOf p2 + (-c) • unitOf p1) = 0 := by
        rw [sqNorm_add, sqNorm_smul, sqNorm_unitOf h1, sqNorm_unitOf h2, dotProduct_smul, smul_eq_mul, dotProduct_comm, hc]
        linarith
      have := sqNorm_eq_zero.mp hz
      rw [neg_smul, ← sub_eq_add_neg, sub_eq_zero] at this
      exact this
    obtain ⟨s, hs, hu⟩ := key
    have hs0 : s ≠ 0 := by rintro rfl; norm_num at hs
    refine ⟨h1, norm p2 * s * (norm p1)⁻¹, by positivity, ?_⟩
    have : p2 = norm p2 • unitOf p2 := by unfold unitOf; rw [smul_smul, mul_inv_cancel₀ n2, one_smul]
    calc p2 = norm p2 • unitOf p2 := this
      _ = norm p2 • (s • unitOf p1) := by rw [hu]
      _ = (norm p2 * s * (norm p1)⁻¹) • p1 := by unfold unitOf; rw [smul_smul, smul_smul, mul_assoc]
  · rintro ⟨h1, c, hc, rfl⟩
    have n1 : norm p1 ≠ 0 := (norm_pos.mpr h1).ne'
    have hd : unitOf p1 ⬝ᵥ unitOf (c • p1) = c / |c| := by
      unfold unitOf
      rw [norm_smul, smul_dotProduct, dotProduct_smul, dotProduct_smul, smul_eq_mul, smul_eq_mul, smul_eq_mul]
      have : p1 ⬝ᵥ p1 = norm p1 * norm p1 := (norm_sq p1).symm
      rw [this]
      have : |c| ≠ 0 := abs_ne_zero.mpr hc
      field_simp
    rw [hd, abs_div, abs_abs, div_self (abs_ne_zero.mpr hc)]

/-- What is left of a vector is zero if it is a multiple of the base only. -/
theorem rejection_eq_zero {b v : Vec n} : vectorRejection b v = 0 ↔ ∃ c : ℝ, v = c • b := by
  constructor
  · intro h
    unfold vectorRejection vectorProjection at h
    split at h
    · exact ⟨_, sub_eq_zero.mp h⟩
    · exact ⟨0, by rw [zero_smul]; simpa using h⟩
  · rintro ⟨c, rfl⟩
    unfold vectorRejection vectorProjection
    split
    · rename_i h
      rw [dotProduct_smul, smul_eq_mul, show b ⬝ᵥ b = sqNorm b from rfl, mul_div_assoc, div_self h.ne', mul_one, sub_self]
    · rename_i h
      have : b = 0 := by by_contra hb; exact h (sqNorm_pos.mpr hb)
      rw [this]; simp

theorem rejection_form (b v : Vec n) : ∃ a : ℝ, vectorRejection b v = v + a • b := by
  unfold vectorRejection vectorProjection
  split
  · exact ⟨-(b ⬝ᵥ v / sqNorm b), by rw [neg_smul, sub_eq_add_neg]⟩
  · exact ⟨0, by simp⟩

/-! ### Theorems -/

/-- C68: vectors of different or no dimension are refused, so are plane vectors of the same or opposite direction. Otherwise the result is a vector other
than zero that is orthogonal to the given one, and within the plane if the given one is; the call throws exactly if both plane vectors are multiples of the
given one (which no two vectors are that span a plane). -/
theorem C68_orthogonal_in_plane {n1 n2 n : Nat} (p1 : Vec n1) (p2 : Vec n2) (v : Vec n) :
    ((n = 0 ∨ n ≠ n1 ∨ n ≠ n2) → orthogonalInPlane p1 p2 v = .throw .invalidArgument) ∧
    ∀ (p1 p2 v : Vec n), 0 < n → (Parallel p1 p2 → orthogonalInPlane p1 p2 v = .throw .invalidArgument) ∧
      (¬ Parallel p1 p2 →
        ((∃ a b : ℝ, p1 = a • v ∧ p2 = b • v) → orthogonalInPlane p1 p2 v = .throw .runtimeError) ∧
        (¬ (∃ a b : ℝ, p1 = a • v ∧ p2 = b • v) → ∃ r, orthogonalInPlane p1 p2 v = .ok r ∧ r ≠ 0 ∧ v ⬝ᵥ r = 0 ∧
          (InPlane p1 p2 v → InPlane p1 p2 r))) := by
  refine ⟨fun h => ?_, fun p1 p2 v hn => ?_⟩
  · unfold orthogonalInPlane
    rw [dif_neg (by omega)]
  unfold orthogonalInPlane
  rw [dif_pos ⟨hn, rfl, rfl⟩]
  dsimp only
  refine ⟨fun hp => if_pos ((parallel_iff p1 p2).mpr hp), fun hp => ?_⟩
  rw [if_neg (fun h => hp ((parallel_iff p1 p2).mp h))]
  refine ⟨?_, fun hno => ?_⟩
  · rintro ⟨a, b, ha, hb⟩
    have e1 := rejection_eq_zero.mpr ⟨a, ha⟩
    have e2 := rejection_eq_zero.mpr ⟨b, hb⟩
    have z : ¬ sqNorm (0 : Vec n) > 0 := by rw [sqNorm_eq_zero.mpr rfl]; exact lt_irrefl _
    rw [e1, e2, if_neg z, if_neg z]
  · by_cases h1 : sqNorm (vectorRejection v p1) > 0
    · rw [if_pos h1]
      refine ⟨_, rfl, sqNorm_pos.mp h1, rejection_orthogonal v p1, ?_⟩
      rintro ⟨a, b, hv⟩
      obtain ⟨c, hc⟩ := rejection_form v p1
      refine ⟨1 + c * a, c * b, ?_⟩
      rw [hc, hv]
      module
    · rw [if_neg h1]
      have z1 : vectorRejection v p1 = 0 := by by_contra h; exact h1 (sqNorm_pos.mpr h)
      have h2 : vectorRejection v p2 ≠ 0 := by
        intro h
        obtain ⟨a, ha⟩ := rejection_eq_zero.mp z1
        obtain ⟨b, hb⟩ := rejection_eq_zero.mp h
        exact hno ⟨a, b, ha, hb⟩
      rw [if_pos (sqNorm_pos.mpr h2)]
      refine ⟨_, rfl, h2, rejection_orthogonal v p2, ?_⟩
      rintro ⟨a, b, hv⟩
      obtain ⟨c, hc⟩ := rejection_form v p2
      refine ⟨c * a, 1 + c * b, ?_⟩
      rw [hc, hv]
      module

/-- The plane of the first two axes and the vector (1, 1, 0): the hypotheses of the last clause hold, and there is such a vector. -/
example : ∃ r, orthogonalInPlane ![1, 0, 0] ![0, 1, 0] ![1, 1, 0] = .ok r ∧ r ≠ 0 ∧ ![1, 1, 0] ⬝ᵥ r = 0 ∧ InPlane ![1, 0, 0] ![0, 1, 0] r := by
  have h := ((C68_orthogonal_in_plane (![1, 0, 0] : Vec 3) (![0, 1, 0] : Vec 3) (![1, 1, 0] : Vec 3)).2 ![1, 0, 0] ![0, 1, 0] ![1, 1, 0] (by omega)).2
  obtain ⟨r, a, b, c, d⟩ := (h (by
      rintro ⟨-, c, -, hc⟩
      have := congrFun hc 1
      simp at this)).2 (by
      rintro ⟨a, b, ha, -⟩
      have h0 := congrFun ha 0
      have h1 := congrFun ha 1
      simp at h0 h1
      rw [← h1] at h0
      norm_num at h0)
  refine ⟨r, a, b, c, d ⟨1, 1, ?_⟩⟩
  ext i
  fin_cases i <;> simp

/-- With one of the plane vectors zero and the other along the given vector the call throws at the end. -/
example : orthogonalInPlane ![1, 0] ![0, 0] ![2, 0] = .throw .runtimeError := by
  refine (((C68_orthogonal_in_plane (![1, 0] : Vec 2) (![0, 0] : Vec 2) (![2, 0] : Vec 2)).2 ![1, 0] ![0, 0] ![2, 0] (by omega)).2 ?_).1 ⟨1 / 2, 0, ?_, ?_⟩
  · rintro ⟨-, c, hc, h⟩
    have := congrFun h 0
    simp at this
    exact hc this.symm
  · ext i
    fin_cases i <;> simp
  · ext i
    fin_cases i <;> simp

end CRU.Math
