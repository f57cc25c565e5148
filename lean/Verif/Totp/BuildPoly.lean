import Verif.Totp.BuildBack
/-
  C81: paths of straight lines have no curvature. Proofs.
-/
namespace CRU.Totp
open Ext

variable {n : Nat}

/-- The path acceleration that the joints allow on a straight line. -/
noncomputable def lineAcc (amax t : Fin n → ℝ) : ℝ := (accLoop amax t 0 (.fin 0) true (List.finRange n) (.fin dblMax)).real

/-- The path velocity that the joints allow. -/
noncomputable def lineVel (vmax t : Fin n → ℝ) : ℝ := (velMaxVel vmax t).real

theorem le_lineAcc (amax t : Fin n → ℝ) (x : ℝ) : x ≤ lineAcc amax t ↔ x ≤ dblMax ∧ ∀ i, t i ≠ 0 → x ≤ amax i / |t i| := by
  obtain ⟨r, h1, h2⟩ := accLoop_fin amax t 0 0 true (List.finRange n) dblMax
  unfold lineAcc
  rw [h1]
  show x ≤ r ↔ _
  rw [h2]
  simp

theorem line_minMaxAcc (amax t : Fin n → ℝ) (v : ℝ) (max : Bool) : minMaxAcc amax t 0 (.fin v) max = .fin (factor max * lineAcc amax t) := by
  obtain ⟨r, h1, h2⟩ := accLoop_fin amax t 0 v max (List.finRange n) dblMax
  unfold minMaxAcc
  rw [h1, mul_fin]
  have : r = lineAcc amax t := by
    apply le_antisymm
    · rw [le_lineAcc]
      have := (h2 r).mp (le_refl r)
      simpa using this
    · rw [h2]
      have := (le_lineAcc amax t _).mp (le_refl _)
      simpa using this
  rw [this]

theorem le_lineVel (vmax t : Fin n → ℝ) (hv : ∀ i, 0 ≤ vmax i) (x : ℝ) : x ≤ lineVel vmax t ↔ x ≤ dblMax ∧ ∀ i, t i ≠ 0 → x ≤ vmax i / |t i| := by
  obtain ⟨r, h1, h2⟩ := velLoop_fin vmax t hv (List.finRange n) dblMax
  unfold lineVel velMaxVel
  rw [h1]
  show x ≤ r ↔ _
  rw [h2]
  simp

theorem lineVel_eq (vmax t : Fin n → ℝ) (hv : ∀ i, 0 ≤ vmax i) : velMaxVel vmax t = .fin (lineVel vmax t) := by
  obtain ⟨r, h1, h2⟩ := velLoop_fin vmax t hv (List.finRange n) dblMax
  unfold lineVel velMaxVel
  rw [h1]
  rfl

theorem pairLoop_zero (amax t : Fin n → ℝ) (i : Fin n) : ∀ (js : List (Fin n)) (m : Ext), pairLoop amax t 0 i js m = m
  | [], m => rfl
  | j :: js, m => by
    unfold pairLoop
    have : pairVel amax t 0 i j = none := by simp [pairVel]
    rw [this]
    simp only [ite_self]
    exact pairLoop_zero amax t i js m

theorem accVelLoop_zero (amax t : Fin n → ℝ) : ∀ (is : List (Fin n)) (m : Ext), accVelLoop amax t 0 is m = m
  | [], m => rfl
  | i :: is, m => by
    unfold accVelLoop
    rw [pairLoop_zero]
    simp only [Pi.zero_apply, ne_eq, not_true_eq_false, if_false, ite_self]
    exact accVelLoop_zero amax t is m

/-- The joint that limits moves. -/
theorem activeLoop_moves {vmax t : Fin n → ℝ} (hv : ∀ i, 0 < vmax i) : ∀ (is : List (Fin n)) (m : ℝ) (k : Fin n),
    (t k ≠ 0 ∨ ∃ i ∈ is, t i ≠ 0 ∧ vmax i / |t i| < m) → t (activeLoop vmax t is (.fin m, k)).2 ≠ 0
  | [], m, k, h => by
    rcases h with h | ⟨i, hi, _⟩
    · exact h
    · simp at hi
  | i :: is, m, k, h => by
    unfold activeLoop
    by_cases ht : t i = 0
    · have hno : ¬ lt (div (.fin (vmax i)) (.fin |t i|)) (.fin m) := by
        rw [ht, abs_zero]
        simp [div, (hv i).ne', hv i, lt]
      rw [if_neg hno]
      apply activeLoop_moves hv
      rcases h with h | ⟨j, hj, h1, h2⟩
      · exact .inl h
      · rcases List.mem_cons.mp hj with rfl | hj
        · exact absurd ht h1
        · exact .inr ⟨j, hj, h1, h2⟩
    · rw [div_fin (abs_ne_zero.mpr ht), lt_fin]
      split_ifs with hc
      · exact activeLoop_moves hv is _ i (.inl ht)
      · apply activeLoop_moves hv
        rcases h with h | ⟨j, hj, h1, h2⟩
        · exact .inl h
        · rcases List.mem_cons.mp hj with rfl | hj
          · exact absurd h2 hc
          · exact .inr ⟨j, hj, h1, h2⟩

theorem line_deriv [NeZero n] {vmax t : Fin n → ℝ} (hv : ∀ i, 0 < vmax i) (h : ∃ i, t i ≠ 0 ∧ vmax i / |t i| < dblMax) :
    velMaxVelDeriv vmax t 0 = .fin 0 := by
  unfold velMaxVelDeriv
  dsimp only
  obtain ⟨i, h1, h2⟩ := h
  have := activeLoop_moves hv (List.finRange n) dblMax (0 : Fin n) (t := t) (.inr ⟨i, List.mem_finRange i, h1, h2⟩)
  rw [div_fin (mul_ne_zero this (abs_ne_zero.mpr this))]
  simp

/-- Some coordinate of a unit vector is at least 1/n. -/
theorem unit_coord [NeZero n] (t : V n) (ht : ‖t‖ = 1) : ∃ i, 1 ≤ (n : ℝ) * |t i| := by
  by_contra hc
  push Not at hc
  have hn : (0 : ℝ) < n := by exact_mod_cast Nat.pos_of_ne_zero (NeZero.ne n)
  have h1 : ‖t‖ ^ 2 = ∑ i, (t i) ^ 2 := by
    rw [EuclideanSpace.norm_sq_eq]
    simp
  have h2 : ∀ i, (t i) ^ 2 < 1 / n := by
    intro i
    have hi := hc i
    have hi' : |t i| ≤ 1 := by
      have := EuclideanSpace.norm_eq t
      have h3 := PiLp.norm_apply_le t i
      rw [ht] at h3
      simpa using h3
    have h4 : |t i| < 1 / n := by rw [lt_div_iff₀ hn]; linarith
    calc (t i) ^ 2 = |t i| * |t i| := by rw [← sq_abs]; ring
      _ ≤ |t i| * 1 := mul_le_mul_of_nonneg_left hi' (abs_nonneg _)
      _ < 1 / n := by linarith
  have h3 : ∑ i : Fin n, (t i) ^ 2 < ∑ _i : Fin n, (1 / n : ℝ) := Finset.sum_lt_sum_of_nonempty ⟨0, Finset.mem_univ _⟩ (fun i _ => h2 i)
  rw [Finset.sum_const, Finset.card_univ, Fintype.card_fin, nsmul_eq_mul] at h3
  rw [← h1, ht] at h3
  field_simp at h3
  norm_num at h3

/-- On a path of straight lines, there is always a tangent. -/
theorem plain_tangent (dev : ℝ) (hdev : dev ≤ 0) : ∀ (rest : List (V n)) (c1 c2 : V n),
    (∀ pre a b, c1 :: c2 :: rest = pre ++ [a, b] → a ≠ b) → ∀ s, 0 ≤ s →
    (∃ t, along Seg.tangent none (buildSegments dev c1 c1 (c2 :: rest)) s = some t ∧ ‖t‖ = 1) ∧
      along Seg.curvature 0 (buildSegments dev c1 c1 (c2 :: rest)) s = 0
  | [], c1, c2, hne, s, hs => by
    have h12 : c1 ≠ c2 := hne [] c1 c2 rfl
    have hl : ‖c2 - c1‖ ≠ 0 := norm_ne_zero_iff.mpr (sub_ne_zero.mpr h12.symm)
    refine ⟨⟨‖c2 - c1‖⁻¹ • (c2 - c1), ?_, ?_⟩, rfl⟩
    · simp only [buildSegments, along, Seg.tangent]
      rw [if_neg hl]
    · rw [norm_smul, norm_inv, norm_norm, inv_mul_cancel₀ hl]
  | c3 :: rest, c1, c2, hne, s, hs => by
    have ih := plain_tangent dev hdev rest c2 c3 (fun pre a b h => hne (c1 :: pre) a b (by rw [h]; rfl))
    have hnil : buildSegments dev c2 c2 (c3 :: rest) ≠ [] := by
      cases rest with
      | nil => simp [buildSegments]
      | cons d ds => rw [buildSegments, if_neg (not_lt.mpr hdev)]; simp
    rw [buildSegments, if_neg (not_lt.mpr hdev)]
    by_cases hc : (Seg.lin c1 c2).length ≤ s
    · rw [(along_cons _ _ _ hnil _).1 hc, (along_cons _ _ _ hnil _).1 hc]
      exact ih _ (by linarith)
    · push Not at hc
      rw [(along_cons _ _ _ hnil _).2 hc, (along_cons _ _ _ hnil _).2 hc]
      have hl : 0 < ‖c2 - c1‖ := lt_of_le_of_lt hs hc
      refine ⟨⟨‖c2 - c1‖⁻¹ • (c2 - c1), ?_, ?_⟩, rfl⟩
      · simp only [Seg.tangent]
        rw [if_neg hl.ne']
      · rw [norm_smul, norm_inv, norm_norm, inv_mul_cancel₀ hl.ne']

/-- A positive lower bound of finitely many positive numbers. -/
theorem exists_lower [NeZero n] (f : Fin n → ℝ) (hf : ∀ i, 0 < f i) : ∃ x, 0 < x ∧ x ≤ dblMax ∧ ∀ i, x ≤ f i := by
  obtain ⟨i, -, hi⟩ := Finset.exists_min_image (Finset.univ : Finset (Fin n)) f ⟨0, Finset.mem_univ _⟩
  exact ⟨min (f i) dblMax, lt_min (hf i) dblMax_pos, min_le_right _ _, fun j => le_trans (min_le_left _ _) (hi j (Finset.mem_univ _))⟩

theorem coord_le_one (t : V n) (ht : ‖t‖ = 1) (i : Fin n) : |t i| ≤ 1 := by
  have h3 := PiLp.norm_apply_le t i
  rw [ht] at h3
  simpa using h3

/-- If at every place there is a tangent of unit length, and no curvature, the path is flat. -/
theorem flatCore [NeZero n] {e : Setup n} (hv : ∀ i, 0 < e.vmax i) (ha : ∀ i, 0 < e.amax i) (hvm : ∀ i, n * e.vmax i < dblMax)
    (hlen : 0 < e.path.length) (tan : ℝ → V n) (ht : ∀ s, 0 ≤ s → e.path.tangent s = some (tan s)) (hu : ∀ s, 0 ≤ s → ‖tan s‖ = 1)
    (hc : ∀ s, 0 ≤ s → e.path.curvature s = 0) :
    ∃ a0, FlatCore e (fun s => lineAcc e.amax (tan s)) (fun s => lineVel e.vmax (tan s)) a0 := by
  obtain ⟨a0, h1, h2, h3⟩ := exists_lower e.amax ha
  obtain ⟨v0, k1, k2, k3⟩ := exists_lower e.vmax hv
  have hfrac : ∀ (x y : ℝ) (s : ℝ) (i : Fin n), 0 ≤ s → tan s i ≠ 0 → x ≤ y → 0 < x → x ≤ y / |tan s i| := by
    intro x y s i hs hne hxy hx
    rw [le_div_iff₀ (abs_pos.mpr hne)]
    have := coord_le_one (tan s) (hu s hs) i
    nlinarith [abs_nonneg (tan s i)]
  have hc' : ∀ s, 0 ≤ s → (e.path.curvature s : Fin n → ℝ) = (0 : Fin n → ℝ) := by
    intro s hs
    rw [hc s hs]
    rfl
  have hcz : ∀ s, 0 ≤ s → (e.path.curvature s).ofLp = (0 : Fin n → ℝ) := hc'
  refine ⟨a0, hlen, h1, ?_, ?_, ?_, ?_, ?_, ?_, ?_⟩
  · intro s hs vel
    unfold Setup.acc
    rw [ht s hs]
    dsimp only
    rw [hcz s hs, line_minMaxAcc]
    simp [factor]
  · intro s hs vel
    unfold Setup.acc
    rw [ht s hs]
    dsimp only
    rw [hcz s hs, line_minMaxAcc]
    simp [factor]
  · intro s hs
    unfold Setup.velVel
    rw [ht s hs]
    dsimp only
    rw [lineVel_eq _ _ (fun i => (hv i).le)]
  · intro s hs
    dsimp only
    rw [le_lineAcc]
    exact ⟨h2, fun i hne => hfrac _ _ s i hs hne (h3 i) h1⟩
  · intro s hs
    dsimp only
    refine lt_of_lt_of_le k1 ?_
    rw [le_lineVel _ _ (fun i => (hv i).le)]
    exact ⟨k2, fun i hne => hfrac _ _ s i hs hne (k3 i) k1⟩
  · intro s hs
    unfold Setup.accVel
    rw [ht s hs]
    dsimp only
    rw [hcz s hs]
    unfold accMaxVel
    rw [accVelLoop_zero]
  · intro s hs
    unfold Setup.velVelDeriv
    rw [ht s hs]
    dsimp only
    rw [hcz s hs]
    apply line_deriv hv
    obtain ⟨i, hi⟩ := unit_coord (tan s) (hu s hs)
    have hn : (0 : ℝ) < n := by exact_mod_cast Nat.pos_of_ne_zero (NeZero.ne n)
    have hpos : 0 < |tan s i| := by
      by_contra hcon
      have : |tan s i| = 0 := le_antisymm (not_lt.mp hcon) (abs_nonneg _)
      rw [this] at hi
      norm_num at hi
    refine ⟨i, abs_pos.mp hpos, ?_⟩
    rw [div_lt_iff₀ hpos]
    have h5 := hvm i
    have h6 := hv i
    nlinarith [dblMax_pos]

end CRU.Totp
