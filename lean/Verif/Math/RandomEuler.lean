import Verif.Math.RandomRotation
/-
  C88, second part: the distribution of the Euler angles of random_rotation_generator.hpp.
-/
namespace CRU.Math.RandomRotation
open MeasureTheory Set Matrix
open scoped ENNReal

/-! ### Integrals over one turn -/

/-- An integral over one period does not depend on where it starts. -/
theorem turn_shift {k : ℝ → ℝ≥0∞} (hk : ∀ (n : ℤ) t, k (n + t) = k t) (c : ℝ) :
    ∫⁻ u in Ico (0 : ℝ) 1, k (u + c) = ∫⁻ u in Ico (0 : ℝ) 1, k u := by
  have hp : (0 : ℝ) < 1 := one_pos
  have h1 : ∫⁻ u in Ico (0 : ℝ) 1, k (u + c) = ∫⁻ u in Ico c (c + 1), k u := by
    have := (measurePreserving_add_right (volume : Measure ℝ) c).setLIntegral_comp_preimage_emb
      (measurableEmbedding_addRight c) k (Ico c (c + 1))
    rw [← this]
    congr 2
    ext x; simp [add_comm]
  have h2 : ∫⁻ t in Ioc c (c + 1), k t = ∫⁻ t in Ioc 0 (0 + 1), k t := by
    refine (isAddFundamentalDomain_Ioc hp c).setLIntegral_eq (isAddFundamentalDomain_Ioc hp 0) k ?_
    rintro ⟨g, hg⟩ x
    obtain ⟨n, rfl⟩ := AddSubgroup.mem_zmultiples_iff.mp hg
    rw [AddSubgroup.vadd_def]
    simpa using hk n x
  rw [h1, setLIntegral_congr Ico_ae_eq_Ioc, h2, zero_add, setLIntegral_congr Ico_ae_eq_Ioc]

theorem affine_subst (k : ℝ → ℝ≥0∞) {a : ℝ} (ha : a ≠ 0) (b : ℝ) {s : Set ℝ} (hs : MeasurableSet s) :
    ∫⁻ x in (fun u => a * u + b) '' s, k x = ENNReal.ofReal |a| * ∫⁻ u in s, k (a * u + b) := by
  rw [lintegral_image_eq_lintegral_abs_deriv_mul hs (f' := fun _ => a)
      (fun x _ => by simpa using (((hasDerivAt_id x).const_mul a).add_const b).hasDerivWithinAt)
      (fun x _ y _ h => by simpa [ha] using h), lintegral_const_mul' _ _ ENNReal.ofReal_ne_top]

/-- Going round twice at double speed. -/
theorem turn_double {k : ℝ → ℝ≥0∞} (hk : ∀ (n : ℤ) t, k (n + t) = k t) :
    ∫⁻ u in Ico (0 : ℝ) 1, k (2 * u) = ∫⁻ u in Ico (0 : ℝ) 1, k u := by
  have himg : (fun u : ℝ => 2 * u + 0) '' Ico 0 1 = Ico 0 2 := by
    simp only [add_zero]; rw [image_mul_left_Ico two_pos]; simp
  have h := affine_subst k (a := 2) (by norm_num) 0 (measurableSet_Ico (a := (0 : ℝ)) (b := 1))
  rw [himg] at h
  have hsplit : Ico (0 : ℝ) 2 = Ico 0 1 ∪ Ico 1 2 := (Ico_union_Ico_eq_Ico (by norm_num) (by norm_num)).symm
  have hsh : ∫⁻ u in Ico (1 : ℝ) 2, k u = ∫⁻ u in Ico (0 : ℝ) 1, k u := by
    have := (measurePreserving_add_right (volume : Measure ℝ) 1).setLIntegral_comp_preimage_emb
      (measurableEmbedding_addRight 1) k (Ico 1 2)
    rw [← this]
    have e : (fun x : ℝ => x + 1) ⁻¹' Ico 1 2 = Ico 0 1 := by
      ext x; simp; intro _; constructor <;> intro h <;> linarith
    rw [e]
    refine lintegral_congr fun u => ?_
    have := hk 1 u
    rw [add_comm]; simpa using this
  rw [hsplit, lintegral_union measurableSet_Ico (Ico_disjoint_Ico_same), hsh] at h
  simp only [add_zero] at h
  rw [← two_mul] at h
  have h2 : ENNReal.ofReal |(2 : ℝ)| = 2 := by norm_num
  rw [h2] at h
  exact ((ENNReal.mul_right_inj (by norm_num) (by norm_num)).mp h).symm

/-- The two angles of Shoemake's method may be replaced by half the sum and half the difference of two others, when both
can be turned by half a turn together. -/
theorem torus {h : ℝ × ℝ → ℝ≥0∞} (hm : Measurable h) (h1 : ∀ (n : ℤ) a b, h (n + a, b) = h (a, b))
    (h2 : ∀ (n : ℤ) a b, h (a, n + b) = h (a, b)) (h3 : ∀ a b, h (a + 1 / 2, b + 1 / 2) = h (a, b)) :
    ∫⁻ g in Ico (0 : ℝ) 1, ∫⁻ a in Ico (0 : ℝ) 1, h ((a - g) / 2, (a + g) / 2) =
      ∫⁻ s in Ico (0 : ℝ) 1, ∫⁻ t in Ico (0 : ℝ) 1, h (s, t) := by
  have e1 : ∀ s, ∫⁻ t in Ico (0 : ℝ) 1, h (s, t) = ∫⁻ g in Ico (0 : ℝ) 1, h (s, g + s) := fun s =>
    (turn_shift (k := fun t => h (s, t)) (fun n t => h2 n s t) s).symm
  have hmm : Measurable fun p : ℝ × ℝ => h (p.1, p.2 + p.1) := by fun_prop
  rw [lintegral_congr e1, lintegral_lintegral_swap (f := fun s g => h (s, g + s)) hmm.aemeasurable]
  refine lintegral_congr fun g => ?_
  have hper : ∀ (n : ℤ) a, h ((n + a) / 2, g + (n + a) / 2) = h (a / 2, g + a / 2) := by
    have hstep : ∀ a, h ((a + 1) / 2, g + (a + 1) / 2) = h (a / 2, g + a / 2) := by
      intro a
      have := h3 (a / 2) (g + a / 2)
      rw [← this]
      congr 2 <;> ring
    intro n
    induction n using Int.induction_on with
    | zero => intro a; simp
    | succ i ih =>
      intro a
      have := hstep (i + a)
      rw [← ih a]
      push_cast
      rw [← this]
      congr 2 <;> ring
    | pred i ih =>
      intro a
      have := hstep (-i - 1 + a)
      rw [← ih a]
      push_cast
      rw [← this]
      congr 2 <;> ring
  have e2 := turn_double (k := fun a => h (a / 2, g + a / 2)) hper
  have e3 := turn_shift (k := fun a => h (a / 2, g + a / 2)) hper (-g)
  calc ∫⁻ a in Ico (0 : ℝ) 1, h ((a - g) / 2, (a + g) / 2)
      = ∫⁻ a in Ico (0 : ℝ) 1, h ((a + -g) / 2, g + (a + -g) / 2) := by
        refine lintegral_congr fun a => ?_
        congr 2; ring
    _ = ∫⁻ a in Ico (0 : ℝ) 1, h (a / 2, g + a / 2) := e3
    _ = ∫⁻ a in Ico (0 : ℝ) 1, h (2 * a / 2, g + 2 * a / 2) := e2.symm
    _ = _ := by
        refine lintegral_congr fun a => ?_
        congr 2 <;> ring

/-! ### Turning about z, y and z -/

/-- The product of turns about z, y, z in half angles; `C` and `S` are the cosine and sine of half the middle angle,
`a` and `g` are the other angles in turns, lowered by half a turn. -/
noncomputable def zyz (C S a g : ℝ) : Vec 4 :=
  ![C * Real.cos (2 * Real.pi * ((a + g) / 2 - 1 / 2)), S * Real.sin (2 * Real.pi * ((a - g) / 2)),
    S * Real.cos (2 * Real.pi * ((a - g) / 2)), C * Real.sin (2 * Real.pi * ((a + g) / 2 - 1 / 2))]

theorem quaternionOf_turn (x s t : ℝ) (n : ℤ) : quaternionOf ![x, n + s, t] = quaternionOf ![x, s, t] ∧
    quaternionOf ![x, s, n + t] = quaternionOf ![x, s, t] := by
  have e : ∀ v : ℝ, 2 * Real.pi * (n + v) = 2 * Real.pi * v + n * (2 * Real.pi) := fun v => by ring
  constructor <;> (rw [quaternionOf_eq, quaternionOf_eq]; funext i; fin_cases i <;> simp [e])

theorem quaternionOf_half (x s t : ℝ) : quaternionOf ![x, s + 1 / 2, t + 1 / 2] = -quaternionOf ![x, s, t] := by
  have e : ∀ v : ℝ, 2 * Real.pi * (v + 1 / 2) = 2 * Real.pi * v + Real.pi := fun v => by ring
  rw [quaternionOf_eq, quaternionOf_eq]; funext i
  fin_cases i <;> simp only [cons_val, e, Real.cos_add_pi, Real.sin_add_pi] <;> simp [e, Real.cos_add_pi, Real.sin_add_pi]

/-- The middle angle contributes signs only. -/
theorem zyz_quaternion {C S x : ℝ} (hC : C * C = x) (hS : S * S = 1 - x) :
    ∃ δ ε : ℝ, ∀ a g, zyz C S a g = quaternionOf ![x, (a - g) / 2 + δ, (a + g) / 2 + ε] := by
  have e : ∀ v : ℝ, 2 * Real.pi * (v + 1 / 2) = 2 * Real.pi * v + Real.pi := fun v => by ring
  have hC' : √x = |C| := by rw [← hC, Real.sqrt_mul_self_eq_abs]
  have hS' : √(1 - x) = |S| := by rw [← hS, Real.sqrt_mul_self_eq_abs]
  refine ⟨if 0 ≤ S then 0 else 1 / 2, if 0 ≤ C then -(1 / 2) else 0, fun a g => ?_⟩
  rw [quaternionOf_eq, zyz]
  have h1 : S * Real.sin (2 * Real.pi * ((a - g) / 2)) = Real.sin (2 * Real.pi * ((a - g) / 2 + if 0 ≤ S then 0 else 1 / 2)) * |S| ∧
      S * Real.cos (2 * Real.pi * ((a - g) / 2)) = Real.cos (2 * Real.pi * ((a - g) / 2 + if 0 ≤ S then 0 else 1 / 2)) * |S| := by
    split_ifs with h
    · rw [abs_of_nonneg h, add_zero]; constructor <;> ring
    · rw [abs_of_neg (not_le.mp h), e, Real.sin_add_pi, Real.cos_add_pi]; constructor <;> ring
  have h2 : C * Real.sin (2 * Real.pi * ((a + g) / 2 - 1 / 2)) = Real.sin (2 * Real.pi * ((a + g) / 2 + if 0 ≤ C then -(1 / 2) else 0)) * |C| ∧
      C * Real.cos (2 * Real.pi * ((a + g) / 2 - 1 / 2)) = Real.cos (2 * Real.pi * ((a + g) / 2 + if 0 ≤ C then -(1 / 2) else 0)) * |C| := by
    split_ifs with h
    · rw [abs_of_nonneg h, ← sub_eq_add_neg]; constructor <;> ring
    · rw [abs_of_neg (not_le.mp h), add_zero]
      have e2 := e ((a + g) / 2 - 1 / 2)
      rw [sub_add_cancel] at e2
      rw [e2, Real.sin_add_pi, Real.cos_add_pi]; constructor <;> ring
  funext i
  fin_cases i
  · simpa [hC'] using h2.2
  · simpa [hS'] using h1.1
  · simpa [hS'] using h1.2
  · simpa [hC'] using h2.1

/-- For uniform outer angles, the middle angle of turns about z, y, z counts only by the square of its half cosine. -/
theorem zyz_law {B : Set (Vec 4)} (hB : MeasurableSet B) (hneg : ∀ q, -q ∈ B ↔ q ∈ B) {C S x : ℝ} (hC : C * C = x) (hS : S * S = 1 - x) :
    ∫⁻ g in Ico (0 : ℝ) 1, ∫⁻ a in Ico (0 : ℝ) 1, B.indicator (1 : Vec 4 → ℝ≥0∞) (zyz C S a g) =
      ∫⁻ s in Ico (0 : ℝ) 1, ∫⁻ t in Ico (0 : ℝ) 1, B.indicator (1 : Vec 4 → ℝ≥0∞) (quaternionOf ![x, s, t]) := by
  obtain ⟨δ, ε, hz⟩ := zyz_quaternion hC hS
  have hmb : Measurable (B.indicator (1 : Vec 4 → ℝ≥0∞)) := measurable_one.indicator hB
  have hq : Measurable fun p : ℝ × ℝ => quaternionOf ![x, p.1, p.2] := by
    refine quaternionOf_measurable.comp ?_
    rw [measurable_pi_iff]; intro i; fin_cases i <;> simp <;> fun_prop
  have hind : ∀ q q' : Vec 4, (q' = q ∨ q' = -q) → B.indicator (1 : Vec 4 → ℝ≥0∞) q' = B.indicator 1 q := by
    rintro q q' (rfl | rfl)
    · rfl
    · by_cases h : q ∈ B
      · rw [indicator_of_mem h, indicator_of_mem ((hneg q).mpr h)]; rfl
      · rw [indicator_of_notMem h, indicator_of_notMem (fun h' => h ((hneg q).mp h'))]
  simp only [hz]
  rw [torus (h := fun p => B.indicator (1 : Vec 4 → ℝ≥0∞) (quaternionOf ![x, p.1 + δ, p.2 + ε]))]
  · calc ∫⁻ s in Ico (0 : ℝ) 1, ∫⁻ t in Ico (0 : ℝ) 1, B.indicator (1 : Vec 4 → ℝ≥0∞) (quaternionOf ![x, s + δ, t + ε])
        = ∫⁻ s in Ico (0 : ℝ) 1, ∫⁻ t in Ico (0 : ℝ) 1, B.indicator (1 : Vec 4 → ℝ≥0∞) (quaternionOf ![x, s + δ, t]) := by
          refine lintegral_congr fun s => ?_
          exact turn_shift (k := fun t => B.indicator (1 : Vec 4 → ℝ≥0∞) (quaternionOf ![x, s + δ, t]))
            (fun n t => by rw [(quaternionOf_turn x (s + δ) t n).2]) ε
      _ = _ := turn_shift (k := fun s => ∫⁻ t in Ico (0 : ℝ) 1, B.indicator (1 : Vec 4 → ℝ≥0∞) (quaternionOf ![x, s, t]))
          (fun n s => by
            refine lintegral_congr fun t => ?_
            rw [(quaternionOf_turn x s t n).1]) δ
  · have := hq.comp (show Measurable fun p : ℝ × ℝ => (p.1 + δ, p.2 + ε) by fun_prop)
    exact hmb.comp this
  · intro n a b
    simp only
    rw [add_assoc, (quaternionOf_turn x (a + δ) (b + ε) n).1]
  · intro n a b
    simp only
    rw [add_assoc, (quaternionOf_turn x (a + δ) (b + ε) n).2]
  · intro a b
    simp only
    refine hind _ _ (Or.inr ?_)
    rw [← quaternionOf_half, add_right_comm a, add_right_comm b]

/-! ### Four draws -/

/-- The integral of a function of four draws, draw by draw. -/
theorem cube4_lintegral {g : (Fin 4 → ℝ) → ℝ≥0∞} (hg : Measurable g) :
    ∫⁻ u in unitDraws 4, g u = ∫⁻ b in Ico (0 : ℝ) 1, ∫⁻ c in Ico (0 : ℝ) 1, ∫⁻ d in Ico (0 : ℝ) 1, ∫⁻ a in Ico (0 : ℝ) 1,
      g ![a, b, c, d] := by
  let ψ : ℝ × ℝ × ℝ × ℝ → Fin 4 → ℝ := fun p => ![p.2.2.2, p.1, p.2.1, p.2.2.1]
  have hψ : Measurable ψ := by
    rw [measurable_pi_iff]; intro i; fin_cases i <;> simp [ψ] <;> fun_prop
  have hmp : MeasurePreserving ψ := by
    refine ⟨hψ, ?_⟩
    rw [volume_pi]
    symm
    refine Measure.pi_eq fun s hs => ?_
    rw [Measure.map_apply hψ (MeasurableSet.univ_pi hs)]
    have : ψ ⁻¹' (univ.pi s) = s 1 ×ˢ (s 2 ×ˢ (s 3 ×ˢ s 0)) := by
      ext ⟨a, b, c, d⟩
      simp only [ψ, mem_preimage, Set.mem_pi, mem_univ, true_implies, Fin.forall_fin_succ, mem_prod]
      simp
      tauto
    rw [this, Measure.volume_eq_prod, Measure.prod_prod, Measure.volume_eq_prod, Measure.prod_prod, Measure.volume_eq_prod,
      Measure.prod_prod, Fin.prod_univ_four]
    ring
  have hms : MeasurableSet (unitDraws 4) := MeasurableSet.univ_pi fun _ => measurableSet_Ico
  rw [← lintegral_indicator hms, ← hmp.lintegral_comp (hg.indicator hms)]
  have hpre : (fun p => (unitDraws 4).indicator g (ψ p)) =
      (Ico (0 : ℝ) 1 ×ˢ (Ico (0 : ℝ) 1 ×ˢ (Ico (0 : ℝ) 1 ×ˢ Ico (0 : ℝ) 1))).indicator fun p => g (ψ p) := by
    funext p
    have : ψ p ∈ unitDraws 4 ↔ p ∈ Ico (0 : ℝ) 1 ×ˢ (Ico (0 : ℝ) 1 ×ˢ (Ico (0 : ℝ) 1 ×ˢ Ico (0 : ℝ) 1)) := by
      simp only [ψ, unitDraws, Set.mem_pi, mem_univ, true_implies, Fin.forall_fin_succ, mem_prod]
      simp
      tauto
    by_cases h : p ∈ Ico (0 : ℝ) 1 ×ˢ (Ico (0 : ℝ) 1 ×ˢ (Ico (0 : ℝ) 1 ×ˢ Ico (0 : ℝ) 1))
    · rw [indicator_of_mem h, indicator_of_mem (this.mpr h)]
    · rw [indicator_of_notMem h, indicator_of_notMem (fun h' => h (this.mp h'))]
  have hgm : Measurable fun p => g (ψ p) := hg.comp hψ
  rw [hpre, lintegral_indicator (measurableSet_Ico.prod (measurableSet_Ico.prod (measurableSet_Ico.prod measurableSet_Ico))),
    Measure.volume_eq_prod, setLIntegral_prod (fun p => g (ψ p)) hgm.aemeasurable]
  refine lintegral_congr fun b => ?_
  have hg1 : Measurable fun p => g (ψ (b, p)) := hgm.comp (measurable_const.prodMk measurable_id)
  rw [Measure.volume_eq_prod, setLIntegral_prod _ hg1.aemeasurable]
  refine lintegral_congr fun c => ?_
  have hg2 : Measurable fun p => g (ψ (b, c, p)) := hg1.comp (measurable_const.prodMk measurable_id)
  rw [Measure.volume_eq_prod, setLIntegral_prod _ hg2.aemeasurable]

open Classical in
theorem eulerOf_eq (u : Fin 4 → ℝ) : eulerOf u =
    ![2 * Real.pi * u 0 - Real.pi,
      if u 2 < 1 / 2 then (if Real.arccos (1 - 2 * u 1) + Real.pi / 2 < Real.pi then Real.arccos (1 - 2 * u 1) + Real.pi / 2 + Real.pi
        else Real.arccos (1 - 2 * u 1) + Real.pi / 2 - Real.pi) else Real.arccos (1 - 2 * u 1) + Real.pi / 2,
      2 * Real.pi * u 3 - Real.pi] := rfl

theorem eulerOf_measurable : Measurable eulerOf := by
  rw [measurable_pi_iff]
  intro i
  have hacos : Measurable fun u : Fin 4 → ℝ => Real.arccos (1 - 2 * u 1) :=
    Real.continuous_arccos.measurable.comp (by fun_prop)
  fin_cases i
  · simp only [eulerOf_eq]; simp; fun_prop
  · simp only [eulerOf_eq]
    simp only [Fin.mk_one, cons_val_one, cons_val_zero]
    refine Measurable.ite (measurableSet_lt (by fun_prop) measurable_const) (Measurable.ite (measurableSet_lt (by fun_prop) measurable_const) ?_ ?_) ?_ <;> fun_prop
  · simp only [eulerOf_eq]; simp; fun_prop

/-- The sine of the pitch is `1 − 2u`, with the sign turned over in half of the cases. -/
theorem eulerOf_sin {u : Fin 4 → ℝ} (h0 : 0 ≤ u 1) (h1 : u 1 ≤ 1) :
    Real.sin (eulerOf u 1) = if u 2 < 1 / 2 then -(1 - 2 * u 1) else 1 - 2 * u 1 := by
  have e : Real.cos (Real.arccos (1 - 2 * u 1)) = 1 - 2 * u 1 := Real.cos_arccos (by linarith) (by linarith)
  simp only [eulerOf_eq, cons_val_one, cons_val_zero]
  split_ifs
  · rw [Real.sin_add_pi, Real.sin_add_pi_div_two, e]
  · rw [Real.sin_sub_pi, Real.sin_add_pi_div_two, e]
  · rw [Real.sin_add_pi_div_two, e]

/-- The distribution of a product of turns whose outer angles are uniform and whose middle angle has a half cosine with
uniform square. -/
theorem euler_law {B : Set (Vec 4)} (hB : MeasurableSet B) (hneg : ∀ q, -q ∈ B ↔ q ∈ B) {Z : (Fin 4 → ℝ) → Vec 4}
    (hZm : Measurable Z) {C S : ℝ → ℝ → ℝ} {f : Bool}
    (hC : ∀ b c, 0 ≤ b → b < 1 → C b c * C b c = if (c < 1 / 2 ↔ f = true) then 1 - b else b)
    (hS : ∀ b c, S b c * S b c = 1 - C b c * C b c)
    (hor : (∀ a b c d, Z ![a, b, c, d] = zyz (C b c) (S b c) a d) ∨ (∀ a b c d, Z ![a, b, c, d] = zyz (C b c) (S b c) d a)) :
    volume {u ∈ unitDraws 4 | Z u ∈ B} = volume {u ∈ unitDraws 3 | quaternionOf u ∈ B} := by
  have hms : MeasurableSet (Z ⁻¹' B) := hZm hB
  have hqs : MeasurableSet (quaternionOf ⁻¹' B) := quaternionOf_measurable hB
  have hmb : Measurable (B.indicator (1 : Vec 4 → ℝ≥0∞)) := measurable_one.indicator hB
  have hind4 : ∀ u, (Z ⁻¹' B).indicator (1 : (Fin 4 → ℝ) → ℝ≥0∞) u = B.indicator (1 : Vec 4 → ℝ≥0∞) (Z u) := by
    intro u
    by_cases h : Z u ∈ B
    · rw [indicator_of_mem h, indicator_of_mem (by exact h)]; rfl
    · rw [indicator_of_notMem h, indicator_of_notMem (by exact h)]
  have hind3 : ∀ u, (quaternionOf ⁻¹' B).indicator (1 : (Fin 3 → ℝ) → ℝ≥0∞) u = B.indicator (1 : Vec 4 → ℝ≥0∞) (quaternionOf u) := by
    intro u
    by_cases h : quaternionOf u ∈ B
    · rw [indicator_of_mem h, indicator_of_mem (by exact h)]; rfl
    · rw [indicator_of_notMem h, indicator_of_notMem (by exact h)]
  have e4 : volume {u ∈ unitDraws 4 | Z u ∈ B} = ∫⁻ u in unitDraws 4, (Z ⁻¹' B).indicator 1 u := by
    rw [lintegral_indicator_one hms, Measure.restrict_apply hms, inter_comm]; rfl
  have e3 : volume {u ∈ unitDraws 3 | quaternionOf u ∈ B} = ∫⁻ u in unitDraws 3, (quaternionOf ⁻¹' B).indicator 1 u := by
    rw [lintegral_indicator_one hqs, Measure.restrict_apply hqs, inter_comm]; rfl
  rw [e4, e3, cube4_lintegral (measurable_one.indicator hms), cube_lintegral (measurable_one.indicator hqs)]
  simp only [hind4, hind3]
  set Φ : ℝ → ℝ≥0∞ := fun x => ∫⁻ s in Ico (0 : ℝ) 1, ∫⁻ t in Ico (0 : ℝ) 1, B.indicator (1 : Vec 4 → ℝ≥0∞) (quaternionOf ![x, s, t])
  have hΦm : Measurable Φ := by
    have h2 : Measurable fun q : (ℝ × ℝ) × ℝ => B.indicator (1 : Vec 4 → ℝ≥0∞) (quaternionOf ![q.1.1, q.1.2, q.2]) := by
      refine hmb.comp (quaternionOf_measurable.comp ?_)
      rw [measurable_pi_iff]; intro i; fin_cases i <;> simp <;> fun_prop
    exact Measurable.lintegral_prod_right' (f := fun q : ℝ × ℝ => ∫⁻ t in Ico (0 : ℝ) 1, B.indicator (1 : Vec 4 → ℝ≥0∞) (quaternionOf ![q.1, q.2, t]))
      (Measurable.lintegral_prod_right' h2)
  have hzm : ∀ C S : ℝ, Measurable fun p : ℝ × ℝ => B.indicator (1 : Vec 4 → ℝ≥0∞) (zyz C S p.1 p.2) := by
    intro C S
    refine hmb.comp ?_
    rw [measurable_pi_iff]; intro i; fin_cases i <;> simp [zyz] <;> fun_prop
  have hinner : ∀ b ∈ Ico (0 : ℝ) 1, ∀ c, ∫⁻ d in Ico (0 : ℝ) 1, ∫⁻ a in Ico (0 : ℝ) 1, B.indicator (1 : Vec 4 → ℝ≥0∞) (Z ![a, b, c, d]) =
      Φ (if (c < 1 / 2 ↔ f = true) then 1 - b else b) := by
    intro b hb c
    have h1 := hC b c hb.1 hb.2
    have h2 := hS b c
    rw [h1] at h2
    have hlaw := zyz_law hB hneg h1 h2
    rcases hor with h | h
    · simp only [h]
      exact hlaw
    · simp only [h]
      rw [lintegral_lintegral_swap]
      · exact hlaw
      · exact ((hzm (C b c) (S b c))).aemeasurable
  have hstep : ∫⁻ b in Ico (0 : ℝ) 1, ∫⁻ c in Ico (0 : ℝ) 1, ∫⁻ d in Ico (0 : ℝ) 1, ∫⁻ a in Ico (0 : ℝ) 1, B.indicator (1 : Vec 4 → ℝ≥0∞) (Z ![a, b, c, d]) =
      ∫⁻ b in Ico (0 : ℝ) 1, (2⁻¹ * Φ (1 - b) + 2⁻¹ * Φ b) := by
    refine setLIntegral_congr_fun measurableSet_Ico fun b hb => ?_
    simp only [hinner b hb]
    rw [← Ico_union_Ico_eq_Ico (show (0 : ℝ) ≤ 1 / 2 by norm_num) (show (1 / 2 : ℝ) ≤ 1 by norm_num),
      lintegral_union measurableSet_Ico Ico_disjoint_Ico_same]
    have i1 : ∫⁻ c in Ico (0 : ℝ) (1 / 2), Φ (if (c < 1 / 2 ↔ f = true) then 1 - b else b) = 2⁻¹ * Φ (if f = true then 1 - b else b) := by
      rw [setLIntegral_congr_fun (g := fun _ => Φ (if f = true then 1 - b else b)) measurableSet_Ico (fun c hc => by simp only [hc.2, true_iff])]
      rw [setLIntegral_const, Real.volume_Ico, mul_comm]
      congr 1
      rw [show (1 / 2 - 0 : ℝ) = 2⁻¹ by norm_num, ENNReal.ofReal_inv_of_pos two_pos]; norm_num
    have i2 : ∫⁻ c in Ico (1 / 2 : ℝ) 1, Φ (if (c < 1 / 2 ↔ f = true) then 1 - b else b) = 2⁻¹ * Φ (if f = true then b else 1 - b) := by
      rw [setLIntegral_congr_fun (g := fun _ => Φ (if f = true then b else 1 - b)) measurableSet_Ico (fun c hc => by
        simp only [not_lt.mpr hc.1]; cases f <;> simp)]
      rw [setLIntegral_const, Real.volume_Ico, mul_comm]
      congr 1
      rw [show (1 - 1 / 2 : ℝ) = 2⁻¹ by norm_num, ENNReal.ofReal_inv_of_pos two_pos]; norm_num
    rw [i1, i2]
    cases f <;> simp [add_comm]
  rw [hstep, lintegral_add_left (by fun_prop), lintegral_const_mul' _ _ (by simp), lintegral_const_mul' _ _ (by simp)]
  have hrefl : ∫⁻ b in Ico (0 : ℝ) 1, Φ (1 - b) = ∫⁻ b in Ico (0 : ℝ) 1, Φ b := by
    have h := affine_subst Φ (a := -1) (by norm_num) 1 (measurableSet_Ico (a := (0 : ℝ)) (b := 1))
    have himg : (fun u : ℝ => -1 * u + 1) '' Ico 0 1 = Ioc 0 1 := by
      ext x
      simp only [mem_image, mem_Ico, mem_Ioc]
      constructor
      · rintro ⟨u, ⟨h0, h1⟩, rfl⟩; constructor <;> linarith
      · rintro ⟨h0, h1⟩; exact ⟨1 - x, ⟨by linarith, by linarith⟩, by ring⟩
    rw [himg] at h
    simp only [abs_neg, abs_one, ENNReal.ofReal_one, one_mul] at h
    rw [setLIntegral_congr (f := Φ) (Ico_ae_eq_Ioc (a := (0 : ℝ)) (b := 1)), h]
    refine lintegral_congr fun u => ?_
    congr 1; ring
  rw [hrefl, ← add_mul, ENNReal.inv_two_add_inv_two, one_mul]

theorem turns (t : ℝ) : ofAngleAxis t unitX = ![Real.cos (1 / 2 * t), Real.sin (1 / 2 * t), 0, 0] ∧
    ofAngleAxis t unitY = ![Real.cos (1 / 2 * t), 0, Real.sin (1 / 2 * t), 0] ∧
    ofAngleAxis t unitZ = ![Real.cos (1 / 2 * t), 0, 0, Real.sin (1 / 2 * t)] := by
  refine ⟨?_, ?_, ?_⟩ <;> (funext i; fin_cases i <;> simp [ofAngleAxis, unitX, unitY, unitZ])

theorem mul4 (a b c d e f g h : ℝ) : qmul ![a, b, c, d] ![e, f, g, h] =
    ![a * e - b * f - c * g - d * h, a * f + b * e + c * h - d * g, a * g - b * h + c * e + d * f, a * h + b * g - c * f + d * e] := by
  funext i; fin_cases i <;> simp [qmul]

theorem ext4 {a b c d e f g h : ℝ} (h1 : a = e) (h2 : b = f) (h3 : c = g) (h4 : d = h) : (![a, b, c, d] : Vec 4) = ![e, f, g, h] := by
  rw [h1, h2, h3, h4]

theorem urdf_zyz (p a g : ℝ) :
    qmul (quaternionFromUrdfRPY (2 * Real.pi * a - Real.pi) p (2 * Real.pi * g - Real.pi)) (ofAngleAxis (Real.pi / 2) unitY) =
      zyz (Real.cos (p / 2 + Real.pi / 4)) (Real.sin (p / 2 + Real.pi / 4)) a g := by
  have e1 : 2 * Real.pi * ((a + g) / 2 - 1 / 2) = 1 / 2 * (2 * Real.pi * a - Real.pi) + 1 / 2 * (2 * Real.pi * g - Real.pi) := by ring
  have e2 : 2 * Real.pi * ((a - g) / 2) = 1 / 2 * (2 * Real.pi * a - Real.pi) - 1 / 2 * (2 * Real.pi * g - Real.pi) := by ring
  have e3 : p / 2 + Real.pi / 4 = 1 / 2 * p + 1 / 2 * (Real.pi / 2) := by ring
  rw [zyz, e1, e2, e3]
  unfold quaternionFromUrdfRPY
  dsimp only
  have hq : Real.sin (1 / 2 * (Real.pi / 2)) = Real.cos (1 / 2 * (Real.pi / 2)) := by
    rw [show 1 / 2 * (Real.pi / 2) = Real.pi / 4 by ring, Real.cos_pi_div_four, Real.sin_pi_div_four]
  rw [(turns _).1, (turns _).2.1, (turns _).2.2, (turns _).2.1, mul4, mul4, mul4]
  simp only [Real.cos_add, Real.sin_add, Real.cos_sub (1 / 2 * (2 * Real.pi * a - Real.pi)), Real.sin_sub (1 / 2 * (2 * Real.pi * a - Real.pi)), hq]
  apply ext4 <;> ring

theorem rpy_zyz (p a g : ℝ) :
    qmul (ofAngleAxis (-(Real.pi / 2)) unitY) (quaternionFromRPY (2 * Real.pi * g - Real.pi) p (2 * Real.pi * a - Real.pi)) =
      zyz (Real.cos (p / 2 - Real.pi / 4)) (Real.sin (p / 2 - Real.pi / 4)) a g := by
  have e1 : 2 * Real.pi * ((a + g) / 2 - 1 / 2) = 1 / 2 * (2 * Real.pi * a - Real.pi) + 1 / 2 * (2 * Real.pi * g - Real.pi) := by ring
  have e2 : 2 * Real.pi * ((a - g) / 2) = 1 / 2 * (2 * Real.pi * a - Real.pi) - 1 / 2 * (2 * Real.pi * g - Real.pi) := by ring
  have e3 : p / 2 - Real.pi / 4 = 1 / 2 * p + 1 / 2 * (-(Real.pi / 2)) := by ring
  rw [zyz, e1, e2, e3]
  unfold quaternionFromRPY
  dsimp only
  have hq : Real.sin (1 / 2 * (-(Real.pi / 2))) = -Real.cos (1 / 2 * (-(Real.pi / 2))) := by
    rw [show 1 / 2 * (-(Real.pi / 2)) = -(Real.pi / 4) by ring, Real.cos_neg, Real.sin_neg, Real.cos_pi_div_four, Real.sin_pi_div_four]
  rw [(turns _).1, (turns _).2.1, (turns _).2.2, (turns _).2.1, mul4, mul4, mul4]
  simp only [Real.cos_add, Real.sin_add, Real.cos_sub (1 / 2 * (2 * Real.pi * a - Real.pi)), Real.sin_sub (1 / 2 * (2 * Real.pi * a - Real.pi)), hq]
  apply ext4 <;> ring

/-! ### The Euler angles -/

/-- The entries of a matrix: a set of matrices is measurable as a set of their entries. -/
def entries (m : Mat 3) : Fin 3 → Fin 3 → ℝ := fun i j => m i j

/-- The four draws of the Euler angles, and their ranges: roll and yaw in `[−π, π)`, pitch in `[0, 2π)`. -/
theorem C88_euler_range {σ : Type*} (draw : σ → ℝ × σ) (s : σ) (hd : ∀ s, 0 ≤ (draw s).1 ∧ (draw s).1 < 1) :
    let a := getEulerAngles draw s
    (-Real.pi ≤ a.1 0 ∧ a.1 0 < Real.pi) ∧ (0 ≤ a.1 1 ∧ a.1 1 < 2 * Real.pi) ∧ (-Real.pi ≤ a.1 2 ∧ a.1 2 < Real.pi) ∧
    a.1 = eulerOf ![(draw s).1, (draw (draw s).2).1, (draw (draw (draw s).2).2).1, (draw (draw (draw (draw s).2).2).2).1] ∧
    a.2 = (draw (draw (draw (draw s).2).2).2).2 ∧ (getRawEulerAngles draw s).1 = [a.1 0, a.1 1, a.1 2] := by
  have hp := Real.pi_pos
  intro a
  have ha : a.1 = eulerOf ![(draw s).1, (draw (draw s).2).1, (draw (draw (draw s).2).2).1, (draw (draw (draw (draw s).2).2).2).1] := rfl
  refine ⟨?_, ?_, ?_, ha, rfl, rfl⟩
  · rw [ha, eulerOf_eq]
    simp only [cons_val]
    obtain ⟨h0, h1⟩ := hd s
    constructor <;> nlinarith
  · rw [ha, eulerOf_eq]
    simp only [cons_val]
    obtain ⟨h0, h1⟩ := hd (draw s).2
    have b0 := Real.arccos_nonneg (1 - 2 * (draw (draw s).2).1)
    have b1 : Real.arccos (1 - 2 * (draw (draw s).2).1) < Real.pi := by
      refine lt_of_le_of_ne (Real.arccos_le_pi _) fun h => ?_
      have := Real.arccos_eq_pi.mp h
      linarith
    by_cases h2 : (draw (draw (draw s).2).2).1 < 1 / 2 <;>
      by_cases h3 : Real.arccos (1 - 2 * (draw (draw s).2).1) + Real.pi / 2 < Real.pi <;>
      simp only [h2, h3, if_true, if_false] <;> constructor <;> linarith
  · rw [ha, eulerOf_eq]
    simp only [cons_val]
    obtain ⟨h0, h1⟩ := hd (draw (draw (draw s).2).2).2
    constructor <;> nlinarith

/-- With independent draws, uniform on `[0, 1)`, the rotation that the Euler angles describe has the distribution of the
random quaternions, hence is uniform: both when the angles are read as turns about z, y, x (`QuaternionFromUrdfRPY`) and as
turns about x, y, z (`QuaternionFromRPY`). -/
theorem C88_euler_uniform {A : Set (Fin 3 → Fin 3 → ℝ)} (hA : MeasurableSet A) :
    volume {u ∈ unitDraws 4 | entries (toRotationMatrix (quaternionFromUrdfRPY (eulerOf u 0) (eulerOf u 1) (eulerOf u 2))) ∈ A} =
      volume {u ∈ unitDraws 3 | entries (toRotationMatrix (quaternionOf u)) ∈ A} ∧
    volume {u ∈ unitDraws 4 | entries (toRotationMatrix (quaternionFromRPY (eulerOf u 0) (eulerOf u 1) (eulerOf u 2))) ∈ A} =
      volume {u ∈ unitDraws 3 | entries (toRotationMatrix (quaternionOf u)) ∈ A} := by
  have htm : Measurable fun q : Vec 4 => entries (toRotationMatrix q) := by
    rw [measurable_pi_iff]; intro i
    rw [measurable_pi_iff]; intro j
    fin_cases i <;> fin_cases j <;> simp [entries, toRotationMatrix] <;> fun_prop
  obtain ⟨_, hy, _⟩ := unit_axes
  have hmq : ∀ p : Vec 4, Measurable fun q => qmul q p := fun p => (mulRight p).continuous_of_finiteDimensional.measurable
  have hmp : ∀ p : Vec 4, Measurable fun q => qmul p q := fun p => (mulLeft p).continuous_of_finiteDimensional.measurable
  have hem := eulerOf_measurable
  have hem' : ∀ i, Measurable fun u => eulerOf u i := fun i => (measurable_pi_apply i).comp hem
  have hh : ∀ x : ℝ, Real.cos x * Real.cos x = (1 + Real.cos (2 * x)) / 2 := fun x => by rw [Real.cos_two_mul]; ring
  constructor
  · have hun : sqNorm (ofAngleAxis (-(Real.pi / 2)) unitY) = 1 := sqNorm_ofAngleAxis hy _
    have hcancel : ∀ q, qmul (qmul q (ofAngleAxis (Real.pi / 2) unitY)) (ofAngleAxis (-(Real.pi / 2)) unitY) = q := by
      intro q
      have hsc := Real.sin_sq_add_cos_sq (1 / 2 * (Real.pi / 2))
      have : q = ![q 0, q 1, q 2, q 3] := by funext i; fin_cases i <;> rfl
      rw [this, (turns _).2.1, (turns _).2.1, mul4, mul4, show 1 / 2 * (-(Real.pi / 2)) = -(1 / 2 * (Real.pi / 2)) by ring,
        Real.cos_neg, Real.sin_neg]
      apply ext4 <;> [linear_combination q 0 * hsc; linear_combination q 1 * hsc; linear_combination q 2 * hsc; linear_combination q 3 * hsc]
    let B : Set (Vec 4) := {q | entries (toRotationMatrix (qmul q (ofAngleAxis (-(Real.pi / 2)) unitY))) ∈ A}
    have hB : MeasurableSet B := (htm.comp (hmq _)) hA
    have hneg : ∀ q, -q ∈ B ↔ q ∈ B := by
      intro q
      have : qmul (-q) (ofAngleAxis (-(Real.pi / 2)) unitY) = -qmul q (ofAngleAxis (-(Real.pi / 2)) unitY) :=
        (mulRight (ofAngleAxis (-(Real.pi / 2)) unitY)).map_neg q
      simp only [B, mem_setOf_eq, this, toRotationMatrix_neg]
    have hinv := (C88_quaternion_invariant hun (A := {q | entries (toRotationMatrix q) ∈ A}) (htm hA)).2
    simp only [mem_setOf_eq] at hinv
    rw [← hinv]
    have := euler_law hB hneg (f := true)
      (Z := fun u => qmul (quaternionFromUrdfRPY (eulerOf u 0) (eulerOf u 1) (eulerOf u 2)) (ofAngleAxis (Real.pi / 2) unitY))
      (C := fun b c => Real.cos (eulerOf ![0, b, c, 0] 1 / 2 + Real.pi / 4)) (S := fun b c => Real.sin (eulerOf ![0, b, c, 0] 1 / 2 + Real.pi / 4))
      (by
        have hz : (fun u => qmul (quaternionFromUrdfRPY (eulerOf u 0) (eulerOf u 1) (eulerOf u 2)) (ofAngleAxis (Real.pi / 2) unitY)) =
            fun u => zyz (Real.cos (eulerOf u 1 / 2 + Real.pi / 4)) (Real.sin (eulerOf u 1 / 2 + Real.pi / 4)) (u 0) (u 3) := by
          funext u
          rw [← urdf_zyz]
          rfl
        rw [hz, measurable_pi_iff]
        intro i
        have := hem' 1
        fin_cases i <;> simp [zyz] <;> fun_prop)
      (by
        intro b c h0 h1
        rw [hh, show 2 * (eulerOf ![0, b, c, 0] 1 / 2 + Real.pi / 4) = eulerOf ![0, b, c, 0] 1 + Real.pi / 2 by ring,
          Real.cos_add_pi_div_two, eulerOf_sin (by simpa using h0) (by simpa using h1.le)]
        simp only [cons_val]
        by_cases hc : c < 1 / 2
        · simp only [hc, if_true, true_iff]; ring
        · simp only [hc, if_false, false_iff, not_true_eq_false]; ring)
      (by
        intro b c
        have := Real.sin_sq_add_cos_sq (eulerOf ![0, b, c, 0] 1 / 2 + Real.pi / 4)
        linear_combination this)
      (Or.inl (by
        intro a b c d
        exact urdf_zyz (eulerOf ![0, b, c, 0] 1) a d))
    simp only [B, mem_setOf_eq, hcancel] at this
    exact this
  · have hun : sqNorm (ofAngleAxis (Real.pi / 2) unitY) = 1 := sqNorm_ofAngleAxis hy _
    have hcancel : ∀ q, qmul (ofAngleAxis (Real.pi / 2) unitY) (qmul (ofAngleAxis (-(Real.pi / 2)) unitY) q) = q := by
      intro q
      have hsc := Real.sin_sq_add_cos_sq (1 / 2 * (Real.pi / 2))
      have : q = ![q 0, q 1, q 2, q 3] := by funext i; fin_cases i <;> rfl
      rw [this, (turns _).2.1, (turns _).2.1, mul4, mul4, show 1 / 2 * (-(Real.pi / 2)) = -(1 / 2 * (Real.pi / 2)) by ring,
        Real.cos_neg, Real.sin_neg]
      apply ext4 <;> [linear_combination q 0 * hsc; linear_combination q 1 * hsc; linear_combination q 2 * hsc; linear_combination q 3 * hsc]
    let B : Set (Vec 4) := {q | entries (toRotationMatrix (qmul (ofAngleAxis (Real.pi / 2) unitY) q)) ∈ A}
    have hB : MeasurableSet B := (htm.comp (hmp _)) hA
    have hneg : ∀ q, -q ∈ B ↔ q ∈ B := by
      intro q
      have : qmul (ofAngleAxis (Real.pi / 2) unitY) (-q) = -qmul (ofAngleAxis (Real.pi / 2) unitY) q :=
        (mulLeft (ofAngleAxis (Real.pi / 2) unitY)).map_neg q
      simp only [B, mem_setOf_eq, this, toRotationMatrix_neg]
    have hinv := (C88_quaternion_invariant hun (A := {q | entries (toRotationMatrix q) ∈ A}) (htm hA)).1
    simp only [mem_setOf_eq] at hinv
    rw [← hinv]
    have := euler_law hB hneg (f := false)
      (Z := fun u => qmul (ofAngleAxis (-(Real.pi / 2)) unitY) (quaternionFromRPY (eulerOf u 0) (eulerOf u 1) (eulerOf u 2)))
      (C := fun b c => Real.cos (eulerOf ![0, b, c, 0] 1 / 2 - Real.pi / 4)) (S := fun b c => Real.sin (eulerOf ![0, b, c, 0] 1 / 2 - Real.pi / 4))
      (by
        have hz : (fun u => qmul (ofAngleAxis (-(Real.pi / 2)) unitY) (quaternionFromRPY (eulerOf u 0) (eulerOf u 1) (eulerOf u 2))) =
            fun u => zyz (Real.cos (eulerOf u 1 / 2 - Real.pi / 4)) (Real.sin (eulerOf u 1 / 2 - Real.pi / 4)) (u 3) (u 0) := by
          funext u
          rw [← rpy_zyz]
          rfl
        rw [hz, measurable_pi_iff]
        intro i
        have := hem' 1
        fin_cases i <;> simp [zyz] <;> fun_prop)
      (by
        intro b c h0 h1
        rw [hh, show 2 * (eulerOf ![0, b, c, 0] 1 / 2 - Real.pi / 4) = eulerOf ![0, b, c, 0] 1 - Real.pi / 2 by ring,
          Real.cos_sub_pi_div_two, eulerOf_sin (by simpa using h0) (by simpa using h1.le)]
        simp only [cons_val]
        by_cases hc : c < 1 / 2
        · simp only [hc, if_true, true_iff]; simp
        · simp only [hc, if_false, false_iff]; simp; ring)
      (by
        intro b c
        have := Real.sin_sq_add_cos_sq (eulerOf ![0, b, c, 0] 1 / 2 - Real.pi / 4)
        linear_combination this)
      (Or.inr (by
        intro a b c d
        exact rpy_zyz (eulerOf ![0, b, c, 0] 1) d a))
    simp only [B, mem_setOf_eq, hcancel] at this
    exact this

/-- The draws 1/4, 1/2, 3/4, 1/4 give roll −π/2, pitch π and yaw −π/2. -/
example : eulerOf ![1 / 4, 1 / 2, 3 / 4, 1 / 4] = ![-(Real.pi / 2), Real.pi, -(Real.pi / 2)] ∧ ![1 / 4, 1 / 2, 3 / 4, 1 / 4] ∈ unitDraws 4 := by
  constructor
  · rw [eulerOf_eq]
    funext i
    fin_cases i
    · simp; ring
    · simp; norm_num
    · simp; ring
  · simp only [unitDraws, Set.mem_pi, mem_univ, true_implies]
    intro i
    fin_cases i <;> simp <;> try norm_num

end CRU.Math.RandomRotation
