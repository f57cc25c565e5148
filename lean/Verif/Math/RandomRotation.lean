import Verif.Math.Shoemake
import Verif.Math.Rpy
import Mathlib.MeasureTheory.Measure.Haar.OfBasis
import Mathlib.MeasureTheory.Measure.Lebesgue.EqHaar
/-
  C88: random_rotation_generator.hpp, over the real numbers. A call of the unit distribution is a step of a source of draws.
-/
namespace CRU.Math.RandomRotation
open MeasureTheory Set Matrix
open scoped ENNReal

section model
variable {σ : Type*} (draw : σ → ℝ × σ)

/-- random_rotation_generator.hpp:26-45 `GenerateUniformRandomQuaternion`; the quaternion is (w, x, y, z). -/
noncomputable def generateQuaternion (s : σ) : Vec 4 × σ :=
  let (x0, s1) := draw s
  let r1 := Real.sqrt (1 - x0)
  let r2 := Real.sqrt x0
  let (u1, s2) := draw s1
  let t1 := 2 * Real.pi * u1
  let (u2, s3) := draw s2
  let t2 := 2 * Real.pi * u2
  let c1 := Real.cos t1
  let sn1 := Real.sin t1
  let c2 := Real.cos t2
  let sn2 := Real.sin t2
  let x := sn1 * r1
  let y := c1 * r1
  let z := sn2 * r2
  let w := c2 * r2
  (![w, x, y, z], s3)

open Classical in
/-- random_rotation_generator.hpp:49-61 `GenerateUniformRandomEulerAngles`. -/
noncomputable def generateEuler (s : σ) : Vec 3 × σ :=
  let (u0, s1) := draw s
  let roll := 2 * Real.pi * u0 - Real.pi
  let (u1, s2) := draw s1
  let pitchInit := Real.arccos (1 - 2 * u1) + Real.pi / 2
  let (u2, s3) := draw s2
  let pitch := if u2 < 1 / 2 then (if pitchInit < Real.pi then pitchInit + Real.pi else pitchInit - Real.pi) else pitchInit
  let (u3, s4) := draw s3
  let yaw := 2 * Real.pi * u3 - Real.pi
  (![roll, pitch, yaw], s4)

/-- random_rotation_generator.hpp:63-69 `GetQuaternion`. -/
noncomputable def getQuaternion (prng : σ) : Vec 4 × σ := generateQuaternion draw prng

/-- random_rotation_generator.hpp:71-76 `GetRawQuaternion`: x, y, z, w. -/
noncomputable def getRawQuaternion (prng : σ) : List ℝ × σ :=
  let (q, s) := getQuaternion draw prng
  ([q 1, q 2, q 3, q 0], s)

/-- random_rotation_generator.hpp:78-84 `GetEulerAngles`. -/
noncomputable def getEulerAngles (prng : σ) : Vec 3 × σ := generateEuler draw prng

/-- random_rotation_generator.hpp:86-91 `GetRawEulerAngles`. -/
noncomputable def getRawEulerAngles (prng : σ) : List ℝ × σ :=
  let (a, s) := getEulerAngles draw prng
  ([a 0, a 1, a 2], s)

end model

/-! ### Specification -/

/-- The points of ℝ⁴ inside the unit ball, the origin excepted, whose direction is in `A`. -/
def cone (A : Set (Vec 4)) : Set (Vec 4) := {p | 0 < norm p ∧ norm p < 1 ∧ (norm p)⁻¹ • p ∈ A}

/-- A source of draws that gives the numbers of a list. -/
def nextOf : List ℝ → ℝ × List ℝ
  | [] => (0, [])
  | x :: l => (x, l)

/-- Draws of the unit distribution. -/
def unitDraws (n : Nat) : Set (Fin n → ℝ) := Set.pi univ fun _ => Ico 0 1

/-- The quaternion made of three draws. -/
noncomputable def quaternionOf (u : Fin 3 → ℝ) : Vec 4 := (getQuaternion nextOf [u 0, u 1, u 2]).1

/-- The angles made of four draws. -/
noncomputable def eulerOf (u : Fin 4 → ℝ) : Vec 3 := (getEulerAngles nextOf [u 0, u 1, u 2, u 3]).1

/-! ### Proofs -/

theorem quaternionOf_eq (u : Fin 3 → ℝ) : quaternionOf u =
    ![Real.cos (2 * Real.pi * u 2) * √(u 0), Real.sin (2 * Real.pi * u 1) * √(1 - u 0),
      Real.cos (2 * Real.pi * u 1) * √(1 - u 0), Real.sin (2 * Real.pi * u 2) * √(u 0)] := rfl

/-- Three draws from the source, in order; the quaternion has unit length whatever the draws are. -/
theorem C88_quaternion_unit {σ : Type*} (draw : σ → ℝ × σ) (s : σ)
    (h0 : 0 ≤ (draw s).1) (h1 : (draw s).1 ≤ 1) :
    sqNorm (getQuaternion draw s).1 = 1 ∧ IsRotation (toRotationMatrix (getQuaternion draw s).1) ∧
    (getQuaternion draw s).1 = quaternionOf ![(draw s).1, (draw (draw s).2).1, (draw (draw (draw s).2).2).1] ∧
    (getQuaternion draw s).2 = (draw (draw (draw s).2).2).2 ∧
    (getRawQuaternion draw s).1 = [(getQuaternion draw s).1 1, (getQuaternion draw s).1 2, (getQuaternion draw s).1 3,
      (getQuaternion draw s).1 0] := by
  have hu : sqNorm (getQuaternion draw s).1 = 1 := by
    rw [sqNorm4]
    simp only [getQuaternion, generateQuaternion, cons_val]
    have e1 := Real.mul_self_sqrt h0
    have e2 := Real.mul_self_sqrt (show 0 ≤ 1 - (draw s).1 by linarith)
    have e3 := Real.sin_sq_add_cos_sq (2 * Real.pi * (draw (draw s).2).1)
    have e4 := Real.sin_sq_add_cos_sq (2 * Real.pi * (draw (draw (draw s).2).2).1)
    linear_combination e1 + e2 + (√(1 - (draw s).1) * √(1 - (draw s).1)) * e3 + (√((draw s).1) * √((draw s).1)) * e4
  exact ⟨hu, toRotationMatrix_rotation hu, rfl, rfl, rfl⟩

theorem quaternionOf_unit {u : Fin 3 → ℝ} (h0 : 0 ≤ u 0) (h1 : u 0 ≤ 1) : sqNorm (quaternionOf u) = 1 :=
  (C88_quaternion_unit nextOf [u 0, u 1, u 2] h0 h1).1

theorem quaternionOf_measurable : Measurable quaternionOf := by
  rw [measurable_pi_iff]
  intro i
  fin_cases i <;> simp only [quaternionOf_eq] <;> simp <;> fun_prop

/-- Two planes as quaternions. -/
def planes (p : (ℝ × ℝ) × (ℝ × ℝ)) : Vec 4 := ![p.2.1, p.1.2, p.1.1, p.2.2]

theorem planes_measurable : Measurable planes := by
  rw [measurable_pi_iff]
  intro i
  fin_cases i <;> simp [planes] <;> fun_prop

theorem planes_preserving : MeasurePreserving planes := by
  refine ⟨planes_measurable, ?_⟩
  rw [volume_pi]
  symm
  refine Measure.pi_eq fun s hs => ?_
  rw [Measure.map_apply planes_measurable (MeasurableSet.univ_pi hs)]
  have : planes ⁻¹' (univ.pi s) = (s 2 ×ˢ s 1) ×ˢ (s 0 ×ˢ s 3) := by
    ext ⟨⟨a, b⟩, c, d⟩
    simp only [planes, mem_preimage, Set.mem_pi, mem_univ, true_implies, Fin.forall_fin_succ, mem_prod]
    simp
    tauto
  rw [this, Measure.volume_eq_prod, Measure.prod_prod, Measure.volume_eq_prod, Measure.prod_prod, Measure.prod_prod,
    Fin.prod_univ_four]
  ring

theorem norm_smul_unit {q : Vec 4} (hq : sqNorm q = 1) {ρ : ℝ} (hρ : 0 < ρ) : norm (ρ • q) = ρ := by
  rw [norm, sqNorm, smul_dotProduct, dotProduct_smul, ← sqNorm, hq]
  simp [← sq, Real.sqrt_sq hρ.le]

theorem sqNorm_measurable : Measurable (sqNorm : Vec 4 → ℝ) := by
  have : (sqNorm : Vec 4 → ℝ) = fun q => q 0 * q 0 + q 1 * q 1 + q 2 * q 2 + q 3 * q 3 := funext sqNorm4
  rw [this]; fun_prop

theorem norm_measurable : Measurable (norm : Vec 4 → ℝ) := by
  have : (norm : Vec 4 → ℝ) = fun q => √(sqNorm q) := rfl
  rw [this]; exact sqNorm_measurable.sqrt

theorem cone_measurable {A : Set (Vec 4)} (hA : MeasurableSet A) : MeasurableSet (cone A) := by
  refine (measurableSet_lt measurable_const norm_measurable).inter ((measurableSet_lt norm_measurable measurable_const).inter ?_)
  exact (norm_measurable.inv.smul measurable_id) hA

/-- The integral of a function of three draws, draw by draw. -/
theorem cube_lintegral {g : (Fin 3 → ℝ) → ℝ≥0∞} (hg : Measurable g) :
    ∫⁻ u in unitDraws 3, g u = ∫⁻ x in Ico (0 : ℝ) 1, ∫⁻ u in Ico (0 : ℝ) 1, ∫⁻ v in Ico (0 : ℝ) 1, g ![x, u, v] := by
  let ψ : ℝ × ℝ × ℝ → Fin 3 → ℝ := fun p => ![p.1, p.2.1, p.2.2]
  have hψ : Measurable ψ := by
    rw [measurable_pi_iff]; intro i; fin_cases i <;> simp [ψ] <;> fun_prop
  have hmp : MeasurePreserving ψ := by
    refine ⟨hψ, ?_⟩
    rw [volume_pi]
    symm
    refine Measure.pi_eq fun s hs => ?_
    rw [Measure.map_apply hψ (MeasurableSet.univ_pi hs)]
    have : ψ ⁻¹' (univ.pi s) = s 0 ×ˢ (s 1 ×ˢ s 2) := by
      ext ⟨a, b, c⟩
      simp only [ψ, mem_preimage, Set.mem_pi, mem_univ, true_implies, Fin.forall_fin_succ, mem_prod]
      simp
    rw [this, Measure.volume_eq_prod, Measure.prod_prod, Measure.volume_eq_prod, Measure.prod_prod, Fin.prod_univ_three]
    ring
  have hms : MeasurableSet (unitDraws 3) := MeasurableSet.univ_pi fun _ => measurableSet_Ico
  rw [← lintegral_indicator hms, ← hmp.lintegral_comp (hg.indicator hms)]
  have hpre : (fun p => (unitDraws 3).indicator g (ψ p)) =
      (Ico (0 : ℝ) 1 ×ˢ (Ico (0 : ℝ) 1 ×ˢ Ico (0 : ℝ) 1)).indicator fun p => g (ψ p) := by
    funext p
    have : ψ p ∈ unitDraws 3 ↔ p ∈ Ico (0 : ℝ) 1 ×ˢ (Ico (0 : ℝ) 1 ×ˢ Ico (0 : ℝ) 1) := by
      simp only [ψ, unitDraws, Set.mem_pi, mem_univ, true_implies, Fin.forall_fin_succ, mem_prod]
      simp
    by_cases h : p ∈ Ico (0 : ℝ) 1 ×ˢ (Ico (0 : ℝ) 1 ×ˢ Ico (0 : ℝ) 1)
    · rw [indicator_of_mem h, indicator_of_mem (this.mpr h)]
    · rw [indicator_of_notMem h, indicator_of_notMem (fun h' => h (this.mp h'))]
  rw [hpre, lintegral_indicator (measurableSet_Ico.prod (measurableSet_Ico.prod measurableSet_Ico)),
    Measure.volume_eq_prod, setLIntegral_prod (fun p => g (ψ p)) (hg.comp hψ).aemeasurable]
  refine lintegral_congr fun x => ?_
  rw [Measure.volume_eq_prod, setLIntegral_prod]
  exact ((hg.comp hψ).comp (measurable_const.prodMk measurable_id)).aemeasurable

theorem cube_volume : volume (unitDraws 3) = 1 := by
  rw [unitDraws, volume_pi, Measure.pi_pi]; simp

/-- The volume of a cone is its share of the draws. -/
theorem cone_volume {A : Set (Vec 4)} (hA : MeasurableSet A) :
    volume (cone A) = ENNReal.ofReal (Real.pi ^ 2 / 2) * volume (unitDraws 3 ∩ quaternionOf ⁻¹' A) := by
  have hcm := cone_measurable hA
  have hAm : MeasurableSet (quaternionOf ⁻¹' A) := quaternionOf_measurable hA
  have hP : volume (unitDraws 3 ∩ quaternionOf ⁻¹' A) = ∫⁻ u in unitDraws 3, (quaternionOf ⁻¹' A).indicator 1 u := by
    rw [lintegral_indicator_one hAm, Measure.restrict_apply hAm, inter_comm]
  rw [hP, ← lintegral_indicator_one hcm, ← planes_preserving.lintegral_comp (measurable_one.indicator hcm),
    Shoemake.four (f := fun p => (cone A).indicator 1 (planes p)) ((measurable_one.indicator hcm).comp planes_measurable)]
  rw [cube_lintegral (measurable_one.indicator hAm)]
  set P := ∫⁻ x in Ico (0 : ℝ) 1, ∫⁻ u in Ico (0 : ℝ) 1, ∫⁻ v in Ico (0 : ℝ) 1, (quaternionOf ⁻¹' A).indicator (1 : (Fin 3 → ℝ) → ℝ≥0∞) ![x, u, v]
  have hinner : ∀ ρ ∈ Ioi (0 : ℝ), ENNReal.ofReal (2 * Real.pi ^ 2 * ρ ^ 3) * ∫⁻ x in Ico (0 : ℝ) 1, ∫⁻ u in Ico (0 : ℝ) 1,
      ∫⁻ v in Ico (0 : ℝ) 1, (cone A).indicator 1 (planes ((ρ * √(1 - x) * Real.cos (2 * Real.pi * u), ρ * √(1 - x) * Real.sin (2 * Real.pi * u)),
        (ρ * √x * Real.cos (2 * Real.pi * v), ρ * √x * Real.sin (2 * Real.pi * v)))) =
      (Ioo (0 : ℝ) 1).indicator (fun ρ => ENNReal.ofReal (2 * Real.pi ^ 2 * ρ ^ 3)) ρ * P := by
    intro ρ hρ
    have hρ : 0 < ρ := hρ
    have hpt : ∀ x ∈ Ico (0 : ℝ) 1, ∀ u v, planes ((ρ * √(1 - x) * Real.cos (2 * Real.pi * u), ρ * √(1 - x) * Real.sin (2 * Real.pi * u)),
        (ρ * √x * Real.cos (2 * Real.pi * v), ρ * √x * Real.sin (2 * Real.pi * v))) = ρ • quaternionOf ![x, u, v] := by
      intro x _ u v
      funext i
      fin_cases i <;> simp [planes, quaternionOf_eq] <;> ring
    have hmem : ∀ x ∈ Ico (0 : ℝ) 1, ∀ u v, ρ • quaternionOf ![x, u, v] ∈ cone A ↔ ρ < 1 ∧ quaternionOf ![x, u, v] ∈ A := by
      intro x hx u v
      have hq := quaternionOf_unit (u := ![x, u, v]) (by simpa using hx.1) (by simpa using hx.2.le)
      rw [cone, mem_setOf_eq, norm_smul_unit hq hρ, smul_smul, inv_mul_cancel₀ hρ.ne', one_smul]
      simp [hρ]
    by_cases h1 : ρ < 1
    · rw [indicator_of_mem (show ρ ∈ Ioo (0 : ℝ) 1 from ⟨hρ, h1⟩)]
      congr 1
      refine setLIntegral_congr_fun measurableSet_Ico fun x hx => ?_
      refine lintegral_congr fun u => lintegral_congr fun v => ?_
      rw [hpt x hx]
      by_cases hqA : quaternionOf ![x, u, v] ∈ A
      · rw [indicator_of_mem ((hmem x hx u v).mpr ⟨h1, hqA⟩), indicator_of_mem (by exact hqA)]; rfl
      · rw [indicator_of_notMem (fun h => hqA ((hmem x hx u v).mp h).2), indicator_of_notMem (by exact hqA)]
    · rw [indicator_of_notMem (fun h => h1 h.2), zero_mul]
      have : ∫⁻ x in Ico (0 : ℝ) 1, ∫⁻ u in Ico (0 : ℝ) 1,
          ∫⁻ v in Ico (0 : ℝ) 1, (cone A).indicator (1 : Vec 4 → ℝ≥0∞) (planes ((ρ * √(1 - x) * Real.cos (2 * Real.pi * u), ρ * √(1 - x) * Real.sin (2 * Real.pi * u)),
          (ρ * √x * Real.cos (2 * Real.pi * v), ρ * √x * Real.sin (2 * Real.pi * v)))) = ∫⁻ x in Ico (0 : ℝ) 1, 0 := by
        refine setLIntegral_congr_fun measurableSet_Ico fun x hx => ?_
        have : ∀ u v : ℝ, (cone A).indicator (1 : Vec 4 → ℝ≥0∞) (planes ((ρ * √(1 - x) * Real.cos (2 * Real.pi * u), ρ * √(1 - x) * Real.sin (2 * Real.pi * u)),
          (ρ * √x * Real.cos (2 * Real.pi * v), ρ * √x * Real.sin (2 * Real.pi * v)))) = 0 := by
          intro u v
          rw [hpt x hx, indicator_of_notMem (fun h => h1 ((hmem x hx u v).mp h).1)]
        simp [this]
      rw [this]; simp
  rw [setLIntegral_congr_fun measurableSet_Ioi hinner]
  have hPtop : P ≠ ∞ := by
    have : P = volume (unitDraws 3 ∩ quaternionOf ⁻¹' A) := by
      rw [hP, cube_lintegral (measurable_one.indicator hAm)]
    rw [this]
    exact ((measure_mono inter_subset_left).trans_lt (cube_volume ▸ ENNReal.one_lt_top)).ne
  rw [lintegral_mul_const' _ _ hPtop]
  congr 1
  rw [lintegral_indicator measurableSet_Ioo, Measure.restrict_restrict measurableSet_Ioo,
    inter_eq_left.mpr Ioo_subset_Ioi_self, ← ofReal_integral_eq_lintegral_ofReal]
  · rw [← integral_Ioc_eq_integral_Ioo, ← intervalIntegral.integral_of_le (by norm_num), intervalIntegral.integral_const_mul,
      integral_pow]
    congr 1
    norm_num
    ring
  · refine (Continuous.integrableOn_Icc (by fun_prop)).mono_set Ioo_subset_Icc_self
  · filter_upwards [self_mem_ae_restrict measurableSet_Ioo] with ρ hρ
    have := hρ.1
    positivity

/-- The unit ball of ℝ⁴ has volume π²/2. -/
theorem ball_volume : volume (cone univ) = ENNReal.ofReal (Real.pi ^ 2 / 2) := by
  rw [cone_volume MeasurableSet.univ, preimage_univ, inter_univ, cube_volume, mul_one]

/-- With independent draws, uniform on `[0, 1)`, the quaternion is uniform on the unit sphere: the probability that it
falls into a set `A` of directions is the share of the ball that lies in the directions of `A`. -/
theorem C88_quaternion_uniform {A : Set (Vec 4)} (hA : MeasurableSet A) :
    volume {u ∈ unitDraws 3 | quaternionOf u ∈ A} = volume (cone A) / volume (cone univ) := by
  rw [cone_volume hA, ball_volume, mul_comm, ENNReal.mul_div_cancel_right]
  · rfl
  · simp; positivity
  · exact ENNReal.ofReal_ne_top

/-! ### Invariance -/

/-- A linear map that preserves length preserves the distribution. -/
theorem isometry_invariant (L : Vec 4 →ₗ[ℝ] Vec 4) (hL : ∀ v, norm (L v) = norm v) {A : Set (Vec 4)} (hA : MeasurableSet A) :
    volume {u ∈ unitDraws 3 | L (quaternionOf u) ∈ A} = volume {u ∈ unitDraws 3 | quaternionOf u ∈ A} := by
  have hLm : Measurable L := L.continuous_of_finiteDimensional.measurable
  have hcone : ∀ B : Set (Vec 4), cone (L ⁻¹' B) = L ⁻¹' cone B := by
    intro B
    ext p
    simp only [cone, mem_setOf_eq, mem_preimage, hL, map_smul]
  have hdet : LinearMap.det L ≠ 0 := by
    intro h
    have := LinearMap.bot_lt_ker_of_det_eq_zero h
    obtain ⟨v, hv, hv0⟩ := SetLike.exists_of_lt this
    have h1 : norm v = 0 := by
      rw [← hL, LinearMap.mem_ker.mp hv]; simp [norm, sqNorm]
    rw [norm, Real.sqrt_eq_zero (by rw [sqNorm4]; nlinarith [mul_self_nonneg (v 0), mul_self_nonneg (v 1), mul_self_nonneg (v 2), mul_self_nonneg (v 3)])] at h1
    exact hv0 (by simpa [sqNorm] using h1)
  have hpre : ∀ B : Set (Vec 4), volume (L ⁻¹' B) = ENNReal.ofReal |(LinearMap.det L)⁻¹| * volume B :=
    fun B => Measure.addHaar_preimage_linearMap volume hdet B
  have hone : ENNReal.ofReal |(LinearMap.det L)⁻¹| = 1 := by
    have h1 := hpre (cone univ)
    rw [← hcone, preimage_univ, ball_volume] at h1
    have h0 : ENNReal.ofReal (Real.pi ^ 2 / 2) ≠ 0 := by simp; positivity
    have h2 := (ENNReal.mul_eq_right h0 ENNReal.ofReal_ne_top).mp h1.symm
    exact h2
  have e1 := C88_quaternion_uniform (hLm hA)
  rw [hcone, hpre, hone, one_mul] at e1
  exact e1.trans (C88_quaternion_uniform hA).symm

/-- Multiplication by a quaternion on the left. -/
def mulLeft (p : Vec 4) : Vec 4 →ₗ[ℝ] Vec 4 where
  toFun := qmul p
  map_add' a b := by funext i; fin_cases i <;> simp [qmul] <;> ring
  map_smul' c a := by funext i; fin_cases i <;> simp [qmul] <;> ring

/-- Multiplication by a quaternion on the right. -/
def mulRight (p : Vec 4) : Vec 4 →ₗ[ℝ] Vec 4 where
  toFun q := qmul q p
  map_add' a b := by funext i; fin_cases i <;> simp [qmul] <;> ring
  map_smul' c a := by funext i; fin_cases i <;> simp [qmul] <;> ring

/-- No rotation is preferred: rotating the result by a fixed rotation, before or after, does not change its
distribution. -/
theorem C88_quaternion_invariant {p : Vec 4} (hp : sqNorm p = 1) {A : Set (Vec 4)} (hA : MeasurableSet A) :
    volume {u ∈ unitDraws 3 | qmul p (quaternionOf u) ∈ A} = volume {u ∈ unitDraws 3 | quaternionOf u ∈ A} ∧
    volume {u ∈ unitDraws 3 | qmul (quaternionOf u) p ∈ A} = volume {u ∈ unitDraws 3 | quaternionOf u ∈ A} :=
  ⟨isometry_invariant (mulLeft p) (fun v => by rw [norm, norm, mulLeft, LinearMap.coe_mk, AddHom.coe_mk, sqNorm_qmul, hp, one_mul]) hA,
    isometry_invariant (mulRight p) (fun v => by rw [norm, norm, mulRight, LinearMap.coe_mk, AddHom.coe_mk, sqNorm_qmul, hp, mul_one]) hA⟩

/-- Half of the quaternions have a positive scalar part: a concrete probability. -/
theorem C88_half : volume {u ∈ unitDraws 3 | quaternionOf u ∈ {q : Vec 4 | 0 < q 0}} =
    volume {u ∈ unitDraws 3 | quaternionOf u ∈ {q : Vec 4 | q 0 < 0}} := by
  have h := (C88_quaternion_invariant (p := ![-1, 0, 0, 0]) (by rw [sqNorm4]; simp)
    (A := {q : Vec 4 | q 0 < 0}) (measurableSet_lt (measurable_pi_apply 0) measurable_const)).1
  rw [← h]
  congr 1
  ext u
  simp [qmul]

end CRU.Math.RandomRotation
