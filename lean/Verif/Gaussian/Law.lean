import Verif.Gaussian.Sample
import Verif.Gaussian.Cdf
import Mathlib.MeasureTheory.Constructions.Pi
import Mathlib.MeasureTheory.Measure.Lebesgue.Basic
/-
  C121: the law of the samples of a truncated Gaussian distribution (gaussian_distributions.hpp:143-365), in exact arithmetic.
-/
namespace CRU.Gaussian
open MeasureTheory ProbabilityTheory Set

/-! ### Specification -/

/-- The uniform law on the unit interval. -/
noncomputable def unitLaw : Measure ℝ := volume.restrict (Icc 0 1)

/-- The exponential law with parameter one. -/
noncomputable def expLaw : Measure ℝ := (volume.restrict (Ici 0)).withDensity fun x => ENNReal.ofReal (Real.exp (-x))

/-- The draws of a round (gaussian_distributions.hpp:190, 209, 214): the normal distribution gives standard normal values; the exponential and the uniform distribution give independent values. -/
structure RoundLaw {Ω : Type} [MeasurableSpace Ω] (P : Measure Ω) (draw : Ω → Round) : Prop where
  normal : MeasurePreserving (fun ω => (draw ω).normal) P (gaussianReal 0 1)
  expoUnit : MeasurePreserving (fun ω => ((draw ω).expo, (draw ω).unit)) P (expLaw.prod unitLaw)

/-- The uniform law between two numbers. -/
noncomputable def uniformLaw (a b : ℝ) : Measure ℝ := (ENNReal.ofReal (b - a))⁻¹ • volume.restrict (Icc a b)

/-- gaussian_distributions.hpp:231: the uniform distribution on the range between the bounds, if they are finite, gives values independent of those of the one on the unit interval. -/
def RangeLaw {Ω : Type} [MeasurableSpace Ω] (lo hi : Bd) (P : Measure Ω) (draw : Ω → Round) : Prop :=
  ∀ a b, lo = .fin a → hi = .fin b → MeasurePreserving (fun ω => ((draw ω).range, (draw ω).unit)) P ((uniformLaw a b).prod unitLaw)

/-! ### Rejection sampling -/

/-- The first value accepted. -/
def first {R : Type} (trial : R → Option ℝ) : List R → Option ℝ
  | [] => none
  | r :: rs => match trial r with
    | some x => some x
    | none => first trial rs

section Rejection
variable {Ω : Type} [MeasurableSpace Ω] {P : Measure Ω} [IsProbabilityMeasure P]

/-- The rounds in which a value in `B` is accepted. -/
def hit (trial : Ω → Option ℝ) (B : Set ℝ) : Set Ω := {ω | ∃ x ∈ B, trial ω = some x}

theorem first_ofFn_succ (trial : Ω → Option ℝ) (B : Set ℝ) (n : Nat) :
    {ω : Fin (n + 1) → Ω | ∃ x ∈ B, first trial (List.ofFn ω) = some x} =
      (MeasurableEquiv.piFinSuccAbove (fun _ => Ω) 0) ⁻¹'
        (hit trial B ×ˢ univ ∪ (hit trial univ)ᶜ ×ˢ {ω : Fin n → Ω | ∃ x ∈ B, first trial (List.ofFn ω) = some x}) := by
  ext ω
  have e : List.ofFn ω = ω 0 :: List.ofFn (fun i : Fin n => ω i.succ) := List.ofFn_succ ..
  have e2 : (MeasurableEquiv.piFinSuccAbove (fun _ => Ω) 0) ω = (ω 0, fun i : Fin n => ω i.succ) := rfl
  rw [mem_preimage, e2, mem_setOf_eq, e]
  simp only [mem_union, mem_prod, mem_univ, and_true, mem_compl_iff, mem_setOf_eq, hit, first, true_and]
  rcases h : trial (ω 0) with _ | y
  · simp
  · simp

theorem measurable_first (trial : Ω → Option ℝ) {B : Set ℝ} (hB : MeasurableSet (hit trial B)) (hU : MeasurableSet (hit trial univ)) (n : Nat) :
    MeasurableSet {ω : Fin n → Ω | ∃ x ∈ B, first trial (List.ofFn ω) = some x} := by
  induction n with
  | zero =>
    have : {ω : Fin 0 → Ω | ∃ x ∈ B, first trial (List.ofFn ω) = some x} = ∅ := by
      ext ω; simp [first]
    rw [this]; exact MeasurableSet.empty
  | succ n ih =>
    rw [first_ofFn_succ]
    exact (MeasurableEquiv.measurable _) ((hB.prod MeasurableSet.univ).union (hU.compl.prod ih))

theorem rejection {trial : Ω → Option ℝ} {B : Set ℝ} {g : ℝ} (hB : MeasurableSet (hit trial B)) (hU : MeasurableSet (hit trial univ))
    (hw : P.real (hit trial B) = P.real (hit trial univ) * g) (n : Nat) :
    (Measure.pi fun _ : Fin n => P).real {ω | ∃ x ∈ B, first trial (List.ofFn ω) = some x} = (1 - (1 - P.real (hit trial univ)) ^ n) * g := by
  induction n with
  | zero =>
    have : {ω : Fin 0 → Ω | ∃ x ∈ B, first trial (List.ofFn ω) = some x} = ∅ := by
      ext ω; simp [first]
    rw [this]; simp
  | succ n ih =>
    have hm := measurable_first trial hB hU n
    have hs : MeasurableSet (hit trial B ×ˢ univ ∪ (hit trial univ)ᶜ ×ˢ {ω : Fin n → Ω | ∃ x ∈ B, first trial (List.ofFn ω) = some x}) :=
      (hB.prod MeasurableSet.univ).union (hU.compl.prod hm)
    rw [first_ofFn_succ, (measurePreserving_piFinSuccAbove (fun _ : Fin (n + 1) => P) 0).measureReal_preimage hs.nullMeasurableSet]
    rw [measureReal_union]
    · rw [measureReal_prod_prod, measureReal_prod_prod, ih, hw, probReal_univ, probReal_compl_eq_one_sub hU]
      ring
    · rw [Set.disjoint_left]
      rintro ⟨a, b⟩ ⟨⟨x, -, h1⟩, -⟩ ⟨h2, -⟩
      exact h2 ⟨x, mem_univ _, h1⟩
    · exact hU.compl.prod hm

end Rejection

/-! ### The trials of the code -/

open Classical in
/-- gaussian_distributions.hpp:187-194: one round of `NaiveAcceptReject`. -/
noncomputable def trialNormal (l u : Bd) (r : Round) : Option ℝ := if u.ge r.normal ∧ l.le r.normal then some r.normal else none

open Classical in
/-- gaussian_distributions.hpp:205-219, 271-277: one round of `SimpleAcceptReject` with the test of the outer loop. -/
noncomputable def trialExpo (l : ℝ) (u : Bd) (r : Round) : Option ℝ :=
  if r.unit ≤ Real.exp (-(alpha l - (l + r.expo / alpha l)) ^ 2 / 2) ∧ u.ge (l + r.expo / alpha l) then some (l + r.expo / alpha l) else none

theorem naive_first (l u : Bd) (rs : List Round) : naive l u rs = first (trialNormal l u) rs := by
  induction rs with
  | nil => rfl
  | cons r rs ih =>
    unfold naive first
    unfold trialNormal
    by_cases h : u.ge r.normal ∧ l.le r.normal
    · rw [if_pos h, if_pos h]
    · rw [if_neg h, if_neg h, ih]; rfl

theorem simple_first (l : ℝ) (rs : List Round) : (simple l rs).map (fun x => x.1) = first (trialExpo l .posInf) rs := by
  induction rs with
  | nil => rfl
  | cons r rs ih =>
    unfold simple first trialExpo
    dsimp only
    by_cases h : r.unit ≤ Real.exp (-(alpha l - (l + r.expo / alpha l)) ^ 2 / 2)
    · rw [if_pos h, if_pos ⟨h, trivial⟩]; rfl
    · rw [if_neg h, if_neg (fun c => h c.1), ih]; rfl

theorem bounded_unfold (l : ℝ) (u : Bd) (rs : List Round) : bounded l u rs = match simple l rs with
    | none => none
    | some (z, rest) => open Classical in if u.ge z then some z else bounded l u rest := by
  rw [bounded]
  split <;> rename_i h <;> rw [h]

theorem bounded_first (l : ℝ) (u : Bd) (rs : List Round) : bounded l u rs = first (trialExpo l u) rs := by
  induction rs with
  | nil => rw [bounded_unfold]; rfl
  | cons r rs ih =>
    rw [bounded_unfold]
    unfold simple first trialExpo
    dsimp only
    by_cases h : r.unit ≤ Real.exp (-(alpha l - (l + r.expo / alpha l)) ^ 2 / 2)
    · rw [if_pos h]
      by_cases hu : u.ge (l + r.expo / alpha l)
      · rw [if_pos ⟨h, hu⟩]; simp [hu]
      · rw [if_neg (fun c => hu c.2)]; simp only [hu, ih, if_false]; rfl
    · rw [if_neg h, if_neg (fun c => h c.1), ← bounded_unfold, ih]; rfl

open Classical in
/-- gaussian_distributions.hpp:229-250: one round of `ComplexAcceptReject`. -/
noncomputable def trialRange (l u : ℝ) (r : Round) : Option ℝ := if r.unit ≤ complexRho l u r.range then some r.range else none

theorem complex_first (l u : ℝ) (rs : List Round) : complex l u rs = first (trialRange l u) rs := by
  induction rs with
  | nil => rfl
  | cons r rs ih =>
    unfold complex first trialRange
    dsimp only
    by_cases h : r.unit ≤ complexRho l u r.range
    · rw [if_pos h, if_pos h]
    · rw [if_neg h, if_neg h, ih]; rfl

/-! ### The law of one round -/

theorem measurableSet_ge (u : Bd) : MeasurableSet {x | u.ge x} := by
  cases u with
  | negInf => exact MeasurableSet.empty
  | fin b => exact measurableSet_Iic
  | posInf => exact MeasurableSet.univ

theorem measurableSet_le (l : Bd) : MeasurableSet {x | l.le x} := by
  cases l with
  | negInf => exact MeasurableSet.univ
  | fin b => exact measurableSet_Ici
  | posInf => exact MeasurableSet.empty

section Round
variable {Ω : Type} [MeasurableSpace Ω] {P : Measure Ω} {draw : Ω → Round}

theorem hit_normal (l u : Bd) (B : Set ℝ) :
    hit (fun ω => trialNormal l u (draw ω)) B = (fun ω => (draw ω).normal) ⁻¹' (B ∩ {x | Within l u x}) := by
  ext ω
  simp only [hit, mem_setOf_eq, mem_preimage, mem_inter_iff, Within, trialNormal]
  split
  · rename_i h; simp [h]
  · rename_i h; simp only [reduceCtorEq, and_false, exists_false, false_iff]; exact fun c => h ⟨c.2.2, c.2.1⟩

theorem law_normal (h : RoundLaw P draw) (l u : Bd) {B : Set ℝ} (hB : MeasurableSet B) :
    MeasurableSet (hit (fun ω => trialNormal l u (draw ω)) B) ∧
    P (hit (fun ω => trialNormal l u (draw ω)) B) = gaussianReal 0 1 (B ∩ {x | Within l u x}) := by
  have hm : MeasurableSet (B ∩ {x | Within l u x}) := hB.inter ((measurableSet_le l).inter (measurableSet_ge u))
  rw [hit_normal]
  exact ⟨h.normal.measurable hm, h.normal.measure_preimage hm.nullMeasurableSet⟩

/-- The set of pairs of an exponential and a uniform value that give a value in `B`. -/
def good (l : ℝ) (B : Set ℝ) : Set (ℝ × ℝ) := {p | p.2 ≤ Real.exp (-(alpha l - (l + p.1 / alpha l)) ^ 2 / 2) ∧ l + p.1 / alpha l ∈ B}

theorem hit_expo (l : ℝ) (u : Bd) (B : Set ℝ) :
    hit (fun ω => trialExpo l u (draw ω)) B = (fun ω => ((draw ω).expo, (draw ω).unit)) ⁻¹' good l (B ∩ {x | u.ge x}) := by
  ext ω
  simp only [hit, mem_setOf_eq, mem_preimage, mem_inter_iff, good, trialExpo]
  split
  · rename_i h; simp [h]
  · rename_i h; simp only [reduceCtorEq, and_false, exists_false, false_iff]; exact fun c => h ⟨c.1, c.2.2⟩

theorem measurable_good (l : ℝ) {B : Set ℝ} (hB : MeasurableSet B) : MeasurableSet (good l B) := by
  have h1 : Measurable fun p : ℝ × ℝ => l + p.1 / alpha l := by fun_prop
  exact (measurableSet_le' l).inter (h1 hB)
  where measurableSet_le' (l : ℝ) : MeasurableSet {p : ℝ × ℝ | p.2 ≤ Real.exp (-(alpha l - (l + p.1 / alpha l)) ^ 2 / 2)} :=
    _root_.measurableSet_le (by fun_prop) (by fun_prop)

theorem unitLaw_Iic {c : ℝ} (h1 : c ≤ 1) : unitLaw (Iic c) = ENNReal.ofReal c := by
  unfold unitLaw
  rw [Measure.restrict_apply measurableSet_Iic]
  have : Iic c ∩ Icc 0 1 = Icc 0 c := by ext x; simp; constructor <;> intro h <;> refine ⟨?_, ?_⟩ <;> first | linarith | (refine ⟨?_, ?_⟩ <;> linarith) | exact h.2.1 | exact h.1
  rw [this, Real.volume_Icc, sub_zero]

/-- The factor between the Gaussian law and the law of an accepted value. -/
noncomputable def factor (l : ℝ) : ℝ := alpha l * (Real.sqrt (2 * Real.pi) * Real.exp (alpha l * l - alpha l ^ 2 / 2))

theorem factor_pos (l : ℝ) : 0 < factor l := by
  unfold factor
  have := alpha_pos l
  have := Real.pi_pos
  positivity

theorem density (l z : ℝ) : Real.exp (-(alpha l * (z - l))) * Real.exp (-(alpha l - z) ^ 2 / 2) =
    (Real.sqrt (2 * Real.pi) * Real.exp (alpha l * l - alpha l ^ 2 / 2)) * gaussianPDFReal 0 1 z := by
  unfold gaussianPDFReal
  have hs : Real.sqrt (2 * Real.pi) ≠ 0 := by have := Real.pi_pos; positivity
  rw [NNReal.coe_one, mul_one, mul_one, ← Real.exp_add]
  rw [show Real.sqrt (2 * Real.pi) * Real.exp (alpha l * l - alpha l ^ 2 / 2) * ((Real.sqrt (2 * Real.pi))⁻¹ * Real.exp (-(z - 0) ^ 2 / 2)) =
    (Real.sqrt (2 * Real.pi) * (Real.sqrt (2 * Real.pi))⁻¹) * (Real.exp (alpha l * l - alpha l ^ 2 / 2) * Real.exp (-(z - 0) ^ 2 / 2)) by ring,
    mul_inv_cancel₀ hs, one_mul, ← Real.exp_add]
  congr 1
  ring

theorem law_good (l : ℝ) {B : Set ℝ} (hB : MeasurableSet B) :
    (expLaw.prod unitLaw) (good l B) = ENNReal.ofReal (factor l) * gaussianReal 0 1 (B ∩ Ici l) := by
  have ha := alpha_pos l
  haveI : SFinite unitLaw := by unfold unitLaw; infer_instance
  rw [Measure.prod_apply (measurable_good l hB)]
  -- the integrand as a function of the value
  let f : ℝ → ENNReal := (B ∩ Ici l).indicator fun z => ENNReal.ofReal (Real.exp (-(alpha l * (z - l))) * Real.exp (-(alpha l - z) ^ 2 / 2))
  have hmi : MeasurableSet (B ∩ Ici l) := hB.inter measurableSet_Ici
  have hf : Measurable f := Measurable.indicator (by fun_prop) hmi
  have e1 : ∀ e : ℝ, unitLaw (Prod.mk e ⁻¹' good l B) = B.indicator (fun z => ENNReal.ofReal (Real.exp (-(alpha l - z) ^ 2 / 2))) (l + e / alpha l) := by
    intro e
    by_cases hz : l + e / alpha l ∈ B
    · rw [indicator_of_mem hz]
      have : Prod.mk e ⁻¹' good l B = Iic (Real.exp (-(alpha l - (l + e / alpha l)) ^ 2 / 2)) := by
        ext u; simp [good, hz]
      rw [this, unitLaw_Iic]
      rw [Real.exp_le_one_iff]
      have := sq_nonneg (alpha l - (l + e / alpha l))
      linarith
    · rw [indicator_of_notMem hz]
      have : Prod.mk e ⁻¹' good l B = ∅ := by ext u; simp [good, hz]
      rw [this, measure_empty]
  simp_rw [e1]
  have hmeas : Measurable fun e : ℝ => B.indicator (fun z => ENNReal.ofReal (Real.exp (-(alpha l - z) ^ 2 / 2))) (l + e / alpha l) :=
    (Measurable.indicator (f := fun z => ENNReal.ofReal (Real.exp (-(alpha l - z) ^ 2 / 2))) (by fun_prop) hB).comp (by fun_prop)
  unfold expLaw
  rw [lintegral_withDensity_eq_lintegral_mul _ (by fun_prop) hmeas, ← lintegral_indicator measurableSet_Ici]
  have e2 : ∀ e : ℝ, (Ici (0 : ℝ)).indicator ((fun x => ENNReal.ofReal (Real.exp (-x))) *
      fun e : ℝ => B.indicator (fun z => ENNReal.ofReal (Real.exp (-(alpha l - z) ^ 2 / 2))) (l + e / alpha l)) e = f (l + (alpha l)⁻¹ * e) := by
    intro e
    have hze : l + e / alpha l = l + (alpha l)⁻¹ * e := by rw [div_eq_inv_mul]
    have hiff : l + (alpha l)⁻¹ * e ∈ Ici l ↔ e ∈ Ici (0 : ℝ) := by
      simp only [mem_Ici, le_add_iff_nonneg_right]
      exact mul_nonneg_iff_of_pos_left (inv_pos.mpr ha)
    by_cases h0 : e ∈ Ici (0 : ℝ)
    · rw [indicator_of_mem h0, Pi.mul_apply, hze]
      by_cases hb : l + (alpha l)⁻¹ * e ∈ B
      · rw [indicator_of_mem hb]
        show _ = (B ∩ Ici l).indicator _ _
        rw [indicator_of_mem (show _ ∈ B ∩ Ici l from ⟨hb, hiff.mpr h0⟩), ← ENNReal.ofReal_mul (Real.exp_pos _).le]
        congr 3
        field_simp
        ring
      · rw [indicator_of_notMem hb, mul_zero]
        exact (indicator_of_notMem (fun c => hb c.1) _).symm
    · rw [indicator_of_notMem h0]
      exact (indicator_of_notMem (fun c => h0 (hiff.mp c.2)) _).symm
  simp_rw [e2]
  -- change of variables
  have e3 : ∫⁻ e, f (l + (alpha l)⁻¹ * e) = ∫⁻ y, f (l + y) ∂(Measure.map ((alpha l)⁻¹ * ·) volume) := by
    exact (lintegral_map (f := fun y => f (l + y)) (hf.comp (measurable_const_add l)) (measurable_const_mul _)).symm
  rw [e3, Real.map_volume_mul_left (inv_ne_zero ha.ne'), lintegral_smul_measure, lintegral_add_left_eq_self f l, inv_inv, abs_of_pos ha,
    gaussianReal_apply 0 one_ne_zero, lintegral_indicator hmi]
  have e4 : ∀ z, ENNReal.ofReal (Real.exp (-(alpha l * (z - l))) * Real.exp (-(alpha l - z) ^ 2 / 2)) =
      ENNReal.ofReal (Real.sqrt (2 * Real.pi) * Real.exp (alpha l * l - alpha l ^ 2 / 2)) * gaussianPDF 0 1 z := by
    intro z
    rw [density, ENNReal.ofReal_mul (by positivity)]
    rfl
  simp_rw [e4]
  rw [lintegral_const_mul _ (measurable_gaussianPDF 0 1), smul_eq_mul, ← mul_assoc, ← ENNReal.ofReal_mul ha.le]
  rfl

theorem law_expo (h : RoundLaw P draw) (l : ℝ) (u : Bd) {B : Set ℝ} (hB : MeasurableSet B) :
    MeasurableSet (hit (fun ω => trialExpo l u (draw ω)) B) ∧
    P (hit (fun ω => trialExpo l u (draw ω)) B) = ENNReal.ofReal (factor l) * gaussianReal 0 1 (B ∩ {x | Within (.fin l) u x}) := by
  have hm := measurable_good l (hB.inter (measurableSet_ge u))
  rw [hit_expo]
  refine ⟨h.expoUnit.measurable hm, ?_⟩
  rw [h.expoUnit.measure_preimage hm.nullMeasurableSet, law_good l (hB.inter (measurableSet_ge u))]
  congr 2
  ext x
  simp only [mem_inter_iff, mem_setOf_eq, mem_Ici, Within, Bd.le]
  tauto

/-- The set of pairs of two uniform values that give a value in `B`. -/
def goodRange (l u : ℝ) (B : Set ℝ) : Set (ℝ × ℝ) := {p | p.2 ≤ complexRho l u p.1 ∧ p.1 ∈ B}

theorem hit_range (l u : ℝ) (B : Set ℝ) :
    hit (fun ω => trialRange l u (draw ω)) B = (fun ω => ((draw ω).range, (draw ω).unit)) ⁻¹' goodRange l u B := by
  ext ω
  simp only [hit, mem_setOf_eq, mem_preimage, goodRange, trialRange]
  split
  · rename_i h; simp [h]
  · rename_i h; simp [h]

/-- For an interval on one side of zero the acceptance probability is the one for the end that is nearer to zero. -/
theorem complexRho_eq {l u : ℝ} (hlu : l < u) (h : 0 < l ∨ u < 0) :
    ∃ m : ℝ, (∀ z, complexRho l u z = Real.exp ((m ^ 2 - z ^ 2) / 2)) ∧ ∀ z ∈ Icc l u, complexRho l u z ≤ 1 := by
  rcases h with h | h
  · refine ⟨l, fun z => by unfold complexRho; rw [if_pos h], fun z hz => ?_⟩
    unfold complexRho
    rw [if_pos h, Real.exp_le_one_iff]
    nlinarith [hz.1, hz.2]
  · have hl : ¬ 0 < l := by linarith
    refine ⟨u, fun z => by unfold complexRho; rw [if_neg hl, if_pos h], fun z hz => ?_⟩
    unfold complexRho
    rw [if_neg hl, if_pos h, Real.exp_le_one_iff]
    nlinarith [hz.1, hz.2]

theorem law_range {l u : ℝ} (hlu : l < u) (h0 : 0 < l ∨ u < 0)
    (h : MeasurePreserving (fun ω => ((draw ω).range, (draw ω).unit)) P ((uniformLaw l u).prod unitLaw)) :
    ∃ K : ℝ, 0 < K ∧ ∀ B, MeasurableSet B → MeasurableSet (hit (fun ω => trialRange l u (draw ω)) B) ∧
      P (hit (fun ω => trialRange l u (draw ω)) B) = ENNReal.ofReal K * gaussianReal 0 1 (B ∩ {x | Within (.fin l) (.fin u) x}) := by
  obtain ⟨m, hrho, hle⟩ := complexRho_eq hlu h0
  have hd : 0 < u - l := by linarith
  have hpi := Real.pi_pos
  let c : ℝ := Real.sqrt (2 * Real.pi) * Real.exp (m ^ 2 / 2)
  have hc : 0 < c := by positivity
  have hpdf : ∀ z, complexRho l u z = c * gaussianPDFReal 0 1 z := by
    intro z
    have hs : Real.sqrt (2 * Real.pi) ≠ 0 := by positivity
    rw [hrho]
    unfold gaussianPDFReal
    show _ = Real.sqrt (2 * Real.pi) * Real.exp (m ^ 2 / 2) * _
    rw [NNReal.coe_one, mul_one, mul_one]
    rw [show Real.sqrt (2 * Real.pi) * Real.exp (m ^ 2 / 2) * ((Real.sqrt (2 * Real.pi))⁻¹ * Real.exp (-(z - 0) ^ 2 / 2)) =
      (Real.sqrt (2 * Real.pi) * (Real.sqrt (2 * Real.pi))⁻¹) * (Real.exp (m ^ 2 / 2) * Real.exp (-(z - 0) ^ 2 / 2)) by ring,
      mul_inv_cancel₀ hs, one_mul, ← Real.exp_add]
    congr 1
    ring
  have hrm : Measurable (complexRho l u) := by
    have : complexRho l u = fun z => Real.exp ((m ^ 2 - z ^ 2) / 2) := funext hrho
    rw [this]; fun_prop
  refine ⟨(u - l)⁻¹ * c, by positivity, fun B hB => ?_⟩
  have hg : MeasurableSet (goodRange l u B) :=
    (_root_.measurableSet_le measurable_snd (hrm.comp measurable_fst)).inter (measurable_fst hB)
  rw [hit_range]
  refine ⟨h.measurable hg, ?_⟩
  haveI : SFinite unitLaw := by unfold unitLaw; infer_instance
  rw [h.measure_preimage hg.nullMeasurableSet, Measure.prod_apply hg]
  unfold uniformLaw
  rw [lintegral_smul_measure]
  have e1 : ∫⁻ z in Icc l u, unitLaw (Prod.mk z ⁻¹' goodRange l u B) = ∫⁻ z in Icc l u, B.indicator (fun z => ENNReal.ofReal c * gaussianPDF 0 1 z) z := by
    refine setLIntegral_congr_fun measurableSet_Icc fun z hz => ?_
    by_cases hb : z ∈ B
    · have : Prod.mk z ⁻¹' goodRange l u B = Iic (complexRho l u z) := by ext w; simp [goodRange, hb]
      rw [this, unitLaw_Iic (hle z hz), indicator_of_mem hb, hpdf, ENNReal.ofReal_mul hc.le]
      rfl
    · have : Prod.mk z ⁻¹' goodRange l u B = ∅ := by ext w; simp [goodRange, hb]
      rw [this, indicator_of_notMem hb, measure_empty]
  rw [e1, lintegral_indicator hB, Measure.restrict_restrict hB, lintegral_const_mul _ (measurable_gaussianPDF 0 1), gaussianReal_apply 0 one_ne_zero, smul_eq_mul, ← mul_assoc,
    ENNReal.ofReal_mul (p := (u - l)⁻¹) (q := c) (by positivity), ENNReal.ofReal_inv_of_pos hd]
  rfl

end Round

/-! ### What the constructor makes -/

theorem std_le_iff {mean sd : ℝ} (hsd : 0 < sd) (lo : Bd) (x : ℝ) : (lo.std mean sd).le x ↔ lo.le (mean + sd * x) := by
  refine ⟨unstd_le hsd, fun h => ?_⟩
  cases lo with
  | negInf => simp [Bd.std, hsd, Bd.le]
  | posInf => exact h.elim
  | fin b =>
    simp only [Bd.std, Bd.le] at h ⊢
    rw [div_le_iff₀ hsd]
    linarith

theorem std_ge_iff {mean sd : ℝ} (hsd : 0 < sd) (hi : Bd) (x : ℝ) : (hi.std mean sd).ge x ↔ hi.ge (mean + sd * x) := by
  refine ⟨unstd_ge hsd, fun h => ?_⟩
  cases hi with
  | posInf => simp [Bd.std, hsd, Bd.ge]
  | negInf => exact h.elim
  | fin b =>
    simp only [Bd.std, Bd.ge] at h ⊢
    rw [le_div_iff₀ hsd]
    linarith

theorem within_std {mean sd : ℝ} (hsd : 0 < sd) (lo hi : Bd) (x : ℝ) :
    Within (lo.std mean sd) (hi.std mean sd) x ↔ Within lo hi (mean + sd * x) := and_congr (std_le_iff hsd lo x) (std_ge_iff hsd hi x)

/-- What is known of the members. -/
def Shape (mean sd : ℝ) (lo hi : Bd) (d : Dist) : Prop :=
  d.mean = mean ∧ (d.stddev = sd ∨ d.stddev = -sd) ∧ (∀ x, Within d.stdLo d.stdHi x ↔ Within lo hi (mean + d.stddev * x)) ∧
    (d.kind = .type1 ∨ (d.kind = .type2 ∧ ∃ l, d.stdLo = .fin l ∧ d.stdHi = .posInf) ∨ (d.kind = .type3 ∧ ∃ l u, d.stdLo = .fin l ∧ d.stdHi = .fin u) ∨
      (d.kind = .type4 ∧ ∃ l u, d.stdLo = .fin l ∧ d.stdHi = .fin u ∧ (0 < l ∨ u < 0)))

theorem make_shape {mean sd : ℝ} (hsd : 0 < sd) {lo hi : Bd} {d : Dist} (h : make mean sd lo hi = .ok d) (hx : ∃ x, Within lo hi x) :
    Shape mean sd lo hi d := by
  have hne : ¬ |sd| = 0 := by rw [abs_eq_zero]; exact hsd.ne'
  have hd : step4 (step3 (step2 (step1 ⟨mean, sd, lo.std mean sd, hi.std mean sd, .none, lo, hi⟩))) = d ∧ d.kind ≠ .none := by
    unfold make at h
    split at h
    · cases h
    · dsimp only at h
      split at h
      · cases h
      · rename_i hk; cases h; exact ⟨rfl, hk⟩
  obtain ⟨hd, hk⟩ := hd
  obtain ⟨x0, hx1, hx2⟩ := hx
  have hw := within_std (mean := mean) hsd lo hi
  cases lo with
  | posInf => exact hx1.elim
  | negInf =>
    cases hi with
    | negInf => exact hx2.elim
    | posInf =>
      simp [step1, step2, step3, step4, Bd.std, hsd, Bd.le, Bd.ge, Bd.pos, Bd.neg] at hd
      subst hd
      refine ⟨rfl, .inl rfl, fun x => ?_, .inl rfl⟩
      rw [← hw x]; simp [Bd.std, hsd]
    | fin u =>
      by_cases hc : 0 ≤ (u - mean) / sd
      · simp [step1, step2, step3, step4, Bd.std, hsd, Bd.le, Bd.ge, Bd.pos, Bd.neg, hc] at hd
        subst hd
        refine ⟨rfl, .inl rfl, fun x => ?_, .inl rfl⟩
        rw [← hw x]; simp [Bd.std, hsd]
      · simp [step1, step2, step3, step4, Bd.std, hsd, Bd.le, Bd.ge, Bd.pos, Bd.neg, Bd.negate, hc] at hd
        subst hd
        refine ⟨rfl, .inr rfl, fun x => ?_, .inr (.inl ⟨rfl, _, rfl, rfl⟩)⟩
        have := hw (-x)
        simp only [Bd.std, hsd, Within, Bd.le, Bd.ge, if_true, true_and, and_true] at this ⊢
        rw [neg_mul, ← mul_neg, ← this]
        constructor <;> intro <;> linarith
  | fin l =>
    cases hi with
    | negInf => exact hx2.elim
    | posInf =>
      by_cases hc : (l - mean) / sd ≤ 0
      · simp [step1, step2, step3, step4, Bd.std, hsd, Bd.le, Bd.ge, Bd.pos, Bd.neg, hc] at hd
        subst hd
        refine ⟨rfl, .inl rfl, fun x => ?_, .inl rfl⟩
        rw [← hw x]; simp [Bd.std, hsd]
      · simp [step1, step2, step3, step4, Bd.std, hsd, Bd.le, Bd.ge, Bd.pos, Bd.neg, hc] at hd
        subst hd
        refine ⟨rfl, .inl rfl, fun x => ?_, .inr (.inl ⟨rfl, _, rfl, rfl⟩)⟩
        rw [← hw x]; simp [Bd.std, hsd]
    | fin u =>
      have e1 : (Bd.fin l).std mean sd = .fin ((l - mean) / sd) := rfl
      have e2 : (Bd.fin u).std mean sd = .fin ((u - mean) / sd) := rfl
      rw [e1, e2] at hd hw
      have h2 : ∀ d : Dist, d.stdHi = .fin ((u - mean) / sd) → step2 d = d := by
        intro d h; unfold step2; rw [if_neg]; rw [h]; rintro ⟨-, c⟩; cases c
      have h3 : ∀ d : Dist, d.stdLo = .fin ((l - mean) / sd) → step3 d = d := by
        intro d h; unfold step3; rw [if_neg]; rw [h]; rintro ⟨-, c⟩; cases c
      have h1 : ∀ k, (⟨mean, sd, .fin ((l - mean) / sd), .fin ((u - mean) / sd), k, .fin l, .fin u⟩ : Dist) = d → k ≠ .type2 →
          (k = .type4 → 0 < (l - mean) / sd ∨ (u - mean) / sd < 0) → Shape mean sd (.fin l) (.fin u) d := by
        rintro k rfl hk2 h4
        refine ⟨rfl, .inl rfl, hw, ?_⟩
        cases k with
        | type1 => exact .inl rfl
        | type2 => exact absurd rfl hk2
        | type3 => exact .inr (.inr (.inl ⟨rfl, _, _, rfl, rfl⟩))
        | type4 => exact .inr (.inr (.inr ⟨rfl, _, _, rfl, rfl, h4 rfl⟩))
        | none => exact absurd rfl hk
      have h4 : ∀ k, step4 (⟨mean, sd, .fin ((l - mean) / sd), .fin ((u - mean) / sd), k, .fin l, .fin u⟩ : Dist) = d → k ≠ .type2 → k ≠ .type4 →
          Shape mean sd (.fin l) (.fin u) d := by
        intro k hd hk2 hk4
        unfold step4 at hd
        split at hd
        · rename_i hcond
          split at hd
          · exact h1 _ hd (by simp) (by simp)
          · exact h1 _ hd (by simp) fun _ => hcond.1.elim (fun h => .inr (not_le.mp h)) (fun h => .inl (not_le.mp h))
        · exact h1 _ hd hk2 (fun c => absurd c hk4)
      unfold step1 at hd
      split at hd <;> rw [h2 _ rfl, h3 _ rfl] at hd
      · exact h4 _ hd (by simp) (by simp)
      · exact h4 _ hd (by simp) (by simp)

/-- In the fourth case the standardised bounds are finite; for the standard normal distribution they are the bounds. -/
theorem make_standard {lo hi : Bd} {d : Dist} (h : make 0 1 lo hi = .ok d) (hk : d.kind = .type4) {l u : ℝ} (hl : d.stdLo = .fin l) (hu : d.stdHi = .fin u) :
    lo = .fin l ∧ hi = .fin u := by
  have hstd : ∀ b : Bd, b.std 0 1 = b := by intro b; cases b <;> simp [Bd.std]
  have hd : step4 (step3 (step2 (step1 ⟨0, 1, lo.std 0 1, hi.std 0 1, .none, lo, hi⟩))) = d := by
    unfold make at h
    split at h
    · cases h
    · rw [if_neg (by norm_num)] at h
      dsimp only at h
      split at h
      · cases h
      · cases h; rfl
  rw [hstd, hstd] at hd
  have m1 : ∀ d : Dist, (step1 d).stdLo = d.stdLo ∧ (step1 d).stdHi = d.stdHi := by intro d; unfold step1; split <;> exact ⟨rfl, rfl⟩
  have m2 : ∀ d : Dist, (step2 d).stdLo = d.stdLo ∧ (step2 d).stdHi = d.stdHi := by intro d; unfold step2; split <;> exact ⟨rfl, rfl⟩
  have m4 : ∀ d : Dist, (step4 d).stdLo = d.stdLo ∧ (step4 d).stdHi = d.stdHi := by
    intro d; unfold step4; split
    · split <;> exact ⟨rfl, rfl⟩
    · exact ⟨rfl, rfl⟩
  have m3 : ∀ d : Dist, (step3 d).stdHi = .posInf ∨ step3 d = d := by
    intro d; unfold step3; split
    · exact .inl rfl
    · exact .inr rfl
  subst hd
  rw [(m4 _).1] at hl
  rw [(m4 _).2] at hu
  rcases m3 (step2 (step1 ⟨0, 1, lo, hi, .none, lo, hi⟩)) with e | e
  · rw [e] at hu; cases hu
  · rw [e, (m2 _).1, (m1 _).1] at hl
    rw [e, (m2 _).2, (m1 _).2] at hu
    exact ⟨hl, hu⟩

/-! ### Theorems -/

/-- The probability of a set given that a value is within the bounds. -/
noncomputable def truncatedProb (mean sd : ℝ) (lo hi : Bd) (B : Set ℝ) : ℝ :=
  (normal mean sd).real (B ∩ {x | Within lo hi x}) / (normal mean sd).real {x | Within lo hi x}

theorem normal_of_std {mean sd s : ℝ} (hs : s = sd ∨ s = -sd) {B : Set ℝ} (hB : MeasurableSet B) :
    (gaussianReal 0 1).real ((fun x => mean + s * x) ⁻¹' B) = (normal mean sd).real B := by
  have hm : Measure.map (fun x => mean + s * x) (gaussianReal 0 1) = normal mean sd := by
    have : (fun x => mean + s * x) = (fun y => mean + y) ∘ (fun x => s * x) := rfl
    rw [this, ← Measure.map_map (by fun_prop) (by fun_prop), gaussianReal_map_const_mul, gaussianReal_map_const_add]
    unfold normal
    congr 1
    · ring
    · apply NNReal.coe_injective
      rw [variance_coe]
      rcases hs with rfl | rfl <;> simp
  rw [← hm, map_measureReal_apply (by fun_prop) hB]

/-- A trial whose law is known gives the claim. -/
theorem law_of_trial {mean sd : ℝ} {lo hi : Bd} {d : Dist} {Ω : Type} [MeasurableSpace Ω] {P : Measure Ω} [IsProbabilityMeasure P] {draw : Ω → Round}
    (h1 : d.mean = mean) (h2 : d.stddev = sd ∨ d.stddev = -sd) (h3 : ∀ x, Within d.stdLo d.stdHi x ↔ Within lo hi (mean + d.stddev * x))
    (hpos : (normal mean sd).real {x | Within lo hi x} ≠ 0) {trial : Round → Option ℝ} {K : ℝ} (hK : 0 < K)
    (hs : ∀ rs, sample d rs = (first trial rs).map fun x => d.mean + d.stddev * x)
    (hlaw : ∀ B, MeasurableSet B → MeasurableSet (hit (fun ω => trial (draw ω)) B) ∧
      P (hit (fun ω => trial (draw ω)) B) = ENNReal.ofReal K * gaussianReal 0 1 (B ∩ {x | Within d.stdLo d.stdHi x})) :
    ∃ a : ℝ, 0 < a ∧ a ≤ 1 ∧ ∀ (n : Nat) (B : Set ℝ), MeasurableSet B →
      (Measure.pi fun _ : Fin n => P).real {ω | ∃ x ∈ B, sample d (List.ofFn fun i => draw (ω i)) = some x} =
        (1 - (1 - a) ^ n) * truncatedProb mean sd lo hi B := by
  have hwm : MeasurableSet {x | Within lo hi x} := (measurableSet_le lo).inter (measurableSet_ge hi)
  have hreal : ∀ B : Set ℝ, MeasurableSet B → P.real (hit (fun ω => trial (draw ω)) ((fun x => mean + d.stddev * x) ⁻¹' B)) =
      K * (normal mean sd).real (B ∩ {x | Within lo hi x}) := by
    intro B hB
    have hpre : MeasurableSet ((fun x => mean + d.stddev * x) ⁻¹' B) := (by fun_prop : Measurable fun x : ℝ => mean + d.stddev * x) hB
    rw [Measure.real, (hlaw _ hpre).2, ENNReal.toReal_mul, ENNReal.toReal_ofReal hK.le, ← normal_of_std h2 (hB.inter hwm)]
    congr 2
    congr 1
    ext x
    simp only [mem_inter_iff, mem_preimage, mem_setOf_eq, h3]
  have huniv := hreal univ MeasurableSet.univ
  rw [preimage_univ, univ_inter] at huniv
  refine ⟨P.real (hit (fun ω => trial (draw ω)) univ), ?_, measureReal_le_one, fun n B hB => ?_⟩
  · rw [huniv]
    exact mul_pos hK (lt_of_le_of_ne measureReal_nonneg hpos.symm)
  · have hpre : MeasurableSet ((fun x => mean + d.stddev * x) ⁻¹' B) := (by fun_prop : Measurable fun x : ℝ => mean + d.stddev * x) hB
    rw [← rejection (hlaw _ hpre).1 (hlaw _ MeasurableSet.univ).1 (g := truncatedProb mean sd lo hi B) (by
      rw [hreal B hB, huniv]
      unfold truncatedProb
      field_simp) n]
    congr 1
    ext ω
    simp only [mem_setOf_eq, hs, Option.map_eq_some_iff, h1]
    have hof : first trial (List.ofFn fun i => draw (ω i)) = first (fun ω => trial (draw ω)) (List.ofFn ω) := by
      have : ∀ l : List Ω, first trial (l.map draw) = first (fun ω => trial (draw ω)) l := by
        intro l
        induction l with
        | nil => rfl
        | cons r l ih => simp only [List.map_cons, first, ih]
      rw [← this, List.map_ofFn]; rfl
    rw [hof]
    constructor
    · rintro ⟨x, hx, y, hy, rfl⟩
      exact ⟨y, hx, hy⟩
    · rintro ⟨y, hx, hy⟩
      exact ⟨_, hx, y, hy, rfl⟩

/-- C121: the first n rounds of sampling a truncated Gaussian distribution, with ideal draws that are independent from round to round, give a value in `B` with
the probability that the truncated Gaussian law gives to `B`, times the probability that one of n rounds accepts. A round accepts with a probability `a` above zero
that is the same for all rounds, so some round accepts with probability one, and then the sample has the truncated Gaussian law. (All cases but the fourth,
uniform rejection: there the samples need not even be within the bounds, `C53_false`.) -/
theorem C121_law_partial {mean sd : ℝ} (hsd : 0 < sd) {lo hi : Bd} (hpos : (normal mean sd).real {x | Within lo hi x} ≠ 0) {d : Dist}
    (hm : make mean sd lo hi = .ok d) (hk : d.kind ≠ .type4) {Ω : Type} [MeasurableSpace Ω] {P : Measure Ω} [IsProbabilityMeasure P] {draw : Ω → Round}
    (hl : RoundLaw P draw) :
    ∃ a : ℝ, 0 < a ∧ a ≤ 1 ∧ ∀ (n : Nat) (B : Set ℝ), MeasurableSet B →
      (Measure.pi fun _ : Fin n => P).real {ω | ∃ x ∈ B, sample d (List.ofFn fun i => draw (ω i)) = some x} =
        (1 - (1 - a) ^ n) * truncatedProb mean sd lo hi B := by
  have hx : ∃ x, Within lo hi x := by
    by_contra hc
    apply hpos
    rw [show {x | Within lo hi x} = ∅ from eq_empty_iff_forall_notMem.mpr fun x hx => hc ⟨x, hx⟩, measureReal_empty]
  obtain ⟨h1, h2, h3, h4⟩ := make_shape hsd hm hx
  have key := fun trial K hK hs hlaw => law_of_trial (P := P) (draw := draw) h1 h2 h3 hpos (trial := trial) (K := K) hK hs hlaw
  rcases h4 with h4 | ⟨h4, l, hl1, hl2⟩ | ⟨h4, l, u, hl1, hl2⟩ | ⟨h4, -⟩
  · refine key (trialNormal d.stdLo d.stdHi) 1 one_pos (fun rs => ?_) (fun B hB => ?_)
    · unfold sample
      rw [h4]
      dsimp only
      rw [naive_first]
    · rw [ENNReal.ofReal_one, one_mul]
      exact law_normal hl d.stdLo d.stdHi hB
  · refine key (trialExpo l .posInf) (factor l) (factor_pos l) (fun rs => ?_) (fun B hB => ?_)
    · unfold sample
      rw [h4, hl1]
      dsimp only
      rw [← simple_first, Option.map_map]
      rfl
    · rw [hl1, hl2]
      exact law_expo hl l .posInf hB
  · refine key (trialExpo l (.fin u)) (factor l) (factor_pos l) (fun rs => ?_) (fun B hB => ?_)
    · unfold sample
      rw [h4, hl1, hl2]
      dsimp only
      rw [bounded_first]
    · rw [hl1, hl2]
      exact law_expo hl l (.fin u) hB
  · exact absurd h4 hk

/-- C121: for mean zero and standard deviation one this holds in all cases. -/
theorem C121_standard {lo hi : Bd} (hpos : (normal 0 1).real {x | Within lo hi x} ≠ 0) {d : Dist} (hm : make 0 1 lo hi = .ok d)
    {Ω : Type} [MeasurableSpace Ω] {P : Measure Ω} [IsProbabilityMeasure P] {draw : Ω → Round} (hl : RoundLaw P draw) (hr : RangeLaw lo hi P draw) :
    ∃ a : ℝ, 0 < a ∧ a ≤ 1 ∧ ∀ (n : Nat) (B : Set ℝ), MeasurableSet B →
      (Measure.pi fun _ : Fin n => P).real {ω | ∃ x ∈ B, sample d (List.ofFn fun i => draw (ω i)) = some x} =
        (1 - (1 - a) ^ n) * truncatedProb 0 1 lo hi B := by
  by_cases hk : d.kind = .type4
  swap
  · exact C121_law_partial one_pos hpos hm hk hl
  have hx : ∃ x, Within lo hi x := by
    by_contra hc
    apply hpos
    rw [show {x | Within lo hi x} = ∅ from eq_empty_iff_forall_notMem.mpr fun x hx => hc ⟨x, hx⟩, measureReal_empty]
  obtain ⟨h1, h2, h3, h4⟩ := make_shape one_pos hm hx
  rcases h4 with h4 | ⟨h4, -⟩ | ⟨h4, -⟩ | ⟨-, l, u, hl1, hl2, h0⟩
  · rw [h4] at hk; cases hk
  · rw [h4] at hk; cases hk
  · rw [h4] at hk; cases hk
  obtain ⟨e1, e2⟩ := make_standard hm hk hl1 hl2
  have hlu : l < u := by
    by_contra hc
    apply hpos
    have hs : {x | Within lo hi x} ⊆ {l} := by
      intro x hx
      rw [e1, e2] at hx
      have a : l ≤ x := hx.1
      have b : x ≤ u := hx.2
      exact mem_singleton_iff.mpr (by linarith)
    have hv : variance 1 ≠ 0 := by
      intro h
      have := variance_coe 1
      rw [h] at this
      norm_num at this
    have hz : normal 0 1 {l} = 0 := gaussianReal_absolutelyContinuous 0 hv (measure_singleton l)
    rw [measureReal_eq_zero_iff (measure_ne_top _ _)]
    exact measure_mono_null hs hz
  obtain ⟨K, hK, hlaw⟩ := law_range hlu h0 (hr l u e1 e2)
  refine law_of_trial (trial := trialRange l u) (K := K) h1 h2 h3 hpos hK (fun rs => ?_) (fun B hB => ?_)
  · unfold sample
    rw [hk, hl1, hl2]
    dsimp only
    rw [complex_first]
  · rw [hl1, hl2]
    exact hlaw B hB

/-- C121: the probability that the first n rounds give a value in `B` tends to the one of the truncated Gaussian law; the probability that they give none tends to
zero. -/
theorem C121_limit_partial {mean sd : ℝ} (hsd : 0 < sd) {lo hi : Bd} (hpos : (normal mean sd).real {x | Within lo hi x} ≠ 0) {d : Dist}
    (hm : make mean sd lo hi = .ok d) (hk : d.kind ≠ .type4) {Ω : Type} [MeasurableSpace Ω] {P : Measure Ω} [IsProbabilityMeasure P] {draw : Ω → Round}
    (hl : RoundLaw P draw) :
    (∀ B, MeasurableSet B → Filter.Tendsto (fun n : Nat => (Measure.pi fun _ : Fin n => P).real {ω | ∃ x ∈ B, sample d (List.ofFn fun i => draw (ω i)) = some x})
      Filter.atTop (nhds (truncatedProb mean sd lo hi B))) ∧
    Filter.Tendsto (fun n : Nat => (Measure.pi fun _ : Fin n => P).real {ω | ∃ x, sample d (List.ofFn fun i => draw (ω i)) = some x}) Filter.atTop (nhds 1) := by
  obtain ⟨a, h0, h1, h⟩ := C121_law_partial hsd hpos hm hk hl
  have hlim : ∀ B, MeasurableSet B → Filter.Tendsto (fun n : Nat => (Measure.pi fun _ : Fin n => P).real {ω | ∃ x ∈ B, sample d (List.ofFn fun i => draw (ω i)) = some x})
      Filter.atTop (nhds (truncatedProb mean sd lo hi B)) := by
    intro B hB
    simp_rw [fun n => h n B hB]
    have hp := tendsto_pow_atTop_nhds_zero_of_lt_one (r := 1 - a) (by linarith) (by linarith)
    have := (hp.const_sub 1).mul_const (truncatedProb mean sd lo hi B)
    rwa [sub_zero, one_mul] at this
  refine ⟨hlim, ?_⟩
  have := hlim univ MeasurableSet.univ
  unfold truncatedProb at this
  rw [univ_inter, div_self hpos] at this
  simpa only [mem_univ, true_and] using this

/-- C121: for two finite bounds the probability that the sample is at most `v` is what `EvaluateTruncatedGaussianCDF` returns. -/
theorem C121_cdf_partial {mean sd : ℝ} (hsd : 0 < sd) {lo hi : ℝ} (hb : lo < hi) {d : Dist} (hm : make mean sd (.fin lo) (.fin hi) = .ok d) (hk : d.kind ≠ .type4)
    {Ω : Type} [MeasurableSpace Ω] {P : Measure Ω} [IsProbabilityMeasure P] {draw : Ω → Round} (hl : RoundLaw P draw) (v : ℝ) :
    ∃ p, truncatedCDF mean lo hi sd v = .ok p ∧
    Filter.Tendsto (fun n : Nat => (Measure.pi fun _ : Fin n => P).real {ω | ∃ x ≤ v, sample d (List.ofFn fun i => draw (ω i)) = some x}) Filter.atTop (nhds p) := by
  refine ⟨_, (C72_truncated_cdf hsd mean lo hi v).2.1 hb, ?_⟩
  have hv : variance sd ≠ 0 := by
    intro h
    have := variance_coe sd
    rw [h, NNReal.coe_zero] at this
    have := pow_pos hsd 2
    linarith
  haveI : NullSingletonClass (normal mean sd) := ⟨fun x => gaussianReal_absolutelyContinuous mean hv (measure_singleton x)⟩
  have hset : {x | Within (.fin lo) (.fin hi) x} = Icc lo hi := rfl
  have hae : (Icc lo hi : Set ℝ) =ᵐ[normal mean sd] Ioc lo hi := Ioc_ae_eq_Icc.symm
  have hpos : (normal mean sd).real {x | Within (.fin lo) (.fin hi) x} ≠ 0 := by
    rw [hset]
    intro h0
    have hz : normal mean sd (Icc lo hi) = 0 := (measureReal_eq_zero_iff (measure_ne_top _ _)).mp h0
    have := gaussianReal_absolutelyContinuous' mean hv hz
    rw [Real.volume_Icc, ENNReal.ofReal_eq_zero] at this
    linarith
  have := (C121_limit_partial hsd hpos hm hk hl).1 (Iic v) measurableSet_Iic
  unfold truncatedProb at this
  rw [hset, measureReal_congr hae, measureReal_congr (Filter.EventuallyEq.inter (Filter.EventuallyEq.refl _ (Iic v)) hae), inter_comm (Iic v)] at this
  exact this

/-! ### A concrete case -/

instance : IsProbabilityMeasure expLaw := by
  constructor
  unfold expLaw
  rw [withDensity_apply _ MeasurableSet.univ, Measure.restrict_univ, Measure.restrict_congr_set Ioi_ae_eq_Ici.symm,
    ← ofReal_integral_eq_lintegral_ofReal (integrableOn_exp_neg_Ioi 0) (Filter.Eventually.of_forall fun x => (Real.exp_pos _).le), integral_exp_neg_Ioi_zero, ENNReal.ofReal_one]

instance : IsProbabilityMeasure unitLaw := by
  constructor
  unfold unitLaw
  rw [Measure.restrict_apply_univ, Real.volume_Icc]
  norm_num

/-- There are such rounds. -/
theorem rounds_exist : RoundLaw ((gaussianReal 0 1).prod (expLaw.prod unitLaw)) fun p : ℝ × ℝ × ℝ => ⟨p.1, p.2.1, 0, p.2.2⟩ :=
  ⟨measurePreserving_fst, measurePreserving_snd⟩

instance (a b : ℝ) [h : Fact (a < b)] : IsProbabilityMeasure (uniformLaw a b) := by
  constructor
  unfold uniformLaw
  have hp : ENNReal.ofReal (b - a) ≠ 0 := by
    rw [Ne, ENNReal.ofReal_eq_zero, not_le]; exact sub_pos.mpr h.out
  rw [Measure.smul_apply, Measure.restrict_apply_univ, Real.volume_Icc, smul_eq_mul, ENNReal.inv_mul_cancel hp ENNReal.ofReal_ne_top]

/-- There are such rounds for any two bounds. -/
theorem range_rounds_exist (a b : ℝ) [Fact (a < b)] :
    RoundLaw ((gaussianReal 0 1).prod (expLaw.prod ((uniformLaw a b).prod unitLaw))) (fun p : ℝ × ℝ × ℝ × ℝ => ⟨p.1, p.2.1, p.2.2.1, p.2.2.2⟩) ∧
    RangeLaw (.fin a) (.fin b) ((gaussianReal 0 1).prod (expLaw.prod ((uniformLaw a b).prod unitLaw))) (fun p : ℝ × ℝ × ℝ × ℝ => ⟨p.1, p.2.1, p.2.2.1, p.2.2.2⟩) := by
  refine ⟨⟨measurePreserving_fst, ?_⟩, ?_⟩
  · exact ((MeasurePreserving.id expLaw).prod measurePreserving_snd).comp measurePreserving_snd
  · intro a' b' ha hb
    cases ha; cases hb
    exact measurePreserving_snd.comp measurePreserving_snd

/-- The standard normal distribution truncated at one from below (the second case), and the hypotheses of the theorem. -/
example : ∃ d, make 0 1 (.fin 1) .posInf = .ok d ∧ d.kind = .type2 ∧ ∃ a : ℝ, 0 < a ∧ a ≤ 1 ∧ ∀ (n : Nat) (B : Set ℝ), MeasurableSet B →
    (Measure.pi fun _ : Fin n => (gaussianReal 0 1).prod (expLaw.prod unitLaw)).real
      {ω | ∃ x ∈ B, sample d (List.ofFn fun i => ⟨(ω i).1, (ω i).2.1, 0, (ω i).2.2⟩) = some x} = (1 - (1 - a) ^ n) * truncatedProb 0 1 (.fin 1) .posInf B := by
  have hm : make 0 1 (.fin 1) .posInf = .ok ⟨0, 1, .fin 1, .posInf, .type2, .fin 1, .posInf⟩ := by
    have e1 : Bd.std 0 1 (.fin 1) = .fin 1 := by simp [Bd.std]
    have e2 : Bd.std 0 1 .posInf = .posInf := by simp [Bd.std]
    unfold make
    have hc : ¬ (1 : ℝ) ≤ 0 := by norm_num
    have hne : ¬ |(1 : ℝ)| = 0 := by norm_num
    rw [e1, e2, if_neg (by simp [Bd.leB]), if_neg hne]
    have s1 : step1 ⟨0, 1, .fin 1, .posInf, .none, .fin 1, .posInf⟩ = ⟨0, 1, .fin 1, .posInf, .none, .fin 1, .posInf⟩ := by
      unfold step1; rw [if_neg (fun c => hc c.2)]
    have s2 : step2 ⟨0, 1, .fin 1, .posInf, .none, .fin 1, .posInf⟩ = ⟨0, 1, .fin 1, .posInf, .type2, .fin 1, .posInf⟩ := by
      unfold step2; rw [if_pos ⟨hc, rfl⟩]
    have s3 : step3 ⟨0, 1, .fin 1, .posInf, .type2, .fin 1, .posInf⟩ = ⟨0, 1, .fin 1, .posInf, .type2, .fin 1, .posInf⟩ := by
      unfold step3; rw [if_neg (by rintro ⟨-, c⟩; cases c)]
    have s4 : step4 ⟨0, 1, .fin 1, .posInf, .type2, .fin 1, .posInf⟩ = ⟨0, 1, .fin 1, .posInf, .type2, .fin 1, .posInf⟩ := by
      unfold step4; rw [if_neg (by rintro ⟨-, c⟩; exact c (.inl rfl))]
    rw [s1, s2, s3, s4]
    rfl
  refine ⟨_, hm, rfl, C121_law_partial one_pos ?_ hm (by simp) rounds_exist⟩
  have hs : {x : ℝ | Within (.fin 1) .posInf x} = Ici 1 := by ext x; simp [Within, Bd.le, Bd.ge]
  rw [hs]
  intro h0
  have hz : normal 0 1 (Ici 1) = 0 := (measureReal_eq_zero_iff (measure_ne_top _ _)).mp h0
  have hv : variance 1 ≠ 0 := by
    intro h
    have := variance_coe 1
    rw [h] at this
    norm_num at this
  have := gaussianReal_absolutelyContinuous' 0 hv hz
  rw [Real.volume_Ici] at this
  exact ENNReal.top_ne_zero this

end CRU.Gaussian
