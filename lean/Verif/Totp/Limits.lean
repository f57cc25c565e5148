import Verif.Totp.Ext
import Mathlib.Data.List.FinRange
import Mathlib.Analysis.Calculus.Deriv.Abs
import Mathlib.Analysis.Calculus.Deriv.Inv
import Mathlib.Analysis.SpecialFunctions.Trigonometric.Deriv
import Mathlib.Tactic.FinCases
import Mathlib.Algebra.Order.Field.Basic
import Mathlib.Tactic.FieldSimp
import Mathlib.Tactic.Ring
/-
  C78: the velocity and acceleration limits along a path (time_optimal_trajectory_parametrization.cpp:985-1089). The tangent and the
  curvature of the path at the position in question are vectors of numbers.
-/
namespace CRU.Totp
open Ext

variable {n : Nat}

/-! ### Model -/

/-- `max ? 1.0 : -1.0` (no project code: C++ or bookkeeping) -/
def factor (max : Bool) : ℝ := if max then 1 else -1

/-- time_optimal_trajectory_parametrization.cpp:997-1000: what one joint allows. -/
noncomputable def jointAcc (amax t c : ℝ) (vel : Ext) (max : Bool) : Ext :=
  (div (.fin amax) (.fin |t|)).sub (div (mul (mul (.fin (factor max * c)) vel) vel) (.fin t))

/-- time_optimal_trajectory_parametrization.cpp:993-1003: the loop over the joints. -/
noncomputable def accLoop (amax t c : Fin n → ℝ) (vel : Ext) (max : Bool) : List (Fin n) → Ext → Ext
  | [], m => m
  | i :: is, m => accLoop amax t c vel max is (open Classical in if t i ≠ 0 then stdMin m (jointAcc (amax i) (t i) (c i) vel max) else m)

/-- time_optimal_trajectory_parametrization.cpp:985-1005 `GetMinMaxPathAcceleration`, for the tangent `t` and the curvature `c`. -/
noncomputable def minMaxAcc (amax t c : Fin n → ℝ) (vel : Ext) (max : Bool) : Ext :=
  mul (.fin (factor max)) (accLoop amax t c vel max (List.finRange n) (.fin dblMax))

/-- time_optimal_trajectory_parametrization.cpp:1007-1012 `GetMinMaxPhaseSlope`. -/
noncomputable def phaseSlope (amax t c : Fin n → ℝ) (vel : Ext) (max : Bool) : Ext := div (minMaxAcc amax t c vel max) vel

/-- time_optimal_trajectory_parametrization.cpp:1027-1037: what a pair of moving joints allows. -/
noncomputable def pairVel (amax t c : Fin n → ℝ) (i j : Fin n) : Option Ext :=
  open Classical in
  if c i / t i - c j / t j ≠ 0 then
    some (sqrt (div (.fin (amax i / |t i| + amax j / |t j|)) (.fin |c i / t i - c j / t j|)))
  else none

/-- time_optimal_trajectory_parametrization.cpp:1023-1039: the inner loop. -/
noncomputable def pairLoop (amax t c : Fin n → ℝ) (i : Fin n) : List (Fin n) → Ext → Ext
  | [], m => m
  | j :: js, m => pairLoop amax t c i js
      (open Classical in if t j ≠ 0 then
        match pairVel amax t c i j with
        | some v => stdMin m v
        | none => m
      else m)

/-- time_optimal_trajectory_parametrization.cpp:1019-1047: the outer loop; the joints after `i` are the rest of the list. -/
noncomputable def accVelLoop (amax t c : Fin n → ℝ) : List (Fin n) → Ext → Ext
  | [], m => m
  | i :: is, m => accVelLoop amax t c is
      (open Classical in if t i ≠ 0 then pairLoop amax t c i is m
      else if c i ≠ 0 then stdMin m (sqrt (div (.fin (amax i)) (.fin |c i|)))
      else m)

/-- time_optimal_trajectory_parametrization.cpp:1014-1049 `GetAccelerationMaxPathVelocity`. -/
noncomputable def accMaxVel (amax t c : Fin n → ℝ) : Ext := accVelLoop amax t c (List.finRange n) .pinf

/-- time_optimal_trajectory_parametrization.cpp:1056-1060: the loop. -/
noncomputable def velLoop (vmax t : Fin n → ℝ) : List (Fin n) → Ext → Ext
  | [], m => m
  | i :: is, m => velLoop vmax t is (stdMin m (div (.fin (vmax i)) (.fin |t i|)))

/-- time_optimal_trajectory_parametrization.cpp:1052-1062 `GetVelocityMaxPathVelocity`. -/
noncomputable def velMaxVel (vmax t : Fin n → ℝ) : Ext := velLoop vmax t (List.finRange n) (.fin dblMax)

/-- time_optimal_trajectory_parametrization.cpp:1075-1084: the loop of the next function, which also remembers the joint that is
limiting. -/
noncomputable def activeLoop (vmax t : Fin n → ℝ) : List (Fin n) → Ext × Fin n → Ext × Fin n
  | [], m => m
  | i :: is, m => activeLoop vmax t is
      (open Classical in if lt (div (.fin (vmax i)) (.fin |t i|)) m.1 then (div (.fin (vmax i)) (.fin |t i|), i) else m)

/-- time_optimal_trajectory_parametrization.cpp:1070-1089 `GetVelocityMaxPathVelocityDeriv` (there is at least one joint). -/
noncomputable def velMaxVelDeriv [NeZero n] (vmax t c : Fin n → ℝ) : Ext :=
  let k := (activeLoop vmax t (List.finRange n) (.fin dblMax, 0)).2
  div (.fin (-(vmax k * c k))) (.fin (t k * |t k|))

/-! ### Specification -/

/-- Moving along the path with velocity `v` and acceleration `a`, joint `i` has this acceleration: the second derivative of
`q(s(t))` is `q' s'' + q'' s'^2`. -/
def jointAcceleration (t c : Fin n → ℝ) (v a : ℝ) (i : Fin n) : ℝ := t i * a + c i * v ^ 2

/-- All joints within their acceleration limits. -/
def AccOk (amax t c : Fin n → ℝ) (v a : ℝ) : Prop := ∀ i, |jointAcceleration t c v a i| ≤ amax i

/-- All joints within their velocity limits. -/
def VelOk (vmax t : Fin n → ℝ) (v : ℝ) : Prop := ∀ i, |t i * v| ≤ vmax i

/-! ### Proofs -/

theorem jointAcc_fin {amax t c v : ℝ} {max : Bool} (ht : t ≠ 0) :
    jointAcc amax t c (.fin v) max = .fin (amax / |t| - factor max * c * v * v / t) := by
  unfold jointAcc
  rw [div_fin (abs_ne_zero.mpr ht), mul_fin, mul_fin, div_fin ht, sub_fin]

theorem accLoop_fin (amax t c : Fin n → ℝ) (v : ℝ) (max : Bool) : ∀ (is : List (Fin n)) (m : ℝ), ∃ r,
    accLoop amax t c (.fin v) max is (.fin m) = .fin r ∧
    ∀ a, a ≤ r ↔ a ≤ m ∧ ∀ i ∈ is, t i ≠ 0 → a ≤ amax i / |t i| - factor max * c i * v * v / t i
  | [], m => ⟨m, rfl, by simp⟩
  | i :: is, m => by
    unfold accLoop
    by_cases ht : t i ≠ 0
    · rw [if_pos ht, jointAcc_fin ht, stdMin_fin]
      obtain ⟨r, h1, h2⟩ := accLoop_fin amax t c v max is (min m (amax i / |t i| - factor max * c i * v * v / t i))
      refine ⟨r, h1, fun a => ?_⟩
      rw [h2, le_min_iff]
      constructor
      · rintro ⟨⟨h3, h4⟩, h5⟩
        refine ⟨h3, fun j hj => ?_⟩
        rcases List.mem_cons.mp hj with rfl | hj
        · exact fun _ => h4
        · exact h5 j hj
      · rintro ⟨h3, h4⟩
        exact ⟨⟨h3, h4 i List.mem_cons_self ht⟩, fun j hj => h4 j (List.mem_cons_of_mem _ hj)⟩
    · rw [if_neg ht]
      obtain ⟨r, h1, h2⟩ := accLoop_fin amax t c v max is m
      refine ⟨r, h1, fun a => ?_⟩
      rw [h2]
      constructor
      · rintro ⟨h3, h4⟩
        refine ⟨h3, fun j hj htj => ?_⟩
        rcases List.mem_cons.mp hj with rfl | hj
        · exact absurd htj ht
        · exact h4 j hj htj
      · rintro ⟨h3, h4⟩
        exact ⟨h3, fun j hj => h4 j (List.mem_cons_of_mem _ hj)⟩

/-- One joint: both one-sided bounds together are the joint's limit. -/
theorem joint_iff {amax t c v a : ℝ} (ht : t ≠ 0) :
    (a ≤ amax / |t| - factor true * c * v * v / t ∧ -a ≤ amax / |t| - factor false * c * v * v / t) ↔ |t * a + c * v ^ 2| ≤ amax := by
  have h0 : 0 < |t| := abs_pos.mpr ht
  have h1 : |t * a + c * v ^ 2| = |t| * |a + c * v * v / t| := by
    rw [← abs_mul]
    congr 1
    field_simp
  rw [h1, show factor true = 1 from rfl, show factor false = -1 from rfl]
  rw [mul_comm |t|, ← le_div_iff₀ h0, abs_le]
  have e1 : 1 * c * v * v / t = c * v * v / t := by ring
  have e2 : -1 * c * v * v / t = -(c * v * v / t) := by ring
  rw [e1, e2]
  constructor
  · rintro ⟨h2, h3⟩; constructor <;> linarith
  · rintro ⟨h2, h3⟩; constructor <;> linarith

theorem minMaxAcc_spec (amax t c : Fin n → ℝ) (v : ℝ) : ∃ lo hi : ℝ,
    minMaxAcc amax t c (.fin v) false = .fin lo ∧ minMaxAcc amax t c (.fin v) true = .fin hi ∧
    (∀ a, a ≤ hi ↔ a ≤ dblMax ∧ ∀ i, t i ≠ 0 → a ≤ amax i / |t i| - factor true * c i * v * v / t i) ∧
    (∀ a, lo ≤ a ↔ -dblMax ≤ a ∧ ∀ i, t i ≠ 0 → -a ≤ amax i / |t i| - factor false * c i * v * v / t i) := by
  obtain ⟨r1, h1, h2⟩ := accLoop_fin amax t c v false (List.finRange n) dblMax
  obtain ⟨r2, h3, h4⟩ := accLoop_fin amax t c v true (List.finRange n) dblMax
  refine ⟨-r1, r2, ?_, ?_, fun a => ?_, fun a => ?_⟩
  · unfold minMaxAcc
    rw [h1, mul_fin, show factor false = -1 from rfl, neg_one_mul]
  · unfold minMaxAcc
    rw [h3, mul_fin, show factor true = 1 from rfl, one_mul]
  · rw [h4]; simp
  · rw [neg_le, h2, neg_le]; simp

/-- C78. Between the smallest and the largest path acceleration that are computed for a path position and velocity lie exactly the path
accelerations with which every joint that moves along the path there stays within its acceleration limit. -/
theorem C78_acceleration_range (amax t c : Fin n → ℝ) (v : ℝ) : ∃ lo hi : ℝ,
    minMaxAcc amax t c (.fin v) false = .fin lo ∧ minMaxAcc amax t c (.fin v) true = .fin hi ∧
    ∀ a, |a| ≤ dblMax → ((lo ≤ a ∧ a ≤ hi) ↔ ∀ i, t i ≠ 0 → |jointAcceleration t c v a i| ≤ amax i) := by
  obtain ⟨lo, hi, h1, h2, h3, h4⟩ := minMaxAcc_spec amax t c v
  refine ⟨lo, hi, h1, h2, fun a ha => ?_⟩
  obtain ⟨ha1, ha2⟩ := abs_le.mp ha
  rw [h3, h4]
  constructor
  · rintro ⟨⟨_, h5⟩, ⟨_, h6⟩⟩ i hi
    exact (joint_iff hi).mp ⟨h6 i hi, h5 i hi⟩
  · intro h
    exact ⟨⟨ha1, fun i hi => ((joint_iff hi).mpr (h i hi)).2⟩, ⟨ha2, fun i hi => ((joint_iff hi).mpr (h i hi)).1⟩⟩

/-- At path velocity 1, two joints with tangent (3/5, 4/5), curvature (-4/5, 3/5) and limits 1 allow exactly the path accelerations from
-1/3 to 1/2. -/
example : ∃ lo hi : ℝ, minMaxAcc ![1, 1] ![3 / 5, 4 / 5] ![-4 / 5, 3 / 5] (.fin 1) false = .fin lo ∧
    minMaxAcc ![1, 1] ![3 / 5, 4 / 5] ![-4 / 5, 3 / 5] (.fin 1) true = .fin hi ∧ lo ≤ -1 / 3 ∧ 1 / 2 ≤ hi ∧ ¬ 3 / 5 ≤ hi := by
  have hd : (1 : ℝ) ≤ dblMax := le_trans (by norm_num) dblMax_big
  obtain ⟨lo, hi, h1, h2, h3⟩ := C78_acceleration_range (![1, 1] : Fin 2 → ℝ) ![3 / 5, 4 / 5] ![-4 / 5, 3 / 5] 1
  have e1 := (h3 (-1 / 3) (le_trans (by norm_num [abs_le]) hd)).mpr (by
    intro i _
    fin_cases i <;> norm_num [jointAcceleration, abs_le])
  have e2 := (h3 (1 / 2) (le_trans (by norm_num [abs_le]) hd)).mpr (by
    intro i _
    fin_cases i <;> norm_num [jointAcceleration, abs_le])
  refine ⟨lo, hi, h1, h2, e1.1, e2.2, fun hc => ?_⟩
  have := (h3 (3 / 5) (le_trans (by norm_num [abs_le]) hd)).mp ⟨by linarith [e1.1], hc⟩ 1 (by norm_num)
  norm_num [jointAcceleration, abs_le] at this

/-! ### The velocity limit curve -/

theorem velLoop_fin (vmax t : Fin n → ℝ) (hv : ∀ i, 0 ≤ vmax i) : ∀ (is : List (Fin n)) (m : ℝ), ∃ r,
    velLoop vmax t is (.fin m) = .fin r ∧ ∀ v, v ≤ r ↔ v ≤ m ∧ ∀ i ∈ is, t i ≠ 0 → v ≤ vmax i / |t i|
  | [], m => ⟨m, rfl, by simp⟩
  | i :: is, m => by
    unfold velLoop
    by_cases ht : t i = 0
    · have h1 : stdMin (.fin m) (div (.fin (vmax i)) (.fin |t i|)) = .fin m := by
        rw [ht, abs_zero]
        by_cases h0 : vmax i = 0
        · simp [div, h0, stdMin_nan]
        · have : 0 < vmax i := lt_of_le_of_ne (hv i) (Ne.symm h0)
          simp [div, h0, this, stdMin_pinf]
      rw [h1]
      obtain ⟨r, h2, h3⟩ := velLoop_fin vmax t hv is m
      refine ⟨r, h2, fun v => ?_⟩
      rw [h3]
      constructor
      · rintro ⟨h4, h5⟩
        refine ⟨h4, fun j hj htj => ?_⟩
        rcases List.mem_cons.mp hj with rfl | hj
        · exact absurd ht htj
        · exact h5 j hj htj
      · rintro ⟨h4, h5⟩
        exact ⟨h4, fun j hj => h5 j (List.mem_cons_of_mem _ hj)⟩
    · rw [div_fin (abs_ne_zero.mpr ht), stdMin_fin]
      obtain ⟨r, h2, h3⟩ := velLoop_fin vmax t hv is (min m (vmax i / |t i|))
      refine ⟨r, h2, fun v => ?_⟩
      rw [h3, le_min_iff]
      constructor
      · rintro ⟨⟨h4, h5⟩, h6⟩
        refine ⟨h4, fun j hj => ?_⟩
        rcases List.mem_cons.mp hj with rfl | hj
        · exact fun _ => h5
        · exact h6 j hj
      · rintro ⟨h4, h5⟩
        exact ⟨⟨h4, h5 i List.mem_cons_self ht⟩, fun j hj => h5 j (List.mem_cons_of_mem _ hj)⟩

/-- C78. A path velocity (up to the largest `double`) is at most the computed velocity limit exactly if every joint is within its
velocity limit. -/
theorem C78_velocity_limit (vmax t : Fin n → ℝ) (hv : ∀ i, 0 ≤ vmax i) : ∃ r : ℝ, velMaxVel vmax t = .fin r ∧
    ∀ v, 0 ≤ v → v ≤ dblMax → (v ≤ r ↔ VelOk vmax t v) := by
  obtain ⟨r, h1, h2⟩ := velLoop_fin vmax t hv (List.finRange n) dblMax
  refine ⟨r, h1, fun v h0 hm => ?_⟩
  rw [h2]
  unfold VelOk
  constructor
  · rintro ⟨_, h3⟩ i
    rw [abs_mul, abs_of_nonneg h0]
    by_cases ht : t i = 0
    · rw [ht, abs_zero, zero_mul]; exact hv i
    · have := h3 i (List.mem_finRange i) ht
      rw [le_div_iff₀ (abs_pos.mpr ht)] at this
      linarith
  · intro h3
    refine ⟨hm, fun i _ ht => ?_⟩
    rw [le_div_iff₀ (abs_pos.mpr ht)]
    have := h3 i
    rw [abs_mul, abs_of_nonneg h0] at this
    linarith

/-- With limits 1 and 2 and tangent (3/5, 4/5), path velocity 5/3 is allowed and 2 is not. -/
example : ∃ r : ℝ, velMaxVel ![1, 2] ![3 / 5, 4 / 5] = .fin r ∧ 5 / 3 ≤ r ∧ ¬ 2 ≤ r := by
  have hd : (2 : ℝ) ≤ dblMax := le_trans (by norm_num) dblMax_big
  obtain ⟨r, h1, h2⟩ := C78_velocity_limit (![1, 2] : Fin 2 → ℝ) ![3 / 5, 4 / 5] (by intro i; fin_cases i <;> norm_num)
  refine ⟨r, h1, (h2 _ (by norm_num) (by linarith)).mpr ?_, fun hc => ?_⟩
  · intro i; fin_cases i <;> norm_num [abs_le]
  · have := (h2 _ (by norm_num) hd).mp hc 0
    norm_num [abs_le] at this

/-- Joint `k` is the only limiting one. -/
def OnlyLimit (vmax t : Fin n → ℝ) (k : Fin n) : Prop :=
  t k ≠ 0 ∧ vmax k < dblMax * |t k| ∧ ∀ i, i ≠ k → vmax k * |t i| < vmax i * |t k|

theorem velMaxVel_only {vmax t : Fin n → ℝ} (hv : ∀ i, 0 < vmax i) {k : Fin n} (h : OnlyLimit vmax t k) :
    velMaxVel vmax t = .fin (vmax k / |t k|) := by
  obtain ⟨r, h1, h2⟩ := velLoop_fin vmax t (fun i => (hv i).le) (List.finRange n) dblMax
  obtain ⟨h3, h4, h5⟩ := h
  have hp : 0 < |t k| := abs_pos.mpr h3
  unfold velMaxVel
  rw [h1]
  congr 1
  refine le_antisymm ?_ ?_
  · exact ((h2 r).mp le_rfl).2 k (List.mem_finRange k) h3
  · rw [h2]
    refine ⟨(div_le_iff₀ hp).mpr h4.le, fun i _ hi => ?_⟩
    by_cases hik : i = k
    · rw [hik]
    · rw [div_le_div_iff₀ hp (abs_pos.mpr hi)]
      exact (h5 i hik).le

theorem activeLoop_only {vmax t : Fin n → ℝ} (hv : ∀ i, 0 < vmax i) {k : Fin n} (h : OnlyLimit vmax t k) :
    ∀ (is : List (Fin n)) (m : Ext × Fin n), (m.2 = k ∧ m.1 = .fin (vmax k / |t k|)) ∨ (k ∈ is ∧ lt (.fin (vmax k / |t k|)) m.1) →
      (activeLoop vmax t is m).2 = k
  | [], m, hm => by
    rcases hm with hm | hm
    · exact hm.1
    · simp at hm
  | i :: is, m, hm => by
    obtain ⟨h3, h4, h5⟩ := id h
    have hp : 0 < |t k| := abs_pos.mpr h3
    have hbig : i ≠ k → lt (.fin (vmax k / |t k|)) (div (.fin (vmax i)) (.fin |t i|)) := by
      intro hik
      by_cases hi : t i = 0
      · simp [div, hi, (hv i).ne', hv i, lt]
      · rw [div_fin (abs_ne_zero.mpr hi), lt_fin, div_lt_div_iff₀ hp (abs_pos.mpr hi)]
        exact h5 i hik
    unfold activeLoop
    refine activeLoop_only hv h is _ ?_
    rcases hm with ⟨hm1, hm2⟩ | ⟨hm1, hm2⟩
    · left
      rw [if_neg]
      · exact ⟨hm1, hm2⟩
      · rw [hm2]
        by_cases hik : i = k
        · rw [hik, div_fin hp.ne', lt_fin]; exact lt_irrefl _
        · intro hc
          have := hbig hik
          cases hd : div (.fin (vmax i)) (.fin |t i|) <;> rw [hd] at this hc <;> simp_all [lt]
          linarith
    · by_cases hik : i = k
      · left
        subst hik
        rw [div_fin hp.ne', if_pos hm2]
        exact ⟨rfl, rfl⟩
      · right
        refine ⟨(List.mem_cons.mp hm1).resolve_left fun hc => hik hc.symm, ?_⟩
        split_ifs
        · exact hbig hik
        · exact hm2

/-- C78. Where one joint alone determines the velocity limit, the computed slope is the derivative of the velocity limit along the
path. -/
theorem C78_velocity_limit_slope [NeZero n] (vmax : Fin n → ℝ) (hv : ∀ i, 0 < vmax i) (t c : ℝ → Fin n → ℝ) (s : ℝ)
    (hd : ∀ i, HasDerivAt (fun x => t x i) (c s i) s) (k : Fin n) (hk : OnlyLimit vmax (t s) k) :
    ∃ (V : ℝ → ℝ) (d : ℝ), (∀ᶠ x in nhds s, velMaxVel vmax (t x) = .fin (V x)) ∧ velMaxVelDeriv vmax (t s) (c s) = .fin d ∧
      HasDerivAt V d s := by
  have h3 := hk.1
  refine ⟨fun x => vmax k / |t x k|, -(vmax k * c s k) / (t s k * |t s k|), ?_, ?_, ?_⟩
  · have hc : ∀ i, ContinuousAt (fun x => |t x i|) s := fun i => (hd i).continuousAt.abs
    have e1 : ∀ᶠ x in nhds s, t x k ≠ 0 := (hd k).continuousAt.eventually_ne h3
    have e2 : ∀ᶠ x in nhds s, vmax k < dblMax * |t x k| :=
      ContinuousAt.eventually_lt continuousAt_const (continuousAt_const.mul (hc k)) hk.2.1
    have e3 : ∀ᶠ x in nhds s, ∀ i, i ≠ k → vmax k * |t x i| < vmax i * |t x k| := by
      rw [Filter.eventually_all]
      intro i
      by_cases hik : i = k
      · exact Filter.Eventually.of_forall fun x hx => absurd hik hx
      · exact (ContinuousAt.eventually_lt (continuousAt_const.mul (hc i)) (continuousAt_const.mul (hc k)) (hk.2.2 i hik)).mono fun x hx _ => hx
    filter_upwards [e1, e2, e3] with x x1 x2 x3
    exact velMaxVel_only hv ⟨x1, x2, x3⟩
  · unfold velMaxVelDeriv
    dsimp only
    rw [activeLoop_only hv hk _ _ (Or.inr ⟨List.mem_finRange k, ?_⟩)]
    · exact div_fin (mul_ne_zero h3 (abs_ne_zero.mpr h3))
    · rw [lt_fin, div_lt_iff₀ (abs_pos.mpr h3)]; exact hk.2.1
  · have hab : HasDerivAt (fun x => |t x k|) (SignType.sign (t s k) * c s k) s := by
      have := (hasDerivAt_abs h3).comp s (hd k)
      simpa [Function.comp_def] using this
    have hq := (hasDerivAt_const s (vmax k)).div hab (abs_ne_zero.mpr h3)
    refine hq.congr_deriv ?_
    have hs : (SignType.sign (t s k) : ℝ) * |t s k| = t s k := sign_mul_abs _
    have ha : |t s k| ^ 2 = t s k ^ 2 := sq_abs _
    have hne : |t s k| ≠ 0 := abs_ne_zero.mpr h3
    rw [zero_mul, zero_sub]
    rw [div_eq_div_iff (pow_ne_zero 2 hne) (mul_ne_zero h3 hne)]
    have : -(vmax k * (↑(SignType.sign (t s k)) * c s k)) * (t s k * |t s k|) = -(vmax k * c s k) * t s k * (↑(SignType.sign (t s k)) * |t s k|) := by ring
    rw [this, hs, ha]
    ring

/-- A joint moving on a circle: tangent (-sin s, cos s), curvature (-cos s, -sin s), at s = 0. -/
example : ∃ (V : ℝ → ℝ) (d : ℝ), (∀ᶠ x in nhds (0 : ℝ), velMaxVel ![1, 1] (![-Real.sin x, Real.cos x] : Fin 2 → ℝ) = .fin (V x)) ∧
    velMaxVelDeriv ![1, 1] (![-Real.sin 0, Real.cos 0] : Fin 2 → ℝ) ![-Real.cos 0, -Real.sin 0] = .fin d ∧ HasDerivAt V d 0 := by
  refine C78_velocity_limit_slope ![1, 1] (by intro i; fin_cases i <;> norm_num) (fun x => ![-Real.sin x, Real.cos x])
    (fun x => ![-Real.cos x, -Real.sin x]) 0 ?_ 1 ⟨by simp, ?_, ?_⟩
  · intro i
    fin_cases i
    · exact (Real.hasDerivAt_sin 0).neg
    · exact Real.hasDerivAt_cos 0
  · have := dblMax_big
    norm_num at this ⊢
    linarith
  · intro i hi
    fin_cases i
    · simp
    · exact absurd rfl hi

/-! ### The velocities at which there is a possible acceleration -/

/-- `v ≤ x` for a computed limit. -/
theorem le_stdMin {v : ℝ} {a b : Ext} (ha : a ≠ .nan) (hb : b ≠ .nan) : le (.fin v) (stdMin a b) ↔ le (.fin v) a ∧ le (.fin v) b := by
  cases a with
  | fin x =>
    cases b with
    | fin y => rw [stdMin_fin, le_fin, le_fin, le_fin, le_min_iff]
    | _ => simp_all [stdMin, lt, le]
  | _ => cases b <;> simp_all [stdMin, lt, le]

theorem stdMin_ne_nan {a b : Ext} (ha : a ≠ .nan) (hb : b ≠ .nan) : stdMin a b ≠ .nan := by
  unfold stdMin
  split_ifs <;> assumption

theorem le_sqrt_div {x y v : ℝ} (hx : 0 ≤ x) (hy : 0 < y) (hv : 0 ≤ v) :
    sqrt (div (.fin x) (.fin y)) ≠ .nan ∧ (le (.fin v) (sqrt (div (.fin x) (.fin y))) ↔ v ^ 2 * y ≤ x) := by
  rw [div_fin hy.ne', sqrt_fin (div_nonneg hx hy.le)]
  refine ⟨by simp, ?_⟩
  rw [le_fin, Real.le_sqrt hv (div_nonneg hx hy.le), le_div_iff₀ hy]

theorem pairLoop_spec (amax t c : Fin n → ℝ) (ha : ∀ i, 0 ≤ amax i) {v : ℝ} (hv : 0 ≤ v) (i : Fin n) (ht : t i ≠ 0) :
    ∀ (js : List (Fin n)) (m : Ext), m ≠ .nan → pairLoop amax t c i js m ≠ .nan ∧
      (le (.fin v) (pairLoop amax t c i js m) ↔ le (.fin v) m ∧ ∀ j ∈ js, t j ≠ 0 →
        v ^ 2 * |c i / t i - c j / t j| ≤ amax i / |t i| + amax j / |t j|)
  | [], m, hm => ⟨hm, by simp [pairLoop]⟩
  | j :: js, m, hm => by
    unfold pairLoop
    have hx : 0 ≤ amax i / |t i| + amax j / |t j| := by
      have := ha i
      have := ha j
      positivity
    by_cases htj : t j ≠ 0
    · rw [if_pos htj]
      unfold pairVel
      by_cases hd : c i / t i - c j / t j ≠ 0
      · rw [if_pos hd]
        dsimp only
        obtain ⟨q1, q2⟩ := le_sqrt_div hx (abs_pos.mpr hd) hv
        obtain ⟨h1, h2⟩ := pairLoop_spec amax t c ha hv i ht js _ (stdMin_ne_nan hm q1)
        refine ⟨h1, ?_⟩
        rw [h2, le_stdMin hm q1, q2]
        simp only [List.mem_cons, forall_eq_or_imp]
        tauto
      · rw [if_neg hd]
        dsimp only
        obtain ⟨h1, h2⟩ := pairLoop_spec amax t c ha hv i ht js m hm
        refine ⟨h1, ?_⟩
        rw [h2]
        push Not at hd
        simp only [List.mem_cons, forall_eq_or_imp, hd, abs_zero, mul_zero]
        tauto
    · rw [if_neg htj]
      obtain ⟨h1, h2⟩ := pairLoop_spec amax t c ha hv i ht js m hm
      refine ⟨h1, ?_⟩
      rw [h2]
      simp only [List.mem_cons, forall_eq_or_imp]
      tauto

theorem accVelLoop_spec (amax t c : Fin n → ℝ) (ha : ∀ i, 0 ≤ amax i) {v : ℝ} (hv : 0 ≤ v) :
    ∀ (is : List (Fin n)) (m : Ext), m ≠ .nan → accVelLoop amax t c is m ≠ .nan ∧
      (le (.fin v) (accVelLoop amax t c is m) ↔ le (.fin v) m ∧
        (is.Pairwise fun i j => t i ≠ 0 → t j ≠ 0 → v ^ 2 * |c i / t i - c j / t j| ≤ amax i / |t i| + amax j / |t j|) ∧
        ∀ i ∈ is, t i = 0 → v ^ 2 * |c i| ≤ amax i)
  | [], m, hm => ⟨hm, by simp [accVelLoop]⟩
  | i :: is, m, hm => by
    unfold accVelLoop
    rw [List.pairwise_cons]
    by_cases ht : t i ≠ 0
    · rw [if_pos ht]
      obtain ⟨p1, p2⟩ := pairLoop_spec amax t c ha hv i ht is m hm
      obtain ⟨h1, h2⟩ := accVelLoop_spec amax t c ha hv is _ p1
      refine ⟨h1, ?_⟩
      rw [h2, p2]
      simp only [List.mem_cons, forall_eq_or_imp]
      tauto
    · rw [if_neg ht]
      push Not at ht
      by_cases hc : c i ≠ 0
      · rw [if_pos hc]
        obtain ⟨q1, q2⟩ := le_sqrt_div (ha i) (abs_pos.mpr hc) hv
        obtain ⟨h1, h2⟩ := accVelLoop_spec amax t c ha hv is _ (stdMin_ne_nan hm q1)
        refine ⟨h1, ?_⟩
        rw [h2, le_stdMin hm q1, q2]
        simp only [List.mem_cons, forall_eq_or_imp]
        tauto
      · rw [if_neg hc]
        obtain ⟨h1, h2⟩ := accVelLoop_spec amax t c ha hv is m hm
        refine ⟨h1, ?_⟩
        rw [h2]
        push Not at hc
        have := ha i
        simp only [List.mem_cons, forall_eq_or_imp, hc, abs_zero, mul_zero]
        tauto

/-- Intervals that meet pairwise have a common point. -/
theorem helly (S : Finset (Fin n)) (x r : Fin n → ℝ) (hr : ∀ i, 0 ≤ r i)
    (h : ∀ i ∈ S, ∀ j ∈ S, |x i - x j| ≤ r i + r j) : ∃ a, ∀ i ∈ S, |x i - a| ≤ r i := by
  rcases S.eq_empty_or_nonempty with rfl | hS
  · exact ⟨0, by simp⟩
  obtain ⟨k, hk, hm⟩ := S.exists_max_image (fun i => x i - r i) hS
  refine ⟨x k - r k, fun i hi => ?_⟩
  have h1 := hm i hi
  have h2 := (abs_le.mp (h i hi k hk)).1
  rw [abs_le]
  constructor <;> linarith

/-- C78. The computed acceleration limit on the path velocity is exact: a path velocity is at most it exactly if there is some path
acceleration with which all joints, also those that do not move along the path at this point, stay within their acceleration
limits. -/
theorem C78_acceleration_limit (amax t c : Fin n → ℝ) (ha : ∀ i, 0 ≤ amax i) (v : ℝ) (hv : 0 ≤ v) :
    accMaxVel amax t c ≠ .nan ∧ (le (.fin v) (accMaxVel amax t c) ↔ ∃ a, AccOk amax t c v a) := by
  obtain ⟨h1, h2⟩ := accVelLoop_spec amax t c ha hv (List.finRange n) .pinf (by simp)
  refine ⟨h1, ?_⟩
  unfold accMaxVel
  rw [h2]
  have key : ∀ a i, t i ≠ 0 → (|jointAcceleration t c v a i| ≤ amax i ↔ |-(c i / t i) * v ^ 2 - a| ≤ amax i / |t i|) := by
    intro a i ht
    unfold jointAcceleration
    rw [le_div_iff₀ (abs_pos.mpr ht), ← abs_mul, show (-(c i / t i) * v ^ 2 - a) * t i = -(t i * a + c i * v ^ 2) by field_simp; ring, abs_neg]
  constructor
  · rintro ⟨_, h3, h4⟩
    obtain ⟨a, h5⟩ := helly (Finset.univ.filter fun i => t i ≠ 0) (fun i => -(c i / t i) * v ^ 2) (fun i => amax i / |t i|)
      (fun i => div_nonneg (ha i) (abs_nonneg _)) (by
        intro i hi j hj
        simp only [Finset.mem_filter, Finset.mem_univ, true_and] at hi hj
        have hs : ∀ x y : Fin n, |-(c x / t x) * v ^ 2 - -(c y / t y) * v ^ 2| = v ^ 2 * |c x / t x - c y / t y| := by
          intro x y
          rw [show -(c x / t x) * v ^ 2 - -(c y / t y) * v ^ 2 = -(v ^ 2 * (c x / t x - c y / t y)) by ring, abs_neg, abs_mul,
            abs_of_nonneg (sq_nonneg v)]
        rw [hs]
        rcases lt_trichotomy i j with hij | hij | hij
        · have hp := List.pairwise_iff_getElem.mp h3 i.1 j.1 (by simp) (by simp) hij
          simp only [List.getElem_finRange, Fin.cast_mk, Fin.eta] at hp
          exact hp hi hj
        · subst hij
          rw [sub_self, abs_zero, mul_zero]
          have := div_nonneg (ha i) (abs_nonneg (t i))
          linarith
        · have hp := List.pairwise_iff_getElem.mp h3 j.1 i.1 (by simp) (by simp) hij
          simp only [List.getElem_finRange, Fin.cast_mk, Fin.eta] at hp
          have := hp hj hi
          rw [abs_sub_comm, add_comm]
          exact this)
    refine ⟨a, fun i => ?_⟩
    by_cases ht : t i = 0
    · unfold jointAcceleration
      rw [ht, zero_mul, zero_add, abs_mul, abs_of_nonneg (sq_nonneg v), mul_comm]
      exact h4 i (List.mem_finRange i) ht
    · exact (key a i ht).mpr (h5 i (by simpa using ht))
  · rintro ⟨a, h⟩
    refine ⟨by simp [le], ?_, ?_⟩
    · refine List.Pairwise.imp_of_mem (R := fun _ _ => True) ?_ (by rw [List.pairwise_iff_getElem]; intros; trivial)
      intro i j _ _ _ hi hj
      have e1 := (key a i hi).mp (h i)
      have e2 := (key a j hj).mp (h j)
      have e3 : v ^ 2 * |c i / t i - c j / t j| = |(-(c i / t i) * v ^ 2 - a) - (-(c j / t j) * v ^ 2 - a)| := by
        rw [show (-(c i / t i) * v ^ 2 - a) - (-(c j / t j) * v ^ 2 - a) = -(v ^ 2 * (c i / t i - c j / t j)) by ring, abs_neg, abs_mul,
          abs_of_nonneg (sq_nonneg v)]
      rw [e3]
      exact le_trans (abs_sub _ _) (add_le_add e1 e2)
    · intro i _ ht
      have := h i
      unfold jointAcceleration at this
      rw [ht, zero_mul, zero_add, abs_mul, abs_of_nonneg (sq_nonneg v)] at this
      linarith

/-- On a circle of radius 1 with acceleration limits 1, at the point where only the first joint moves, the velocity 1 is possible and 2 is
not. -/
example : le (.fin 1) (accMaxVel ![1, 1] ![1, 0] ![0, 1]) ∧ ¬ le (.fin 2) (accMaxVel ![1, 1] ![1, 0] ![0, 1]) := by
  have ha : ∀ i, (0 : ℝ) ≤ (![1, 1] : Fin 2 → ℝ) i := by intro i; fin_cases i <;> norm_num
  rw [(C78_acceleration_limit _ _ _ ha 1 (by norm_num)).2, (C78_acceleration_limit _ _ _ ha 2 (by norm_num)).2]
  constructor
  · refine ⟨0, fun i => ?_⟩
    fin_cases i <;> norm_num [jointAcceleration]
  · rintro ⟨a, h⟩
    have := h 1
    norm_num [jointAcceleration] at this

end CRU.Totp
