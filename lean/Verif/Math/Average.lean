import Verif.Base
import Mathlib.Algebra.Module.Basic
import Mathlib.Algebra.BigOperators.Group.List.Basic
import Mathlib.Algebra.Order.Field.Basic
import Mathlib.Analysis.Real.Sqrt
import Mathlib.Tactic.FieldSimp
import Mathlib.Tactic.Module
import Mathlib.Tactic.Linarith
import Mathlib.Tactic.NormNum
/-
  C51: weighted averages and multilinear interpolation (math.cpp, math.hpp), in exact arithmetic: numbers from an ordered field `K`,
  vectors from a vector space `V` over it (`V = K` for the functions on doubles).
-/
namespace CRU.Math
set_option linter.unusedSectionVars false

variable {K : Type} [Field K] [LinearOrder K] [IsStrictOrderedRing K] {V : Type} [AddCommGroup V] [Module K V]

/-- math.cpp:690-695, math.hpp:379-383: the index of the first weight that is not zero (the number of weights if there is none). -/
def startingIdx (weights : List K) : Nat → Nat → Nat
  | 0, idx => idx
  | fuel + 1, idx =>
    match weights[idx]? with
    | some w => if |w| = 0 then startingIdx weights fuel (idx + 1) else idx
    | none => idx

/-- math.cpp:703 and 709, math.hpp:391 and 397: `use_weights ? std::abs(weights[idx]) : 1.0`. -/
def weightAt (weights : List K) (idx : Nat) : Res K :=
  if weights.length ≠ 0 then abs <$> atRaw weights idx else .ok 1

/-- math.cpp:707-715, math.hpp:395-404: the averaging loop (`fuel` = number of indices left). -/
def averageLoop (values : List V) (weights : List K) : Nat → Nat → V → K → Res V
  | 0, _, average, _ => .ok average
  | fuel + 1, idx, average, runningSum => do
    let weight ← weightAt weights idx
    let runningSum := runningSum + weight
    let effective := weight / runningSum
    let current ← atRaw values idx
    averageLoop values weights fuel (idx + 1) (average + effective • (current - average)) runningSum

/-- math.cpp:675-717 `AverageStdVectorDouble` (`V = K`; also `AverageContinuousRevolute`, math.cpp:749-753) and math.hpp:362-406
`AverageEigenVector`. The latter tests `w == 0` where the former tests `abs(w) == 0`, which is the same. -/
def average (values : List V) (weights : List K) : Res V :=
  if values.length = 0 then .throw .invalidArgument
  else if weights.length ≠ values.length ∧ weights.length ≠ 0 then .throw .invalidArgument
  else
    let start := startingIdx weights weights.length 0
    if start ≥ values.length then .throw .invalidArgument
    else do
      let first ← atRaw values start
      let weight ← weightAt weights start
      averageLoop values weights (values.length - (start + 1)) (start + 1) first weight

/-! ### Specification -/

/-- The weight of every value: absolute values, 1 if no weights are given. -/
def weightsOf (values : List V) (weights : List K) : List K :=
  if weights = [] then values.map (fun _ => 1) else weights.map abs

/-- Σ w v. -/
def weightedSum (ws : List K) (values : List V) : V := (List.zipWith (fun w v => w • v) ws values).sum

/-! ### Proofs -/

theorem weightsOf_length {values : List V} {weights : List K} (h : weights.length = values.length ∨ weights.length = 0) :
    (weightsOf values weights).length = values.length := by
  unfold weightsOf
  split
  · simp
  · rename_i hne
    have : weights.length ≠ 0 := by simpa using hne
    simp; omega

/-- What the code reads as the weight with index `i`. -/
theorem weight_read {values : List V} {weights : List K} (h : weights.length = values.length ∨ weights.length = 0) {i : Nat}
    (hi : i < values.length) :
    weightAt weights i = .ok ((weightsOf values weights)[i]'(by rw [weightsOf_length h]; exact hi)) := by
  unfold weightsOf weightAt
  by_cases hw : weights = []
  · subst hw
    simp
  · have hl : weights.length ≠ 0 := by simpa using hw
    have hi' : i < weights.length := by omega
    simp only [hl, ne_eq, not_false_eq_true, if_true, hw, if_false]
    unfold atRaw
    rw [List.getElem?_eq_getElem hi']
    simp

theorem weightsOf_nonneg {values : List V} {weights : List K} : ∀ w ∈ weightsOf values weights, (0 : K) ≤ w := by
  intro w hw
  unfold weightsOf at hw
  split at hw
  · obtain ⟨_, _, rfl⟩ := List.mem_map.mp hw; norm_num
  · obtain ⟨a, _, rfl⟩ := List.mem_map.mp hw; exact abs_nonneg a

theorem averageLoop_eq {values : List V} {weights : List K} (h : weights.length = values.length ∨ weights.length = 0) :
    ∀ (fuel idx : Nat) (avg : V) (s : K), fuel = values.length - idx → idx ≤ values.length →
    s = ((weightsOf values weights).take idx).sum → 0 < s →
    s • avg = ((List.zipWith (fun (w : K) v => w • v) (weightsOf values weights) values).take idx).sum →
    ∃ r, averageLoop values weights fuel idx avg s = .ok r ∧ 0 < (weightsOf values weights).sum ∧
      (weightsOf values weights).sum • r = weightedSum (weightsOf values weights) values := by
  intro fuel
  have hlen := weightsOf_length h
  induction fuel with
  | zero =>
    intro idx avg s hf hle hs hpos heq
    have : idx = values.length := by omega
    subst this
    rw [← hlen, List.take_length] at hs
    refine ⟨avg, rfl, hs ▸ hpos, ?_⟩
    rw [← hs, heq]
    unfold weightedSum
    rw [List.take_of_length_le]
    simp [hlen]
  | succ fuel ih =>
    intro idx avg s hf hle hs hpos heq
    have hi : idx < values.length := by omega
    have hi' : idx < (weightsOf values weights).length := by omega
    unfold averageLoop
    rw [weight_read h hi, Res.ok_bind]
    have hv : atRaw values idx = .ok values[idx] := by unfold atRaw; rw [List.getElem?_eq_getElem hi]
    dsimp only
    rw [hv, Res.ok_bind]
    have hw0 : 0 ≤ (weightsOf values weights)[idx] := weightsOf_nonneg _ (List.getElem_mem hi')
    apply ih (idx + 1) _ _ (by omega) (by omega)
    · rw [List.sum_take_succ _ _ hi', hs]
    · linarith
    · have hz : idx < (List.zipWith (fun (w : K) v => w • v) (weightsOf values weights) values).length := by simp; omega
      rw [List.sum_take_succ _ _ hz, ← heq, List.getElem_zipWith]
      generalize (weightsOf values weights)[idx] = w at hw0
      have hne : s + w ≠ 0 := by linarith
      rw [smul_add, smul_smul, mul_div_cancel₀ _ hne]
      module

theorem startingIdx_spec (weights : List K) : ∀ (fuel idx : Nat), weights.length ≤ idx + fuel → idx ≤ weights.length →
    (∀ i (hi : i < weights.length), i < idx → weights[i] = 0) →
    ∃ k, startingIdx weights fuel idx = k ∧ k ≤ weights.length ∧ (∀ i (hi : i < weights.length), i < k → weights[i] = 0) ∧
      (∀ hk : k < weights.length, weights[k] ≠ 0) := by
  intro fuel
  induction fuel with
  | zero =>
    intro idx h1 h2 h3
    exact ⟨idx, rfl, h2, h3, fun hk => by omega⟩
  | succ fuel ih =>
    intro idx h1 h2 h3
    unfold startingIdx
    rcases Nat.lt_or_ge idx weights.length with hi | hi
    · rw [List.getElem?_eq_getElem hi]
      dsimp only
      split
      · rename_i hz
        apply ih (idx + 1) (by omega) (by omega)
        intro i hi' hlt
        rcases Nat.lt_or_ge i idx with hh | hh
        · exact h3 i hi' hh
        · have : i = idx := by omega
          subst this
          exact abs_eq_zero.mp hz
      · rename_i hz
        exact ⟨idx, rfl, h2, h3, fun hk => abs_ne_zero.mp hz⟩
    · rw [List.getElem?_eq_none hi]
      exact ⟨idx, rfl, h2, h3, fun hk => by omega⟩

theorem sum_zero {M : Type} [AddMonoid M] : ∀ (l : List M), (∀ x ∈ l, x = 0) → l.sum = 0
  | [], _ => rfl
  | x :: l, h => by
    rw [List.sum_cons, h x (by simp), zero_add]
    exact sum_zero l (fun y hy => h y (by simp [hy]))

/-- C51: the average is Σ |w| v / Σ |w| (Σ v / n without weights) whenever there are values, as many weights (or none), and a
weight that is not zero; otherwise the call throws `std::invalid_argument`. -/
theorem C51_average (values : List V) (weights : List K) :
    (values ≠ [] → (weights.length = values.length ∨ weights = []) → (weights = [] ∨ ∃ w ∈ weights, w ≠ 0) →
      0 < (weightsOf values weights).sum ∧
      average values weights = .ok ((weightsOf values weights).sum⁻¹ • weightedSum (weightsOf values weights) values)) ∧
    (values = [] ∨ (weights.length ≠ values.length ∧ weights ≠ []) ∨ (weights ≠ [] ∧ ∀ w ∈ weights, w = 0) →
      average values weights = .throw .invalidArgument) := by
  obtain ⟨k, hk, hkl, hkz, hkn⟩ := startingIdx_spec weights weights.length 0 (by omega) (by omega) (fun i _ h => by omega)
  constructor
  · intro hv hw hnz
    have h : weights.length = values.length ∨ weights.length = 0 := by
      rcases hw with hw | hw
      · exact Or.inl hw
      · exact Or.inr (by simp [hw])
    have hvl : values.length ≠ 0 := by simpa using hv
    have hkv : k < values.length := by
      rcases hnz with hnz | ⟨w, hmem, hne⟩
      · rw [hnz] at hkl
        simp at hkl
        omega
      · obtain ⟨i, hi, rfl⟩ := List.getElem_of_mem hmem
        have hlen : weights.length = values.length := by omega
        by_contra hc
        exact hne (hkz i hi (by omega))
    have hlen := weightsOf_length h
    have hkw : k < (weightsOf values weights).length := by omega
    have hpos : 0 < (weightsOf values weights)[k] := by
      unfold weightsOf
      by_cases hw0 : weights = []
      · simp [hw0]
      · have hkl' : k < weights.length := by
          have : weights.length ≠ 0 := by simpa using hw0
          omega
        simp only [hw0, if_false, List.getElem_map]
        exact abs_pos.mpr (hkn hkl')
    have hzero : ∀ i (hi : i < (weightsOf values weights).length), i < k → (weightsOf values weights)[i] = 0 := by
      intro i hi hik
      have hkl' : i < weights.length := by omega
      have hw0 : weights ≠ [] := by intro hw0; rw [hw0] at hkl'; simp at hkl'
      simp only [weightsOf, hw0, if_false, List.getElem_map]
      rw [hkz i hkl' hik, abs_zero]
    have hs0 : ((weightsOf values weights).take k).sum = 0 := by
      apply sum_zero
      intro x hx
      obtain ⟨i, hi, rfl⟩ := List.getElem_of_mem hx
      rw [List.length_take] at hi
      rw [List.getElem_take]
      exact hzero i (by omega) (by omega)
    have hz : k < (List.zipWith (fun (w : K) v => w • v) (weightsOf values weights) values).length := by simp; omega
    have hs1 : ((List.zipWith (fun (w : K) v => w • v) (weightsOf values weights) values).take k).sum = 0 := by
      apply sum_zero
      intro x hx
      obtain ⟨i, hi, rfl⟩ := List.getElem_of_mem hx
      rw [List.length_take] at hi
      rw [List.getElem_take, List.getElem_zipWith, hzero i (by omega) (by omega), zero_smul]
    obtain ⟨r, hr, hsum, heq⟩ := averageLoop_eq (V := V) h (values.length - (k + 1)) (k + 1) values[k] (weightsOf values weights)[k] rfl (by omega)
      (by rw [List.sum_take_succ _ _ hkw, hs0, zero_add]) hpos
      (by rw [List.sum_take_succ _ _ hz, hs1, zero_add, List.getElem_zipWith])
    refine ⟨hsum, ?_⟩
    unfold average
    rw [if_neg hvl, if_neg (by omega)]
    dsimp only
    rw [hk, if_neg (by omega), weight_read h hkv]
    have hv' : atRaw values k = .ok values[k] := by unfold atRaw; rw [List.getElem?_eq_getElem hkv]
    rw [hv', Res.ok_bind, Res.ok_bind, hr, ← heq, smul_smul, inv_mul_cancel₀ hsum.ne', one_smul]
  · intro hbad
    unfold average
    by_cases hv : values.length = 0
    · rw [if_pos hv]
    · rw [if_neg hv]
      by_cases hw : weights.length ≠ values.length ∧ weights.length ≠ 0
      · rw [if_pos hw]
      · rw [if_neg hw]
        rcases hbad with hb | hb | ⟨hb1, hb2⟩
        · exact absurd (by simp [hb]) hv
        · exact absurd ⟨hb.1, by simpa using hb.2⟩ hw
        · dsimp only
          rw [hk, if_pos]
          have : weights.length ≠ 0 := by simpa using hb1
          by_contra hc
          exact hkn (by omega) (hb2 _ (List.getElem_mem _))

/-- Weights 0, 1, -3 on 10, 20, 40: (20 + 3 * 40) / 4. -/
example : average (K := ℚ) [10, 20, 40] [0, 1, -3] = (.ok 35 : Res ℚ) := by
  rw [((C51_average (K := ℚ) (V := ℚ) [10, 20, 40] [0, 1, -3]).1 (by simp) (Or.inl rfl) (Or.inr ⟨1, by simp, by norm_num⟩)).2]
  have e : weightsOf ([10, 20, 40] : List ℚ) ([0, 1, -3] : List ℚ) = [0, 1, 3] := by
    unfold weightsOf
    rw [if_neg (by simp)]
    norm_num
  rw [e]
  norm_num [weightedSum]

/-- C51: an average of numbers lies between the smallest and the largest of them. -/
theorem C51_average_between (values weights : List K) {r lo hi : K} (h : average values weights = .ok r)
    (hb : ∀ v ∈ values, lo ≤ v ∧ v ≤ hi) : lo ≤ r ∧ r ≤ hi := by
  have hcond : values ≠ [] ∧ (weights.length = values.length ∨ weights = []) ∧ (weights = [] ∨ ∃ w ∈ weights, w ≠ 0) := by
    by_contra hc
    have := (C51_average values weights).2 (by
      by_contra hd
      push Not at hd
      apply hc
      refine ⟨hd.1, ?_, ?_⟩
      · by_cases hw : weights = []
        · exact Or.inr hw
        · left
          by_contra hl
          exact hw (hd.2.1 hl)
      · by_cases hw : weights = []
        · exact Or.inl hw
        · right
          exact hd.2.2 hw)
    rw [this] at h
    cases h
  obtain ⟨h1, h2, h3⟩ := hcond
  obtain ⟨hpos, heq⟩ := (C51_average values weights).1 h1 h2 h3
  rw [heq] at h
  have hr := Res.ok.inj h
  have hlen := weightsOf_length (K := K) (values := values) (weights := weights) (by
    rcases h2 with h2 | h2
    · exact Or.inl h2
    · exact Or.inr (by simp [h2]))
  have key : ∀ (ws vs : List K), ws.length = vs.length → (∀ w ∈ ws, 0 ≤ w) → (∀ v ∈ vs, lo ≤ v ∧ v ≤ hi) →
      ws.sum * lo ≤ weightedSum ws vs ∧ weightedSum ws vs ≤ ws.sum * hi := by
    intro ws
    induction ws with
    | nil => intro vs _ _ _; simp [weightedSum]
    | cons w ws ih =>
      intro vs hl hw hv
      cases vs with
      | nil => simp at hl
      | cons v vs =>
        obtain ⟨a, b⟩ := ih vs (by simpa using hl) (fun x hx => hw x (by simp [hx])) (fun x hx => hv x (by simp [hx]))
        have hw0 := hw w (by simp)
        have hv0 := hv v (by simp)
        have e : weightedSum (w :: ws) (v :: vs) = w * v + weightedSum ws vs := by simp [weightedSum]
        rw [e, List.sum_cons]
        constructor <;> nlinarith
  obtain ⟨a, b⟩ := key _ _ hlen weightsOf_nonneg hb
  rw [← hr, smul_eq_mul]
  constructor
  · rw [inv_mul_eq_div, le_div_iff₀ hpos]; linarith
  · rw [inv_mul_eq_div, div_le_iff₀ hpos]; linarith

/-! ### Standard deviation -/

/-- math.cpp:719-741 `ComputeStdDevStdVectorDouble(values, mean)`, and math.cpp:743-747 without the mean; `sqrt` is std::sqrt. -/
def stdDev (sqrt : K → K) (values : List K) (mean : K) : Res K :=
  if values.length = 0 then .throw .invalidArgument
  else if values.length = 1 then .ok 0
  else
    let inv := 1 / ((values.length - 1 : Nat) : K)
    let sum := values.foldl (fun s v => let delta := v - mean; s + delta * delta) 0
    .ok (sqrt (sum * inv))

def stdDev' (sqrt : K → K) (values : List K) : Res K := do
  let mean ← average values ([] : List K)
  stdDev sqrt values mean

/-- C51: for at least two values, `ComputeStdDevStdVectorDouble` returns the number d ≥ 0 with (n - 1) d² = Σ (v - mean)², for a given mean and
for the average; it is zero for a single value and throws for none. -/
theorem C51_std_dev {sqrt : K → K} (hsqrt : ∀ x, 0 ≤ x → 0 ≤ sqrt x ∧ sqrt x * sqrt x = x) (values : List K) :
    (∀ mean, 2 ≤ values.length → ∃ d, stdDev sqrt values mean = .ok d ∧ 0 ≤ d ∧
      ((values.length : K) - 1) * (d * d) = (values.map fun v => (v - mean) * (v - mean)).sum) ∧
    (values ≠ [] → stdDev' sqrt values = stdDev sqrt values (values.sum / values.length)) ∧
    (∀ mean v, stdDev sqrt [v] mean = .ok 0) ∧ (∀ mean, stdDev sqrt [] mean = .throw .invalidArgument) ∧
    stdDev' sqrt [] = .throw .invalidArgument := by
  refine ⟨fun mean h2 => ?_, fun hv => ?_, fun _ _ => rfl, fun _ => rfl, rfl⟩
  · have hfold : ∀ (l : List K) (s : K), l.foldl (fun s v => let delta := v - mean; s + delta * delta) s =
        s + (l.map fun v => (v - mean) * (v - mean)).sum := by
      intro l
      induction l with
      | nil => intro s; simp
      | cons v l ih => intro s; rw [List.foldl_cons, ih, List.map_cons, List.sum_cons]; ring
    have hnn : ∀ l : List K, 0 ≤ (l.map fun v => (v - mean) * (v - mean)).sum := by
      intro l
      induction l with
      | nil => simp
      | cons v l ih => rw [List.map_cons, List.sum_cons]; exact add_nonneg (mul_self_nonneg _) ih
    have hn1 : (0 : K) < ((values.length - 1 : Nat) : K) := by exact_mod_cast (by omega : 0 < values.length - 1)
    have hcast : ((values.length - 1 : Nat) : K) = (values.length : K) - 1 := by
      rw [Nat.cast_sub (by omega)]; simp
    have hs := hsqrt ((values.map fun v => (v - mean) * (v - mean)).sum * (1 / ((values.length - 1 : Nat) : K)))
      (mul_nonneg (hnn _) (by positivity))
    refine ⟨_, ?_, hs.1, ?_⟩
    · unfold stdDev
      rw [if_neg (by omega), if_neg (by omega)]
      dsimp only
      rw [hfold values 0, zero_add]
    · rw [hs.2, ← hcast]
      field_simp
  · unfold stdDev'
    have h := ((C51_average values ([] : List K)).1 hv (Or.inr rfl) (Or.inl rfl)).2
    have e1 : (weightsOf values ([] : List K)).sum = values.length := by simp [weightsOf]
    have e2 : weightedSum (weightsOf values ([] : List K)) values = values.sum := by
      unfold weightedSum weightsOf
      simp only [if_true]
      congr 1
      induction values with
      | nil => rfl
      | cons v l ih =>
        by_cases hl : l = []
        · subst hl; simp
        · simp only [List.map_cons, List.zipWith_cons_cons, one_smul]
          rw [List.zipWith_map_left]
          congr 1
          simp
    rw [h, Res.ok_bind, e1, e2, smul_eq_mul, inv_mul_eq_div]

example : ∃ sqrt : ℝ → ℝ, ∀ x, 0 ≤ x → 0 ≤ sqrt x ∧ sqrt x * sqrt x = x :=
  ⟨Real.sqrt, fun x hx => ⟨Real.sqrt_nonneg x, Real.mul_self_sqrt hx⟩⟩

/-! ### Multilinear interpolation -/

/-- math.hpp:175-185 `LinearInterpolate`. -/
def linear (lowPoint highPoint : K) (lowValue highValue : V) (query : K) : V :=
  let slope := (highPoint - lowPoint)⁻¹ • (highValue - lowValue)
  let delta := query - lowPoint
  lowValue + delta • slope

/-- math.hpp:187-213 `BilinearInterpolate`; points are pairs. -/
def bilinear (low high : K × K) (ll lh hl hh : V) (query : K × K) : V :=
  let lowY := linear low.1 high.1 ll hl query.1
  let highY := linear low.1 high.1 lh hh query.1
  linear low.2 high.2 lowY highY query.2

/-- math.hpp:215-251 `TrilinearInterpolate`; the values are named by (x, y, z) corner. -/
def trilinear (low high : K × K × K) (lll llh lhl lhh hll hlh hhl hhh : V) (query : K × K × K) : V :=
  let lowZ := bilinear (low.1, low.2.1) (high.1, high.2.1) lll lhl hll hhl (query.1, query.2.1)
  let highZ := bilinear (low.1, low.2.1) (high.1, high.2.1) llh lhh hlh hhh (query.1, query.2.1)
  linear low.2.2 high.2.2 lowZ highZ query.2.2

theorem linear_exact {a b : K} (hab : a ≠ b) (c d : V) (x : K) : linear a b (c + a • d) (c + b • d) x = c + x • d := by
  have hne : b - a ≠ 0 := sub_ne_zero.mpr (Ne.symm hab)
  unfold linear
  dsimp only
  have : (b - a)⁻¹ • (c + b • d - (c + a • d)) = d := by
    rw [show c + b • d - (c + a • d) = (b - a) • d by module, smul_smul, inv_mul_cancel₀ hne, one_smul]
  rw [this]
  module

/-- C51: interpolation reproduces every function that is linear in each coordinate from its values at the two, four or eight
corners, at every query point, inside the cell or outside it. -/
theorem C51_multilinear :
    (∀ (a b : K), a ≠ b → ∀ f : K → V, (∃ c d, ∀ x, f x = c + x • d) → ∀ q, linear a b (f a) (f b) q = f q) ∧
    (∀ (a b : K × K), a.1 ≠ b.1 → a.2 ≠ b.2 → ∀ f : K → K → V,
      (∀ y, ∃ c d, ∀ x, f x y = c + x • d) → (∀ x, ∃ c d, ∀ y, f x y = c + y • d) →
      ∀ q, bilinear a b (f a.1 a.2) (f a.1 b.2) (f b.1 a.2) (f b.1 b.2) q = f q.1 q.2) ∧
    (∀ (a b : K × K × K), a.1 ≠ b.1 → a.2.1 ≠ b.2.1 → a.2.2 ≠ b.2.2 → ∀ f : K → K → K → V,
      (∀ y z, ∃ c d, ∀ x, f x y z = c + x • d) → (∀ x z, ∃ c d, ∀ y, f x y z = c + y • d) → (∀ x y, ∃ c d, ∀ z, f x y z = c + z • d) →
      ∀ q, trilinear a b (f a.1 a.2.1 a.2.2) (f a.1 a.2.1 b.2.2) (f a.1 b.2.1 a.2.2) (f a.1 b.2.1 b.2.2)
        (f b.1 a.2.1 a.2.2) (f b.1 a.2.1 b.2.2) (f b.1 b.2.1 a.2.2) (f b.1 b.2.1 b.2.2) q = f q.1 q.2.1 q.2.2) := by
  have h1 : ∀ (a b : K), a ≠ b → ∀ f : K → V, (∃ c d, ∀ x, f x = c + x • d) → ∀ q, linear a b (f a) (f b) q = f q := by
    rintro a b hab f ⟨c, d, hf⟩ q
    rw [hf, hf, hf, linear_exact hab]
  have h2 : ∀ (a b : K × K), a.1 ≠ b.1 → a.2 ≠ b.2 → ∀ f : K → K → V,
      (∀ y, ∃ c d, ∀ x, f x y = c + x • d) → (∀ x, ∃ c d, ∀ y, f x y = c + y • d) →
      ∀ q, bilinear a b (f a.1 a.2) (f a.1 b.2) (f b.1 a.2) (f b.1 b.2) q = f q.1 q.2 := by
    intro a b hx hy f hf1 hf2 q
    unfold bilinear
    dsimp only
    rw [h1 a.1 b.1 hx (fun x => f x a.2) (hf1 _) q.1, h1 a.1 b.1 hx (fun x => f x b.2) (hf1 _) q.1, h1 a.2 b.2 hy (fun y => f q.1 y) (hf2 _) q.2]
  refine ⟨h1, h2, ?_⟩
  intro a b hx hy hz f hf1 hf2 hf3 q
  unfold trilinear
  dsimp only
  rw [h2 (a.1, a.2.1) (b.1, b.2.1) hx hy (fun x y => f x y a.2.2) (fun y => hf1 y _) (fun x => hf2 x _) (q.1, q.2.1),
    h2 (a.1, a.2.1) (b.1, b.2.1) hx hy (fun x y => f x y b.2.2) (fun y => hf1 y _) (fun x => hf2 x _) (q.1, q.2.1),
    h1 a.2.2 b.2.2 hz (fun z => f q.1 q.2.1 z) (hf3 _ _) q.2.2]

/-- f(x, y, z) = 1 + 2 x y + 3 z on the cell [0,1]^2 x [0,2], queried outside it. -/
example : trilinear (K := ℚ) (0, 0, 0) (1, 1, 2) (1 : ℚ) 7 1 7 1 7 3 9 (2, 3, 1) = (16 : ℚ) := by
  have := (C51_multilinear (K := ℚ) (V := ℚ)).2.2 (0, 0, 0) (1, 1, 2) (by norm_num) (by norm_num) (by norm_num)
    (fun x y z => 1 + 2 * x * y + 3 * z) (fun y z => ⟨1 + 3 * z, 2 * y, fun x => by simp; ring⟩)
    (fun x z => ⟨1 + 3 * z, 2 * x, fun y => by simp; ring⟩) (fun x y => ⟨1 + 2 * x * y, 3, fun z => by simp; ring⟩) (2, 3, 1)
  norm_num at this
  exact this

end CRU.Math
