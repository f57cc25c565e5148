import Verif.Math.RevoluteFloat
import Verif.Utility.Model
/-
  C71: linear interpolation (math.cpp:384-392, 409-430, 442-481), in exact arithmetic and in binary64 with any rounding to nearest.
-/
namespace CRU.Math
open CRU.Fl

section
variable {K : Type} [Field K] [LinearOrder K]

/-- The expression `(p1 * (1.0 - ratio)) + (p2 * ratio)`, each operation followed by `fl`. -/
def lerp (fl : K → K) (p1 p2 r : K) : K := fl (fl (p1 * fl (1 - r)) + fl (p2 * r))

/-- math.cpp:384-392 `Interpolate` for numbers. -/
def interpolate (fl : K → K) (p1 p2 ratio : K) : Res K := do
  let r ← Util.clampValue ratio 0 1
  .ok (lerp fl p1 p2 r)

/-- math.cpp:424-428: the loop over the coordinates of two vectors of the same size. -/
def lerpLoop (fl : K → K) (r : K) : List K → List K → List K
  | p :: ps, q :: qs => lerp fl p q r :: lerpLoop fl r ps qs
  | _, _ => []

/-- math.cpp:409-430 `Interpolate` for `std::vector<double>` (clamps, then compares the sizes), and math.cpp:442-457 `InterpolateXd`
(compares, then clamps; clamping to [0, 1] cannot throw). math.cpp:459-481 `Interpolate3d` and `Interpolate4d` are the cases of three and
four coordinates. -/
def interpolateVec (fl : K → K) (v1 v2 : List K) (ratio : K) : Res (List K) := do
  let r ← Util.clampValue ratio 0 1
  if v1.length ≠ v2.length then .throw .invalidArgument else .ok (lerpLoop fl r v1 v2)

/-- Specification: the ratio after clamping. -/
def clamp01 (ratio : K) : K := max 0 (min 1 ratio)
end

section
variable {K : Type} [Field K] [LinearOrder K] [IsStrictOrderedRing K]

theorem clamp_ok (ratio : K) : Util.clampValue ratio 0 1 = .ok (clamp01 ratio) := by
  unfold Util.clampValue clamp01
  rw [if_pos zero_le_one]
  split_ifs with h1 h2
  · rw [min_eq_right (le_trans h1.le zero_le_one), max_eq_left h1.le]
  · rw [min_eq_left h2.le, max_eq_right zero_le_one]
  · push Not at h1 h2
    rw [min_eq_right h2, max_eq_right h1]

theorem clamp01_mem (ratio : K) : 0 ≤ clamp01 ratio ∧ clamp01 ratio ≤ 1 :=
  ⟨le_max_left _ _, max_le zero_le_one (min_le_left _ _)⟩

theorem interpolate_eq (fl : K → K) (p q ratio : K) : interpolate fl p q ratio = .ok (lerp fl p q (clamp01 ratio)) := by
  unfold interpolate
  rw [clamp_ok]
  rfl

/-- C71 (exact arithmetic): the result is the point at the clamped ratio of the way from `p` to `q`. It lies between them, is `p` for ratio 0 and
`q` for ratio 1, moves monotonically, and interpolating backwards is interpolating with one minus the ratio. -/
theorem C71_interpolate (p q ratio : K) :
    interpolate id p q ratio = .ok (p + clamp01 ratio * (q - p)) ∧
    min p q ≤ p + clamp01 ratio * (q - p) ∧ p + clamp01 ratio * (q - p) ≤ max p q ∧
    (ratio ≤ 0 → interpolate id p q ratio = .ok p) ∧ (1 ≤ ratio → interpolate id p q ratio = .ok q) ∧
    (∀ ratio', ratio ≤ ratio' → p ≤ q → p + clamp01 ratio * (q - p) ≤ p + clamp01 ratio' * (q - p)) ∧
    interpolate id q p (1 - ratio) = interpolate id p q ratio := by
  obtain ⟨h0, h1⟩ := clamp01_mem ratio
  have hv : ∀ p q ratio : K, interpolate id p q ratio = .ok (p + clamp01 ratio * (q - p)) := by
    intro p q ratio
    rw [interpolate_eq]
    unfold lerp
    simp only [id]
    congr 1
    ring
  refine ⟨hv p q ratio, ?_, ?_, ?_, ?_, ?_, ?_⟩
  · rcases le_total p q with h | h
    · rw [min_eq_left h]; nlinarith
    · rw [min_eq_right h]; nlinarith
  · rcases le_total p q with h | h
    · rw [max_eq_right h]; nlinarith
    · rw [max_eq_left h]; nlinarith
  · intro h
    rw [hv, show clamp01 ratio = 0 by unfold clamp01; rw [min_eq_right (le_trans h zero_le_one), max_eq_left h]]
    congr 1
    ring
  · intro h
    rw [hv, show clamp01 ratio = 1 by unfold clamp01; rw [min_eq_left h, max_eq_right zero_le_one]]
    congr 1
    ring
  · intro ratio' hr hpq
    have : clamp01 ratio ≤ clamp01 ratio' := max_le_max (le_refl _) (min_le_min (le_refl _) hr)
    nlinarith
  · rw [hv, hv]
    have : clamp01 (1 - ratio) = 1 - clamp01 ratio := by
      unfold clamp01
      rcases le_total ratio 0 with h | h
      · rw [min_eq_left (by linarith), min_eq_right (by linarith), max_eq_left h, max_eq_right zero_le_one, sub_zero]
      · rcases le_total ratio 1 with h' | h'
        · rw [min_eq_right (by linarith), min_eq_right h', max_eq_right (by linarith), max_eq_right h]
        · rw [min_eq_right (by linarith), min_eq_left h', max_eq_left (by linarith), max_eq_right zero_le_one, sub_self]
    rw [this]
    congr 1
    ring

example : interpolate id (2 : ℚ) 6 (1 / 4) = .ok 3 := by
  rw [(C71_interpolate (2 : ℚ) 6 (1 / 4)).1]
  decide +kernel

theorem lerpLoop_spec (fl : K → K) (r : K) : ∀ v w : List K, v.length = w.length →
    (lerpLoop fl r v w).length = v.length ∧ ∀ (i : Nat) (p q : K), v[i]? = some p → w[i]? = some q → (lerpLoop fl r v w)[i]? = some (lerp fl p q r)
  | [], [], _ => ⟨rfl, fun i p q h => by simp at h⟩
  | p :: ps, q :: qs, h => by
    obtain ⟨h1, h2⟩ := lerpLoop_spec fl r ps qs (by simpa using h)
    refine ⟨by simp [lerpLoop, h1], fun i a b ha hb => ?_⟩
    cases i with
    | zero =>
      simp only [List.getElem?_cons_zero, Option.some.injEq] at ha hb
      subst ha hb
      rfl
    | succ i => exact h2 i a b (by simpa using ha) (by simpa using hb)
  | _ :: _, [], h => by simp at h
  | [], _ :: _, h => by simp at h

/-- C71: vectors of different sizes are refused; otherwise every coordinate is interpolated like a number (whatever the arithmetic). -/
theorem C71_interpolate_vector (fl : K → K) (v w : List K) (ratio : K) :
    (v.length ≠ w.length → interpolateVec fl v w ratio = .throw .invalidArgument) ∧
    (v.length = w.length → ∃ x, interpolateVec fl v w ratio = .ok x ∧ x.length = v.length ∧
      ∀ (i : Nat) (p q : K), v[i]? = some p → w[i]? = some q → ∃ y, x[i]? = some y ∧ interpolate fl p q ratio = .ok y) := by
  unfold interpolateVec
  rw [clamp_ok, Res.ok_bind]
  refine ⟨fun h => by rw [if_pos h], fun h => ?_⟩
  rw [if_neg (not_not.mpr h)]
  obtain ⟨h1, h2⟩ := lerpLoop_spec fl (clamp01 ratio) v w h
  exact ⟨_, rfl, h1, fun i p q hp hq => ⟨_, h2 i p q hp hq, interpolate_eq fl p q ratio⟩⟩

example : interpolateVec id [(1 : ℚ), 2] [1] (1 / 2) = .throw .invalidArgument := (C71_interpolate_vector id [(1 : ℚ), 2] [1] (1 / 2)).1 (by decide)
example : interpolateVec id [(1 : ℚ), 2] [3, 4] (1 / 2) = .ok [2, 3] := by decide +kernel
end

/-! ### Binary64 -/

theorem rep_zero : Rep 53 (-1074) 0 := ⟨0, 0, by norm_num, by norm_num, by norm_num⟩
theorem rep_one : Rep 53 (-1074) 1 := ⟨1, 0, by norm_num, by norm_num, by norm_num⟩

/-- C71 (doubles, barring overflow): the ends are reached exactly, and the result differs from the exact one by a few units in the last place of
the larger end. -/
theorem C71_rounded {fl : ℚ → ℚ} (hfl : Nearest 53 (-1074) fl) {p q ratio : ℚ} (hp : Rep 53 (-1074) p) (hq : Rep 53 (-1074) q)
    (hr : Rep 53 (-1074) ratio) :
    (ratio ≤ 0 → interpolate fl p q ratio = .ok p) ∧ (1 ≤ ratio → interpolate fl p q ratio = .ok q) ∧
    ∃ x, interpolate fl p q ratio = .ok x ∧ Rep 53 (-1074) x ∧
      |x - (p + clamp01 ratio * (q - p))| ≤ 2 ^ (-51 : Int) * max |p| |q| + 2 ^ (-1073 : Int) := by
  have h00 := hfl.fix rep_zero
  have h11 := hfl.fix rep_one
  rw [interpolate_eq]
  refine ⟨fun h => ?_, fun h => ?_, _, rfl, hfl.rep _, ?_⟩
  · rw [show clamp01 ratio = 0 by unfold clamp01; rw [min_eq_right (le_trans h zero_le_one), max_eq_left h]]
    unfold lerp
    rw [sub_zero, h11, mul_one, mul_zero, h00, hfl.fix hp, add_zero, hfl.fix hp]
  · rw [show clamp01 ratio = 1 by unfold clamp01; rw [min_eq_left h, max_eq_right zero_le_one]]
    unfold lerp
    rw [sub_self, h00, mul_one, mul_zero, h00, hfl.fix hq, zero_add, hfl.fix hq]
  · obtain ⟨r0, r1⟩ := clamp01_mem ratio
    generalize clamp01 ratio = r at r0 r1
    unfold lerp
    have hM : 0 ≤ max |p| |q| := le_trans (abs_nonneg p) (le_max_left _ _)
    have hpM : |p| ≤ max |p| |q| := le_max_left _ _
    have hqM : |q| ≤ max |p| |q| := le_max_right _ _
    generalize max |p| |q| = M at hM hpM hqM
    have ea := hfl.unit_err (by norm_num) (by norm_num) (x := 1 - r) (by rw [abs_le]; constructor <;> linarith)
    have a0 : 0 ≤ fl (1 - r) := by rw [← h00]; exact hfl.mono (by linarith)
    have a1 : fl (1 - r) ≤ 1 := by rw [← h11]; exact hfl.mono (by linarith)
    generalize fl (1 - r) = a at ea a0 a1
    have eb := fl_err hfl (p * a)
    have ec := fl_err hfl (q * r)
    generalize fl (p * a) = b at eb
    generalize fl (q * r) = c at ec
    have ed := fl_err hfl (b + c)
    generalize fl (b + c) = x at ed
    have hU : (2 : ℚ) ^ (-((53 : Nat) : Int)) / 2 = 2 ^ (-54 : Int) := by norm_num
    rw [hU] at ea
    have eu1 : (2 : ℚ) ^ (-51 : Int) = 4 * 2 ^ (-53 : Int) := by norm_num
    have eu2 : (2 : ℚ) ^ (-53 : Int) = 2 * 2 ^ (-54 : Int) := by norm_num
    have ev1 : (2 : ℚ) ^ (-1073 : Int) = 4 * 2 ^ (-1075 : Int) := by
      rw [show (-1073 : Int) = 2 + (-1075) by norm_num, zpow_add₀ (by norm_num)]; norm_num
    rw [eu1, ev1]
    rw [eu2] at eb ec ed ⊢
    have hu0 : (0 : ℚ) < 2 ^ (-54 : Int) := two_zpow_pos _
    have hu1 : (2 : ℚ) ^ (-54 : Int) ≤ 1 / 100 := by norm_num
    have hv0 : (0 : ℚ) < 2 ^ (-1075 : Int) := two_zpow_pos _
    generalize (2 : ℚ) ^ (-54 : Int) = u at *
    generalize (2 : ℚ) ^ (-1075 : Int) = v at *
    have hpa : |p * a| ≤ M * a := by rw [abs_mul, abs_of_nonneg a0]; exact mul_le_mul_of_nonneg_right hpM a0
    have hqr : |q * r| ≤ M * r := by rw [abs_mul, abs_of_nonneg r0]; exact mul_le_mul_of_nonneg_right hqM r0
    have d1 : |p * a - p * (1 - r)| ≤ M * u := by
      rw [← mul_sub, abs_mul]; exact mul_le_mul hpM ea (abs_nonneg _) hM
    have har : a + r ≤ 1 + u := by have := (abs_le.mp ea).2; linarith
    have d2 : |b - p * a| + |c - q * r| ≤ 2 * u * (M * (1 + u)) + 2 * v := by
      have : M * a + M * r ≤ M * (1 + u) := by rw [← mul_add]; exact mul_le_mul_of_nonneg_left har hM
      nlinarith
    have d3 : |b + c| ≤ M * (1 + u) + (2 * u * (M * (1 + u)) + 2 * v) := by
      have t1 : |b + c| ≤ |b - p * a| + |c - q * r| + (|p * a| + |q * r|) := by
        have e : b + c = (b - p * a) + (c - q * r) + (p * a + q * r) := by ring
        rw [e]
        exact le_trans (abs_add_le _ _) (add_le_add (abs_add_le _ _) (abs_add_le _ _))
      have : M * a + M * r ≤ M * (1 + u) := by rw [← mul_add]; exact mul_le_mul_of_nonneg_left har hM
      linarith
    have t : |x - (p + r * (q - p))| ≤ |x - (b + c)| + (|b - p * a| + |c - q * r|) + |p * a - p * (1 - r)| := by
      have e : x - (p + r * (q - p)) = (x - (b + c)) + ((b - p * a) + (c - q * r)) + (p * a - p * (1 - r)) := by ring
      rw [e]
      exact le_trans (abs_add_le _ _) (add_le_add (le_trans (abs_add_le _ _) (add_le_add (le_refl _) (abs_add_le _ _))) (le_refl _))
    have d4 : |x - (b + c)| ≤ 2 * u * (M * (1 + u) + (2 * u * (M * (1 + u)) + 2 * v)) + v := le_trans ed (by nlinarith)
    have hMu : 0 ≤ M * u := mul_nonneg hM hu0.le
    have hMuu : M * u * u ≤ M * u * (1 / 100) := mul_le_mul_of_nonneg_left hu1 hMu
    have hMuuu : M * u * u * u ≤ M * u * (1 / 100) * 1 := mul_le_mul hMuu (by linarith) hu0.le (by positivity)
    have huv : u * v ≤ 1 / 100 * v := mul_le_mul_of_nonneg_right hu1 hv0.le
    nlinarith

example : ∃ x, interpolate (nearestEven 53 (-1074)) 1 3 (1 / 2) = .ok x ∧ |x - 2| ≤ 2 ^ (-51 : Int) * 3 + 2 ^ (-1073 : Int) := by
  obtain ⟨_, _, x, h1, _, h2⟩ := C71_rounded (nearestEven_spec (p := 53) (emin := -1074) (by norm_num)) rep_one
    (⟨3, 0, by norm_num, by norm_num, by norm_num⟩ : Rep 53 (-1074) 3) (⟨1, -1, by norm_num, by norm_num, by norm_num⟩ : Rep 53 (-1074) (1 / 2))
  refine ⟨x, h1, ?_⟩
  have e1 : (1 : ℚ) + clamp01 (1 / 2) * (3 - 1) = 2 := by decide +kernel
  have e2 : max |(1 : ℚ)| |3| = 3 := by decide +kernel
  rwa [e1, e2] at h2

/-- In double arithmetic the result can leave the interval: between 3 and 3, at the double nearest to 0.2, it is 3 + 2^-51. -/
theorem C71_rounded_false : ∃ ratio, Rep 53 (-1074) ratio ∧ 0 < ratio ∧ ratio < 1 ∧
    interpolate (nearestEven 53 (-1074)) 3 3 ratio = .ok (3 + 1 / 2251799813685248) :=
  ⟨3602879701896397 / 18014398509481984, ⟨3602879701896397, -54, by norm_num, by norm_num, by norm_num⟩, by norm_num, by norm_num,
    by decide +kernel⟩

end CRU.Math
