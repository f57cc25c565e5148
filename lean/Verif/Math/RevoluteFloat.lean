import Verif.Math.RevoluteProps
import Verif.FloatEven
/-
  C50: continuous revolute joints, in double precision arithmetic.
-/
namespace CRU.Math
open CRU.Fl

/-- M_PI: the double nearest to π. -/
def mPi : ℚ := 884279719003555 / 281474976710656

/-- `x` is an integer multiple of `2 ^ e`. -/
def Mult (e : Int) (x : ℚ) : Prop := ∃ k : Int, x = k * 2 ^ e

theorem Mult.weaken {e e' : Int} {x : ℚ} (h : Mult e x) (he : e' ≤ e) : Mult e' x := by
  obtain ⟨k, rfl⟩ := h
  obtain ⟨n, hn⟩ := Int.le.dest he
  refine ⟨k * 2 ^ n, ?_⟩
  push_cast
  rw [mul_assoc, ← zpow_natCast (2 : ℚ) n, ← zpow_add₀ (by norm_num), ← hn]
  congr 2
  ring

theorem Mult.add {e : Int} {x y : ℚ} (h : Mult e x) (h' : Mult e y) : Mult e (x + y) := by
  obtain ⟨k, rfl⟩ := h
  obtain ⟨l, rfl⟩ := h'
  exact ⟨k + l, by push_cast; ring⟩

theorem Mult.sub_mul {e : Int} {x y : ℚ} (h : Mult e x) (h' : Mult e y) (n : Int) : Mult e (x - n * y) := by
  obtain ⟨k, rfl⟩ := h
  obtain ⟨l, rfl⟩ := h'
  exact ⟨k - n * l, by push_cast; ring⟩

/-- A positive multiple is at least one unit. -/
theorem Mult.pos {e : Int} {x : ℚ} (h : Mult e x) (hx : 0 < x) : 2 ^ e ≤ x := by
  obtain ⟨k, rfl⟩ := h
  have hE := two_zpow_pos e
  have : (0 : ℚ) < k := by
    by_contra hc
    push Not at hc
    nlinarith
  have h1 : (1 : ℚ) ≤ k := by exact_mod_cast (by exact_mod_cast this : 0 < k)
  nlinarith

theorem Mult.neg {e : Int} {x : ℚ} (h : Mult e x) : Mult e (-x) := by
  obtain ⟨k, rfl⟩ := h
  exact ⟨-k, by push_cast; ring⟩

theorem mPi_mult : Mult (-48) mPi := ⟨884279719003555, by unfold mPi; norm_num⟩

theorem mPi_bounds : 3 < mPi ∧ mPi < 4 := by unfold mPi; constructor <;> norm_num

theorem mPi_rep : Rep 53 (-1074) mPi := ⟨884279719003555, -48, by norm_num, by norm_num, by unfold mPi; norm_num⟩

/-- A double is a multiple of a large unit, or small. -/
theorem rep_mult_or_small {x : ℚ} (h : Rep 53 (-1074) x) (e : Int) : Mult e x ∨ |x| < 2 ^ (52 + e) := by
  obtain ⟨m, k, _, h2, rfl⟩ := h
  by_cases he : e ≤ k
  · exact Or.inl (Mult.weaken ⟨m, rfl⟩ he)
  · right
    rw [abs_mul, abs_of_pos (two_zpow_pos k)]
    have h3 : |(m : ℚ)| < 2 ^ 53 := by exact_mod_cast h2
    calc |(m : ℚ)| * 2 ^ k < 2 ^ (53 : Int) * 2 ^ k := mul_lt_mul_of_pos_right (by exact_mod_cast h3) (two_zpow_pos k)
      _ = 2 ^ (53 + k) := (zpow_add₀ (by norm_num) _ _).symm
      _ ≤ 2 ^ (52 + e) := zpow_le_zpow_right₀ (by norm_num) (by omega)

theorem fmod_small {x y : ℚ} (hy : 0 < y) (hx : |x| < y) : fmod x y = x := by
  have hx' := abs_lt.mp hx
  unfold fmod
  have h1 : x / y < 1 := by rw [div_lt_one hy]; exact hx'.2
  have h2 : -1 < x / y := by rw [lt_div_iff₀ hy]; linarith
  split
  · rename_i h0
    have : ⌊x / y⌋ = 0 := Int.floor_eq_iff.mpr ⟨by simpa using h0, by simpa using h1⟩
    rw [this]; simp
  · rename_i h0
    have : ⌈x / y⌉ = 0 := Int.ceil_eq_iff.mpr ⟨by simpa using h2, by push Not at h0; simpa using h0.le⟩
    rw [this]; simp

theorem fl_two_pi {fl : ℚ → ℚ} (hfl : Nearest 53 (-1074) fl) : fl (mPi - -mPi) = 2 * mPi := by
  rw [hfl.fix ⟨884279719003555, -47, by norm_num, by norm_num, by unfold mPi; norm_num⟩]
  ring

/-- The facts about the remainder that decide the two cases. -/
theorem remainder_facts {fl : ℚ → ℚ} (hfl : Nearest 53 (-1074) fl) {v : ℚ} (hv : Rep 53 (-1074) v) :
    (0 ≤ fmod (fl (v - -mPi)) (2 * mPi) → fmod (fl (v - -mPi)) (2 * mPi) ≤ 2 * mPi - 2 ^ (-50 : Int)) ∧
    (fmod (fl (v - -mPi)) (2 * mPi) < 0 → -(2 * mPi) < fmod (fl (v - -mPi)) (2 * mPi) ∧ fmod (fl (v - -mPi)) (2 * mPi) ≤ -2 ^ (-51 : Int)) := by
  have hpi := mPi_bounds
  have hx := hfl.rep (v - -mPi)
  obtain ⟨⟨n, hn⟩, hpos, hneg⟩ := fmod_spec (x := fl (v - -mPi)) (y := 2 * mPi) (by linarith)
  have h2pi : ∀ e : Int, e ≤ -48 → Mult e (2 * mPi) := by
    intro e he
    rw [two_mul]
    exact (mPi_mult.add mPi_mult).weaken he
  have hlow : -(2 * mPi) < fmod (fl (v - -mPi)) (2 * mPi) ∧ fmod (fl (v - -mPi)) (2 * mPi) < 2 * mPi := by
    rcases le_or_gt 0 (fl (v - -mPi)) with hh | hh
    · exact ⟨by linarith [(hpos hh).1], (hpos hh).2⟩
    · exact ⟨(hneg hh).1, by linarith [(hneg hh).2]⟩
  constructor
  · intro h0
    rcases rep_mult_or_small hx (-50) with hm | hm
    · have h1 : Mult (-50) (fmod (fl (v - -mPi)) (2 * mPi)) := by rw [hn]; exact hm.sub_mul (h2pi _ (by norm_num)) n
      have h2 := (h2pi (-50) (by norm_num)).sub_mul h1 1
      have := h2.pos (by push_cast; linarith [hlow.2])
      push_cast at this
      linarith
    · have h4 : |fl (v - -mPi)| < 4 := by refine lt_of_lt_of_le hm ?_; norm_num
      have h6 : fmod (fl (v - -mPi)) (2 * mPi) = fl (v - -mPi) := fmod_small (by linarith) (by linarith)
      rw [h6]
      have := (abs_lt.mp h4).2
      have h7 : (2 : ℚ) ^ (-50 : Int) ≤ 1 := by norm_num
      linarith
  · intro h0
    refine ⟨hlow.1, ?_⟩
    rcases rep_mult_or_small hx (-51) with hm | hm
    · have h1 : Mult (-51) (fmod (fl (v - -mPi)) (2 * mPi)) := by rw [hn]; exact hm.sub_mul (h2pi _ (by norm_num)) n
      have := h1.neg.pos (by linarith)
      linarith
    · have h2 : |fl (v - -mPi)| < 2 := by refine lt_of_lt_of_le hm ?_; norm_num
      have h6 : fmod (fl (v - -mPi)) (2 * mPi) = fl (v - -mPi) := fmod_small (by linarith) (by linarith)
      rw [h6] at h0 ⊢
      -- the argument is below -pi, hence a multiple of 2^-51
      have hneg' : v - -mPi < 0 := by
        by_contra hc
        push Not at hc
        have := hfl.mono hc
        rw [hfl.fix ⟨0, 0, by norm_num, by norm_num, by norm_num⟩] at this
        linarith
      have hvm : Mult (-51) v := by
        rcases rep_mult_or_small hv (-51) with h | h
        · exact h
        · exfalso
          have : |v| < 2 := by refine lt_of_lt_of_le h ?_; norm_num
          linarith [(abs_lt.mp this).1]
      have hsum : Mult (-51) (v - -mPi) := by
        rw [sub_neg_eq_add]
        exact hvm.add (mPi_mult.weaken (by norm_num))
      have hle := hsum.neg.pos (by linarith)
      have hrep : Rep 53 (-1074) (-2 ^ (-51 : Int)) := ⟨-1, -51, by norm_num, by norm_num, by push_cast; ring⟩
      rw [← hfl.fix hrep]
      exact hfl.mono (by linarith)

/-- C50, in double precision with any rounding to nearest: the result of `EnforceContinuousRevoluteBounds` lies in [-M_PI, M_PI) for every
finite double; the upper bound is never reached through rounding. -/
theorem C50_rounded_in_bounds {fl : ℚ → ℚ} (hfl : Nearest 53 (-1074) fl) {v : ℚ} (hv : Rep 53 (-1074) v) :
    -mPi ≤ enforce fl mPi v ∧ enforce fl mPi v < mPi := by
  have hpi := mPi_bounds
  obtain ⟨h1, h2⟩ := remainder_facts hfl hv
  unfold enforce
  dsimp only
  rw [fl_two_pi hfl]
  split
  · rename_i h0
    have hb := h1 h0
    constructor
    · have hm := hfl.mono (x := -mPi) (y := fmod (fl (v - -mPi)) (2 * mPi) + -mPi) (by linarith)
      rwa [hfl.fix mPi_rep.neg] at hm
    · have hrep : Rep 53 (-1074) (mPi - 2 ^ (-50 : Int)) :=
        ⟨3537118876014219, -50, by norm_num, by norm_num, by unfold mPi; norm_num⟩
      refine lt_of_le_of_lt (hfl.mono (y := mPi - 2 ^ (-50 : Int)) (by linarith)) ?_
      rw [hfl.fix hrep]
      linarith [two_zpow_pos (-50)]
  · rename_i h0
    push Not at h0
    obtain ⟨hb1, hb2⟩ := h2 h0
    constructor
    · have hm := hfl.mono (x := -mPi) (y := fmod (fl (v - -mPi)) (2 * mPi) + mPi) (by linarith)
      rwa [hfl.fix mPi_rep.neg] at hm
    · have hrep : Rep 53 (-1074) (mPi - 2 ^ (-51 : Int)) :=
        ⟨7074237752028439, -51, by norm_num, by norm_num, by unfold mPi; norm_num⟩
      refine lt_of_le_of_lt (hfl.mono (y := mPi - 2 ^ (-51 : Int)) (by linarith)) ?_
      rw [hfl.fix hrep]
      linarith [two_zpow_pos (-51)]

/-- The double just below -M_PI is mapped to the double just below M_PI. -/
example : enforce (nearestEven 53 (-1074)) mPi (-mPi - 1 / 2251799813685248) = mPi - 1 / 2251799813685248 ∧
    Rep 53 (-1074) (-mPi - 1 / 2251799813685248) :=
  ⟨by decide +kernel, -7074237752028441, -51, by norm_num, by norm_num, by unfold mPi; norm_num⟩

theorem fl_err {fl : ℚ → ℚ} (hfl : Nearest 53 (-1074) fl) (x : ℚ) : |fl x - x| ≤ 2 ^ (-53 : Int) * |x| + 2 ^ (-1075 : Int) := by
  by_cases hz : x = 0
  · rw [hz, hfl.fix ⟨0, 0, by norm_num, by norm_num, by norm_num⟩, sub_self, abs_zero, mul_zero, zero_add]
    exact (two_zpow_pos _).le
  by_cases hx : (2 : ℚ) ^ ((-1074 : Int) + (53 : Nat) - 1) ≤ |x|
  · have h := hfl.rel_err (by norm_num) hx
    have h2 := two_zpow_pos (-1075)
    refine le_trans h ?_
    have : (2 : ℚ) ^ (-((53 : Nat) : Int)) = 2 ^ (-53 : Int) := by norm_num
    rw [this]
    linarith
  · push Not at hx
    have h := hfl.err (by norm_num) x
    have hm : max (-1074 : Int) (Int.log 2 |x| + 1 - (53 : Nat)) = -1074 := by
      apply max_eq_left
      · have hx0 : |x| ≠ 0 := abs_ne_zero.mpr hz
        have hlog : (2 : ℚ) ^ (Int.log 2 |x|) ≤ |x| := by
          have := Int.zpow_log_le_self (b := 2) (by norm_num) (lt_of_le_of_ne (abs_nonneg x) (Ne.symm hx0))
          exact_mod_cast this
        have := (zpow_lt_zpow_iff_right₀ (by norm_num : (1 : ℚ) < 2)).mp (lt_of_le_of_lt hlog hx)
        push_cast at this ⊢
        omega
    rw [hm] at h
    have e : (2 : ℚ) ^ (-1074 : Int) / 2 = 2 ^ (-1075 : Int) := by
      rw [show (-1075 : Int) = -1074 - 1 by norm_num, zpow_sub_one₀ (by norm_num)]; ring
    rw [e] at h
    have := mul_nonneg (two_zpow_pos (-53)).le (abs_nonneg x)
    linarith

/-- C50, in double precision: up to a whole number of turns (of 2 * M_PI) the result is the argument, with an error of at most
2^-53 |value + M_PI| + 2^-51. -/
theorem C50_rounded_error {fl : ℚ → ℚ} (hfl : Nearest 53 (-1074) fl) {v : ℚ} (hv : Rep 53 (-1074) v) :
    ∃ a, Congruent mPi v a ∧ |enforce fl mPi v - a| ≤ 2 ^ (-53 : Int) * |v + mPi| + 2 ^ (-51 : Int) := by
  have hpi := mPi_bounds
  obtain ⟨h1, h2⟩ := remainder_facts hfl hv
  obtain ⟨⟨n, hn⟩, _, _⟩ := fmod_spec (x := fl (v - -mPi)) (y := 2 * mPi) (by linarith)
  have e1 := fl_err hfl (v - -mPi)
  have p50 : (0 : ℚ) < 2 ^ (-50 : Int) := two_zpow_pos _
  have p51 : (0 : ℚ) < 2 ^ (-51 : Int) := two_zpow_pos _
  have tiny : (2 : ℚ) ^ (-1075 : Int) ≤ 2 ^ (-60 : Int) := zpow_le_zpow_right₀ (by norm_num) (by norm_num)
  -- the last addition: a result of absolute value at most 4
  have last : ∀ y : ℚ, |y| ≤ 4 → |fl y - y| ≤ 2 ^ (-51 : Int) - 2 ^ (-60 : Int) := by
    intro y hy
    rcases lt_or_eq_of_le hy with hlt | heq
    · have h := hfl.err (by norm_num) y
      have hm : max (-1074 : Int) (Int.log 2 |y| + 1 - (53 : Nat)) ≤ -51 := by
        apply max_le (by norm_num)
        by_cases hx0 : |y| = 0
        · rw [hx0, Int.log_zero_right]; norm_num
        · have hlog : (2 : ℚ) ^ (Int.log 2 |y|) ≤ |y| := by
            have := Int.zpow_log_le_self (b := 2) (by norm_num) (lt_of_le_of_ne (abs_nonneg y) (Ne.symm hx0))
            exact_mod_cast this
          have : (2 : ℚ) ^ (Int.log 2 |y|) < 2 ^ (2 : Int) := lt_of_le_of_lt hlog (by norm_num; exact hlt)
          have := (zpow_lt_zpow_iff_right₀ (by norm_num : (1 : ℚ) < 2)).mp this
          push_cast
          omega
      have h3 : (2 : ℚ) ^ (max (-1074 : Int) (Int.log 2 |y| + 1 - (53 : Nat))) ≤ 2 ^ (-51 : Int) := zpow_le_zpow_right₀ (by norm_num) hm
      have h4 : (2 : ℚ) ^ (-51 : Int) / 2 ≤ 2 ^ (-51 : Int) - 2 ^ (-60 : Int) := by norm_num
      exact le_trans h (le_trans (div_le_div_of_nonneg_right h3 (by norm_num)) h4)
    · have : Rep 53 (-1074) y := by
        rcases abs_eq (by norm_num : (0 : ℚ) ≤ 4) |>.mp heq with hh | hh
        · exact ⟨4, 0, by norm_num, by norm_num, by rw [hh]; norm_num⟩
        · exact ⟨-4, 0, by norm_num, by norm_num, by rw [hh]; norm_num⟩
      rw [hfl.fix this, sub_self, abs_zero]
      norm_num
  rw [sub_neg_eq_add] at *
  unfold enforce
  dsimp only
  rw [fl_two_pi hfl, sub_neg_eq_add]
  split
  · rename_i h0
    have hb := h1 h0
    refine ⟨v - n * (2 * mPi), ⟨-n, by push_cast; ring⟩, ?_⟩
    have hl := last (fmod (fl (v + mPi)) (2 * mPi) + -mPi) (abs_le.mpr ⟨by linarith, by linarith⟩)
    have := abs_add_le (fl (fmod (fl (v + mPi)) (2 * mPi) + -mPi) - (fmod (fl (v + mPi)) (2 * mPi) + -mPi)) (fl (v + mPi) - (v + mPi))
    rw [show fl (fmod (fl (v + mPi)) (2 * mPi) + -mPi) - (fmod (fl (v + mPi)) (2 * mPi) + -mPi) + (fl (v + mPi) - (v + mPi)) =
      fl (fmod (fl (v + mPi)) (2 * mPi) + -mPi) - (v - n * (2 * mPi)) by rw [hn]; ring] at this
    linarith
  · rename_i h0
    push Not at h0
    obtain ⟨hb1, hb2⟩ := h2 h0
    refine ⟨v - (n - 1) * (2 * mPi), ⟨1 - n, by push_cast; ring⟩, ?_⟩
    have hl := last (fmod (fl (v + mPi)) (2 * mPi) + mPi) (abs_le.mpr ⟨by linarith, by linarith⟩)
    have := abs_add_le (fl (fmod (fl (v + mPi)) (2 * mPi) + mPi) - (fmod (fl (v + mPi)) (2 * mPi) + mPi)) (fl (v + mPi) - (v + mPi))
    rw [show fl (fmod (fl (v + mPi)) (2 * mPi) + mPi) - (fmod (fl (v + mPi)) (2 * mPi) + mPi) + (fl (v + mPi) - (v + mPi)) =
      fl (fmod (fl (v + mPi)) (2 * mPi) + mPi) - (v - (n - 1) * (2 * mPi)) by rw [hn]; ring] at this
    linarith

/-- In double precision (round to nearest even) two laws of exact arithmetic fail. For the double just below -M_PI, applying
`EnforceContinuousRevoluteBounds` twice is not the same as applying it once: the first result is the double just below M_PI, the second is
-M_PI. Hence `CheckInContinuousRevoluteBounds(3, end, end)` is false for it: the end of the range is not in the range. -/
theorem C50_rounded_false :
    Rep 53 (-1074) (-mPi - 1 / 2251799813685248) ∧
    enforce (nearestEven 53 (-1074)) mPi (enforce (nearestEven 53 (-1074)) mPi (-mPi - 1 / 2251799813685248)) ≠
      enforce (nearestEven 53 (-1074)) mPi (-mPi - 1 / 2251799813685248) ∧
    checkInBounds (nearestEven 53 (-1074)) mPi 3 (-mPi - 1 / 2251799813685248) (-mPi - 1 / 2251799813685248) = false :=
  ⟨⟨-7074237752028441, -51, by norm_num, by norm_num, by unfold mPi; norm_num⟩, by decide +kernel, by decide +kernel⟩

end CRU.Math
