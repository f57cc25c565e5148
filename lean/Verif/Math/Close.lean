import Verif.Base
import Verif.FloatEven
import Mathlib.Data.Rat.Cast.Order
import Mathlib.Tactic.Linarith
import Mathlib.Tactic.FinCases
/-
  math.cpp:11-70: exact and approximate comparison of doubles and of vectors, with infinities and NaNs.
-/
namespace CRU.Math.Close

/-- A double: a NaN, an infinity or a number.  The two zeros are one number: `==`, `<=` and `>` do not tell them apart. -/
inductive Dbl where
  | nan
  | ninf
  | pinf
  | fin (x : ℚ)
  deriving DecidableEq

namespace Dbl

/-- `a - b` of IEEE 754; `rnd` rounds the exact difference of two numbers, possibly to an infinity. -/
def sub (rnd : ℚ → Dbl) : Dbl → Dbl → Dbl
  | nan, _ => nan
  | _, nan => nan
  | pinf, pinf => nan
  | ninf, ninf => nan
  | pinf, _ => pinf
  | ninf, _ => ninf
  | fin _, pinf => ninf
  | fin _, ninf => pinf
  | fin x, fin y => rnd (x - y)

/-- `std::abs`. -/
def abs : Dbl → Dbl
  | nan => nan
  | ninf => pinf
  | pinf => pinf
  | fin x => fin |x|

/-- `a <= b` of IEEE 754: false as soon as one of them is a NaN. -/
def le : Dbl → Dbl → Bool
  | nan, _ => false
  | _, nan => false
  | ninf, _ => true
  | _, pinf => true
  | fin x, fin y => decide (x ≤ y)
  | _, _ => false

/-- `a > b` of IEEE 754: false as soon as one of them is a NaN. -/
def gt : Dbl → Dbl → Bool
  | nan, _ => false
  | _, nan => false
  | a, b => !le a b

/-- `a == b` of IEEE 754: false as soon as one of them is a NaN. -/
def eq : Dbl → Dbl → Bool
  | nan, _ => false
  | a, b => decide (a = b)

end Dbl

/-- `Eigen::Vector3d`. -/
structure V3 where
  x : Dbl
  y : Dbl
  z : Dbl
  deriving DecidableEq

/-- math.cpp:11-21 `Equal3d`. -/
def equal3d (v1 v2 : V3) : Bool :=
  if (v1.x.eq v2.x) && (v1.y.eq v2.y) && (v1.z.eq v2.z) then true else false

/-- math.cpp:24-35 `Equal4d`; the four coordinates are a function of the index. -/
def equal4d (v1 v2 : Fin 4 → Dbl) : Bool :=
  if ((v1 0).eq (v2 0)) && ((v1 1).eq (v2 1)) && ((v1 2).eq (v2 2)) && ((v1 3).eq (v2 3)) then true else false

/-- math.cpp:37-49 `CloseEnough` of two doubles. -/
def closeEnough (rnd : ℚ → Dbl) (p1 p2 threshold : Dbl) : Bool :=
  let realThreshold := threshold.abs
  let absDelta := (Dbl.sub rnd p2 p1).abs
  if absDelta.le realThreshold then true else false

/-- math.cpp:51-69 `CloseEnough` of two vectors. -/
def closeEnough3 (rnd : ℚ → Dbl) (v1 v2 : V3) (threshold : Dbl) : Bool :=
  let realThreshold := threshold.abs
  if (Dbl.sub rnd v1.x v2.x).abs.gt realThreshold then false
  else if (Dbl.sub rnd v1.y v2.y).abs.gt realThreshold then false
  else if (Dbl.sub rnd v1.z v2.z).abs.gt realThreshold then false
  else true

/-! ### Specification -/

/-- What is asked of rounding: zero is exact and the sign is symmetric. -/
structure Rounds (rnd : ℚ → Dbl) : Prop where
  zero : rnd 0 = .fin 0
  neg_abs : ∀ x, (rnd (-x)).abs = (rnd x).abs
  number : ∀ x, rnd x ≠ .nan

/-- Rounding of binary64: round to nearest even (`fl`), an infinity from `2^1024` on. -/
def binary64 (fl : ℚ → ℚ) (x : ℚ) : Dbl :=
  if 2 ^ 1024 ≤ fl x then .pinf else if fl x ≤ -2 ^ 1024 then .ninf else .fin (fl x)

theorem abs_abs_eq (a : Dbl) : a.abs.abs = a.abs := by cases a <;> simp [Dbl.abs]

theorem sub_swap {rnd : ℚ → Dbl} (hr : Rounds rnd) (a b : Dbl) : (Dbl.sub rnd a b).abs = (Dbl.sub rnd b a).abs := by
  cases a <;> cases b <;> simp [Dbl.sub, Dbl.abs]
  rename_i x y
  rw [show x - y = -(y - x) by ring]
  exact hr.neg_abs _

theorem le_total {a b : Dbl} (ha : a ≠ .nan) (hb : b ≠ .nan) : a.gt b = !a.le b := by
  cases a <;> cases b <;> simp_all [Dbl.gt]

/-- Numbers: two doubles are close exactly when the rounded difference is at most the absolute value of the threshold.
The order of the arguments and the sign of the threshold do not matter, and a number is close to itself for every
threshold. -/
theorem C91_close_scalar {rnd : ℚ → Dbl} (hr : Rounds rnd) (p1 p2 t : Dbl) :
    closeEnough rnd p1 p2 t = ((Dbl.sub rnd p1 p2).abs.le t.abs) ∧
    closeEnough rnd p1 p2 t = closeEnough rnd p2 p1 t ∧
    closeEnough rnd p1 p2 t.abs = closeEnough rnd p1 p2 t ∧
    (∀ x, t ≠ .nan → closeEnough rnd (.fin x) (.fin x) t = true) := by
  refine ⟨?_, ?_, ?_, ?_⟩
  · simp [closeEnough, sub_swap hr p2 p1]
  · simp [closeEnough, sub_swap hr p2 p1]
  · simp [closeEnough, abs_abs_eq]
  · intro x ht
    cases t <;> simp_all [closeEnough, Dbl.sub, hr.zero, Dbl.abs, Dbl.le]

/-- A NaN or an infinity equal to the other argument is close to nothing, itself included. -/
theorem C91_close_scalar_nan (rnd : ℚ → Dbl) (p t : Dbl) :
    closeEnough rnd .nan p t = false ∧ closeEnough rnd p .nan t = false ∧
    closeEnough rnd .pinf .pinf t = false ∧ closeEnough rnd .ninf .ninf t = false := by
  cases p <;> simp [closeEnough, Dbl.sub, Dbl.abs, Dbl.le]

/-- Vectors of numbers: close exactly when each coordinate is close. -/
theorem C91_close_vector {rnd : ℚ → Dbl} (hr : Rounds rnd) {a b : V3} {t : Dbl} (ht : t ≠ .nan)
    (hx : Dbl.sub rnd a.x b.x ≠ .nan) (hy : Dbl.sub rnd a.y b.y ≠ .nan) (hz : Dbl.sub rnd a.z b.z ≠ .nan) :
    closeEnough3 rnd a b t = true ↔
      closeEnough rnd a.x b.x t = true ∧ closeEnough rnd a.y b.y t = true ∧ closeEnough rnd a.z b.z t = true := by
  have hn : ∀ d : Dbl, d ≠ .nan → d.abs ≠ .nan := by intro d hd; cases d <;> simp_all [Dbl.abs]
  simp only [(C91_close_scalar hr _ _ _).1, closeEnough3, le_total (hn _ hx) (hn _ ht), le_total (hn _ hy) (hn _ ht),
    le_total (hn _ hz) (hn _ ht)]
  cases (Dbl.sub rnd a.x b.x).abs.le t.abs <;> cases (Dbl.sub rnd a.y b.y).abs.le t.abs <;>
    cases (Dbl.sub rnd a.z b.z).abs.le t.abs <;> simp

/-- Vectors with a NaN are another matter: a vector of NaNs is close to every vector, within every threshold, whereas a
NaN is close to nothing.  So are two vectors of infinities. -/
theorem C91_close_vector_nan_false (rnd : ℚ → Dbl) (b : V3) (t : Dbl) :
    closeEnough3 rnd ⟨.nan, .nan, .nan⟩ b t = true ∧ closeEnough rnd .nan b.x t = false ∧
    closeEnough3 rnd ⟨.pinf, .pinf, .pinf⟩ ⟨.pinf, .pinf, .pinf⟩ t = true := by
  refine ⟨?_, (C91_close_scalar_nan rnd _ _).1, ?_⟩ <;> cases b <;> simp [closeEnough3, Dbl.sub, Dbl.abs, Dbl.gt]

/-- A threshold that is a NaN: no two doubles are close, all vectors are. -/
theorem C91_close_nan_threshold (rnd : ℚ → Dbl) (p q : Dbl) (a b : V3) :
    closeEnough rnd p q .nan = false ∧ closeEnough3 rnd a b .nan = true := by
  have h1 : ∀ d : Dbl, d.le .nan = false := by intro d; cases d <;> rfl
  have h2 : ∀ d : Dbl, d.gt .nan = false := by intro d; cases d <;> rfl
  simp [closeEnough, closeEnough3, Dbl.abs, h1, h2]

/-- `Equal3d` and `Equal4d` hold exactly when the vectors are identical and contain no NaN. -/
theorem C91_equal (a b : V3) (c d : Fin 4 → Dbl) :
    (equal3d a b = true ↔ a = b ∧ a.x ≠ .nan ∧ a.y ≠ .nan ∧ a.z ≠ .nan) ∧
    (equal4d c d = true ↔ c = d ∧ ∀ i, c i ≠ .nan) := by
  have he : ∀ p q : Dbl, p.eq q = true ↔ p = q ∧ p ≠ .nan := by
    intro p q; cases p <;> simp [Dbl.eq]
  constructor
  · rw [equal3d]
    have : ∀ c : Bool, (if c = true then true else false) = c := by decide
    rw [this, Bool.and_eq_true, Bool.and_eq_true, he, he, he]
    cases a; cases b
    simp only [V3.mk.injEq]
    tauto
  · rw [equal4d]
    have : ∀ c : Bool, (if c = true then true else false) = c := by decide
    rw [this, Bool.and_eq_true, Bool.and_eq_true, Bool.and_eq_true, he, he, he, he]
    constructor
    · rintro ⟨⟨⟨h0, h1⟩, h2⟩, h3⟩
      exact ⟨funext fun i => by fin_cases i <;> [exact h0.1; exact h1.1; exact h2.1; exact h3.1],
        fun i => by fin_cases i <;> [exact h0.2; exact h1.2; exact h2.2; exact h3.2]⟩
    · rintro ⟨rfl, h⟩
      exact ⟨⟨⟨⟨rfl, h 0⟩, rfl, h 1⟩, rfl, h 2⟩, rfl, h 3⟩

/-! ### Rounding of binary64 -/

/-- Rounding to nearest even is symmetric. -/
theorem nearestEven_neg (p : Nat) (emin : Int) (x : ℚ) : Fl.nearestEven p emin (-x) = -Fl.nearestEven p emin x := by
  simp only [Fl.nearestEven, abs_neg, neg_div]
  generalize max emin (Int.log 2 |x| + 1 - (p : Int)) = e
  generalize x / 2 ^ e = y
  have h1 : round y = ⌊y + 1 / 2⌋ := round_eq y
  have h2 : round (-y) = ⌊-y + 1 / 2⌋ := round_eq (-y)
  have a1 := Int.floor_le (y + 1 / 2)
  have a2 := Int.lt_floor_add_one (y + 1 / 2)
  have b1 := Int.floor_le (-y + 1 / 2)
  have b2 := Int.lt_floor_add_one (-y + 1 / 2)
  rw [← h1] at a1 a2
  rw [← h2] at b1 b2
  generalize round y = n at *
  generalize round (-y) = m at *
  have c : (if (m : ℚ) - -y = 1 / 2 ∧ m % 2 = 1 then m - 1 else m) =
      -(if (n : ℚ) - y = 1 / 2 ∧ n % 2 = 1 then n - 1 else n) := by
    by_cases ht : (n : ℚ) - y = 1 / 2
    · have hm : m = 1 - n := by
        have : (m : ℚ) ≤ ((1 - n : Int) : ℚ) := by push_cast; linarith
        have h3 : ((-n : Int) : ℚ) < m := by push_cast; linarith
        have := Int.cast_le.mp this
        have := Int.cast_lt.mp h3
        omega
      have ht' : (m : ℚ) - -y = 1 / 2 := by rw [hm]; push_cast; linarith
      simp only [ht, ht', true_and]
      subst hm
      split_ifs <;> omega
    · have hm : m = -n := by
        have h4 : y + 1 / 2 ≠ n + 1 := by linarith
        have h5 : (n : ℚ) < y + 1 / 2 := lt_of_le_of_ne a1 (fun h => ht (by linarith))
        have h6 : ((m : Int) : ℚ) < ((1 - n : Int) : ℚ) := by push_cast; linarith
        have h7 : ((-n - 1 : Int) : ℚ) < m := by push_cast; linarith
        have := Int.cast_lt.mp h6
        have := Int.cast_lt.mp h7
        omega
      have ht' : ¬ (m : ℚ) - -y = 1 / 2 := by
        rw [hm]; push_cast; intro h
        linarith
      rw [if_neg (fun h => ht' h.1), if_neg (fun h => ht h.1), hm]
  rw [c]; push_cast; ring

/-- The rounding of binary64 meets what the theorems above ask. -/
theorem C91_binary64_rounds : Rounds (binary64 (Fl.nearestEven 53 (-1074))) where
  zero := by decide +kernel
  neg_abs x := by
    simp only [binary64, nearestEven_neg]
    split_ifs <;> first | rfl | (exfalso; linarith) | simp [Dbl.abs]
  number x := by simp only [binary64]; split_ifs <;> simp

/-- A threshold of zero: two doubles are close exactly when they are the same number, because the difference of two
different doubles never rounds to zero. -/
theorem C91_zero_threshold {x y : ℚ} (hx : Fl.Rep 53 (-1074) x) (hy : Fl.Rep 53 (-1074) y) :
    closeEnough (binary64 (Fl.nearestEven 53 (-1074))) (.fin x) (.fin y) (.fin 0) = true ↔ x = y := by
  have hN : Fl.Nearest 53 (-1074) (Fl.nearestEven 53 (-1074)) := Fl.nearestEven_spec (by norm_num)
  constructor
  · intro h
    by_contra hne
    rw [(C91_close_scalar C91_binary64_rounds _ _ _).1] at h
    have hz : Fl.nearestEven 53 (-1074) (x - y) = 0 := by
      simp only [Dbl.sub, binary64] at h
      split_ifs at h
      · simp [Dbl.abs, Dbl.le] at h
      · simp [Dbl.abs, Dbl.le] at h
      · simpa [Dbl.abs, Dbl.le] using h
    obtain ⟨m, e, he, _, hxm⟩ := hx
    obtain ⟨k, f, hf, _, hyk⟩ := hy
    -- the difference is an integer multiple of the smallest positive double
    obtain ⟨d, hd⟩ : ∃ d : Int, x - y = d * 2 ^ (-1074 : Int) := by
      refine ⟨m * 2 ^ (e + 1074).toNat - k * 2 ^ (f + 1074).toNat, ?_⟩
      have e1 : (2 : ℚ) ^ e = 2 ^ (e + 1074).toNat * 2 ^ (-1074 : Int) := by
        rw [← zpow_natCast, Int.toNat_of_nonneg (by omega), ← zpow_add₀ (by norm_num)]; congr 1; omega
      have e2 : (2 : ℚ) ^ f = 2 ^ (f + 1074).toNat * 2 ^ (-1074 : Int) := by
        rw [← zpow_natCast, Int.toNat_of_nonneg (by omega), ← zpow_add₀ (by norm_num)]; congr 1; omega
      rw [hxm, hyk, e1, e2]; push_cast; ring
    have hd0 : d ≠ 0 := by
      rintro rfl
      exact hne (by simpa [sub_eq_zero] using hd)
    have hpos := Fl.two_zpow_pos (-1074)
    have hrep : ∀ s : Int, |s| = 1 → Fl.Rep 53 (-1074) (s * 2 ^ (-1074 : Int)) := fun s hs =>
      ⟨s, -1074, le_refl _, by rw [hs]; norm_num, rfl⟩
    rcases lt_or_gt_of_ne hd0 with hd1 | hd1
    · have : (d : ℚ) * 2 ^ (-1074 : Int) ≤ ((-1 : Int) : ℚ) * 2 ^ (-1074 : Int) :=
        mul_le_mul_of_nonneg_right (by exact_mod_cast (by omega : d ≤ -1)) hpos.le
      have := hN.mono this
      rw [hN.fix (hrep (-1) (by norm_num)), ← hd, hz] at this
      push_cast at this
      linarith
    · have : ((1 : Int) : ℚ) * 2 ^ (-1074 : Int) ≤ (d : ℚ) * 2 ^ (-1074 : Int) :=
        mul_le_mul_of_nonneg_right (by exact_mod_cast (by omega : (1 : Int) ≤ d)) hpos.le
      have := hN.mono this
      rw [hN.fix (hrep 1 (by norm_num)), ← hd, hz] at this
      push_cast at this
      linarith
  · rintro rfl
    exact (C91_close_scalar C91_binary64_rounds (.fin x) (.fin x) (.fin 0)).2.2.2 x (by simp)

example : closeEnough (binary64 (Fl.nearestEven 53 (-1074))) (.fin 1) (.fin (3 / 2)) (.fin (-1 / 2)) = true ∧
    closeEnough (binary64 (Fl.nearestEven 53 (-1074))) (.fin 1) (.fin (3 / 2)) (.fin (1 / 4)) = false ∧
    closeEnough3 (binary64 (Fl.nearestEven 53 (-1074))) ⟨.fin 1, .fin 2, .fin 3⟩ ⟨.fin 1, .fin 2, .fin 4⟩ (.fin 1) = true ∧
    Fl.Rep 53 (-1074) 1 := by
  refine ⟨by decide +kernel, by decide +kernel, by decide +kernel, 1, 0, by norm_num, by norm_num, by norm_num⟩

end CRU.Math.Close
