import Verif.Float
import Verif.Cost
import Mathlib.Data.NNRat.Order
import Mathlib.Algebra.Order.Nonneg.Field
import Mathlib.Data.ENNReal.Real
import Mathlib.Data.ENNReal.Inv
/-
  The non-negative numbers of IEEE 754 binary64, infinity included: 53 bits of precision, exponents from -1074 to 971, sums
  rounded to nearest with any rule for ties, sums that round beyond the largest finite number are infinite. Costs and distances
  are such numbers (NaN is in Verif/NaN; negative costs are refused by the searches).
-/
namespace CRU

/-- The largest finite binary64 number, `std::numeric_limits<double>::max()`. -/
def maxDouble : ℚ := (2 ^ 53 - 1) * 2 ^ (971 : Int)

/-- A non-negative binary64 number, possibly infinite. -/
def DoubleRep : WithTop ℚ≥0 → Prop
  | ⊤ => True
  | (x : ℚ≥0) => Fl.Rep 53 (-1074) (x : ℚ) ∧ (x : ℚ) ≤ maxDouble

/-- IEEE 754, 4.3.1 and 7.4: rounding to nearest, the rule for ties is that of `fl`; what rounds beyond the largest finite number
overflows to infinity. -/
def roundDouble (fl : ℚ → ℚ) : WithTop ℚ≥0 → WithTop ℚ≥0
  | ⊤ => ⊤
  | (x : ℚ≥0) => if fl x ≤ maxDouble then ((fl x).toNNRat : ℚ≥0) else ⊤

/-- Rounding to nearest with binary64's precision and smallest exponent. -/
abbrev RoundsToNearest (fl : ℚ → ℚ) : Prop := Fl.Nearest 53 (-1074) fl

/-- A non-negative `double`, possibly infinite; `fl` is how sums are rounded. -/
def Double (_fl : ℚ → ℚ) : Type := Rounded (WithTop ℚ≥0) DoubleRep

section
variable {fl : ℚ → ℚ}

theorem rep_zero : Fl.Rep 53 (-1074) 0 := ⟨0, 0, by norm_num, by norm_num, by norm_num⟩

theorem rep_max : Fl.Rep 53 (-1074) maxDouble := ⟨2 ^ 53 - 1, 971, by norm_num, by norm_num [abs_of_pos], by unfold maxDouble; push_cast; ring⟩

theorem maxDouble_pos : 0 < maxDouble := mul_pos (by norm_num) (Fl.two_zpow_pos _)

theorem fl_nonneg (h : RoundsToNearest fl) {x : ℚ} (hx : 0 ≤ x) : 0 ≤ fl x := by
  have := h.mono hx
  rwa [h.fix rep_zero] at this

theorem roundDouble_rep (h : RoundsToNearest fl) : ∀ x, DoubleRep (roundDouble fl x)
  | ⊤ => trivial
  | (x : ℚ≥0) => by
    show DoubleRep (if fl x ≤ maxDouble then (((fl x).toNNRat : ℚ≥0) : WithTop ℚ≥0) else ⊤)
    split
    · rename_i hle
      have h0 := fl_nonneg h x.2
      have e : (((fl x).toNNRat : ℚ≥0) : ℚ) = fl x := Rat.coe_toNNRat _ h0
      have h2 : Fl.Rep 53 (-1074) (((fl x).toNNRat : ℚ≥0) : ℚ) ∧ (((fl x).toNNRat : ℚ≥0) : ℚ) ≤ maxDouble := by
        rw [e]; exact ⟨h.rep _, hle⟩
      exact h2
    · trivial

theorem roundDouble_fix (h : RoundsToNearest fl) : ∀ x, DoubleRep x → roundDouble fl x = x
  | ⊤, _ => rfl
  | (x : ℚ≥0), hx => by
    obtain ⟨h1, h2⟩ := hx
    show (if fl x ≤ maxDouble then (((fl x).toNNRat : ℚ≥0) : WithTop ℚ≥0) else ⊤) = (x : WithTop ℚ≥0)
    rw [h.fix h1, if_pos h2, NNRat.toNNRat_coe]

theorem roundDouble_mono (h : RoundsToNearest fl) : Monotone (roundDouble fl) := by
  intro x y hxy
  cases y with
  | top => exact le_top
  | coe y =>
    cases x with
    | top => simp at hxy
    | coe x =>
      have hxy' : x ≤ y := by exact_mod_cast hxy
      have hm := h.mono (x := x) (y := y) (by exact_mod_cast hxy')
      show (if fl x ≤ maxDouble then (((fl x).toNNRat : ℚ≥0) : WithTop ℚ≥0) else ⊤) ≤ (if fl y ≤ maxDouble then ((fl y).toNNRat : WithTop ℚ≥0) else ⊤)
      split
      · split
        · exact_mod_cast NNRat.toNNRat_mono hm
        · exact le_top
      · rename_i hx
        rw [if_neg (fun hc => hx (le_trans hm hc))]

noncomputable instance : LinearOrder (Double fl) := inferInstanceAs (LinearOrder (Rounded (WithTop ℚ≥0) DoubleRep))

instance : Zero (Double fl) := ⟨⟨0, ⟨rep_zero, maxDouble_pos.le⟩⟩⟩

instance : OrderTop (Double fl) where
  top := ⟨⊤, trivial⟩
  le_top := fun x => (le_top : x.val ≤ ⊤)

variable [hfl : Fact (RoundsToNearest fl)]

/-- IEEE 754 addition. -/
instance : Add (Double fl) := ⟨fun x y => ⟨roundDouble fl (x.val + y.val), roundDouble_rep hfl.out _⟩⟩

/-- The laws used by the cost theorems hold for `double`. -/
instance : CostLaws (Double fl) :=
  Rounded.laws (roundDouble fl) (roundDouble_rep hfl.out) (roundDouble_fix hfl.out) (roundDouble_mono hfl.out) _ (show DoubleRep ⊤ from trivial)

omit hfl in
theorem Double.zero_le (x : Double fl) : 0 ≤ x := (_root_.zero_le : (0 : WithTop ℚ≥0) ≤ x.val)

theorem Double.add_top (x : Double fl) : x + ⊤ = ⊤ := by
  apply Rounded.val_inj
  show roundDouble fl (x.val + ⊤) = ⊤
  rw [_root_.add_top]; rfl

theorem Double.top_add (x : Double fl) : ⊤ + x = ⊤ := by
  apply Rounded.val_inj
  show roundDouble fl (⊤ + x.val) = ⊤
  rw [_root_.top_add]; rfl

end

/-- There is such a rounding. -/
instance : Fact (RoundsToNearest (Fl.nearest 53 (-1074))) := ⟨Fl.nearest_spec (by norm_num)⟩

/-! ### Accuracy of sums -/

namespace Double
variable {fl : ℚ → ℚ}

/-- The exact value of a `double`. -/
noncomputable def exact (x : Double fl) : ENNReal :=
  match x.val with
  | ⊤ => ⊤
  | (q : ℚ≥0) => ((q : NNReal) : ENNReal)

/-- One rounding: a factor of `1 + 2⁻⁵³`. -/
noncomputable def rho : ENNReal := 1 + 2⁻¹ ^ 53

end Double

/-- The exact sum of two non-negative numbers and the rounded one differ by a factor of at most `1 + 2⁻⁵³`, either way; also below the normal
range. -/
theorem fl_sum {fl : ℚ → ℚ} (h : RoundsToNearest fl) {x y : ℚ} (hx : Fl.Rep 53 (-1074) x) (hy : Fl.Rep 53 (-1074) y) (hx0 : 0 ≤ x)
    (hy0 : 0 ≤ y) : x + y ≤ (1 + 2⁻¹ ^ 53) * fl (x + y) ∧ fl (x + y) ≤ (1 + 2⁻¹ ^ 53) * (x + y) := by
  by_cases hn : (2 : ℚ) ^ (-1022 : Int) ≤ x + y
  · have hs0 : 0 < x + y := lt_of_lt_of_le (Fl.two_zpow_pos _) hn
    have hlog : (2 : ℚ) ^ (Int.log 2 (x + y)) ≤ x + y := by
      have := Int.zpow_log_le_self (b := 2) (by norm_num) hs0
      exact_mod_cast this
    have hlog' : x + y < (2 : ℚ) ^ (Int.log 2 (x + y) + 1) := by
      have := Int.lt_zpow_succ_log_self (b := 2) (by norm_num) (x + y)
      exact_mod_cast this
    have hge : (-1022 : Int) < Int.log 2 (x + y) + 1 :=
      (zpow_lt_zpow_iff_right₀ (by norm_num : (1 : ℚ) < 2)).mp (lt_of_le_of_lt hn hlog')
    have herr := h.err (by norm_num) (x + y)
    rw [abs_of_pos hs0] at herr
    have hm : max (-1074) (Int.log 2 (x + y) + 1 - ((53 : Nat) : Int)) = Int.log 2 (x + y) + 1 - 53 := by push_cast; omega
    rw [hm] at herr
    generalize Int.log 2 (x + y) = e at *
    have hrep : Fl.Rep 53 (-1074) ((2 : ℚ) ^ e) := ⟨1, e, by omega, by norm_num, by norm_num⟩
    have hfl : (2 : ℚ) ^ e ≤ fl (x + y) := by rw [← h.fix hrep]; exact h.mono hlog
    have he : (2 : ℚ) ^ (e + 1 - 53) / 2 = 2⁻¹ ^ 53 * 2 ^ e := by
      rw [show e + 1 - 53 = e + 1 + (-53 : Int) by ring, zpow_add₀ (by norm_num), zpow_add_one₀ (by norm_num)]
      norm_num
      ring
    rw [he] at herr
    have hu : (0 : ℚ) ≤ 2⁻¹ ^ 53 := by positivity
    have h1 := mul_le_mul_of_nonneg_left hfl hu
    have h2 := mul_le_mul_of_nonneg_left hlog hu
    obtain ⟨h3, h4⟩ := abs_le.mp herr
    constructor <;> rw [add_mul, one_mul] <;> linarith
  · push Not at hn
    have hmul : ∀ z : ℚ, Fl.Rep 53 (-1074) z → ∃ k : Int, z = k * 2 ^ (-1074 : Int) := by
      rintro z ⟨m, e, he, -, rfl⟩
      refine ⟨m * 2 ^ (e + 1074).toNat, ?_⟩
      push_cast
      rw [mul_assoc, ← zpow_natCast, ← zpow_add₀ (by norm_num), Int.toNat_of_nonneg (by omega)]
      congr 2
      ring
    obtain ⟨a, ha⟩ := hmul x hx
    obtain ⟨b, hb⟩ := hmul y hy
    have hrep : Fl.Rep 53 (-1074) (x + y) := by
      refine ⟨a + b, -1074, le_refl _, ?_, by rw [ha, hb]; push_cast; ring⟩
      have hsum : x + y = ((a + b : Int) : ℚ) * 2 ^ (-1074 : Int) := by rw [ha, hb]; push_cast; ring
      have h0 : 0 ≤ a + b := by
        by_contra hc
        push Not at hc
        have h1 : ((a + b : Int) : ℚ) < 0 := by exact_mod_cast hc
        have := mul_neg_of_neg_of_pos h1 (Fl.two_zpow_pos (-1074))
        rw [← hsum] at this
        linarith
      rw [abs_of_nonneg h0]
      have h1 : ((a + b : Int) : ℚ) < 2 ^ (52 : Int) := by
        rw [hsum, show (-1022 : Int) = 52 + (-1074) by norm_num, zpow_add₀ (by norm_num)] at hn
        exact lt_of_mul_lt_mul_right hn (Fl.two_zpow_pos _).le
      have h2 : ((a + b : Int) : ℚ) < ((2 ^ 53 : Int) : ℚ) := lt_trans h1 (by norm_num)
      exact_mod_cast h2
    rw [h.fix hrep]
    have hs : 0 ≤ x + y := by linarith
    have hu : (0 : ℚ) ≤ 2⁻¹ ^ 53 := by positivity
    have := mul_nonneg hu hs
    constructor <;> rw [add_mul, one_mul] <;> linarith

namespace Double
variable {fl : ℚ → ℚ}

theorem rho_eq : rho = (((1 + 2⁻¹ ^ 53 : ℚ≥0) : NNReal) : ENNReal) := by
  unfold rho
  push_cast
  simp

theorem one_le_rho : 1 ≤ rho := le_self_add

theorem rho_ne_top : rho ≠ ⊤ := by rw [rho_eq]; exact ENNReal.coe_ne_top

theorem cast_le {a b : ℚ≥0} (h : (a : ℚ) ≤ (1 + 2⁻¹ ^ 53) * b) : ((a : NNReal) : ENNReal) ≤ rho * ((b : NNReal) : ENNReal) := by
  rw [rho_eq, ← ENNReal.coe_mul, ← NNRat.cast_mul]
  have : a ≤ (1 + 2⁻¹ ^ 53) * b := by
    have h2 : (a : ℚ) ≤ (((1 + 2⁻¹ ^ 53) * b : ℚ≥0) : ℚ) := by push_cast; exact h
    exact_mod_cast h2
  exact_mod_cast this

theorem exact_zero : (0 : Double fl).exact = 0 := by
  show ((((0 : ℚ≥0) : NNReal)) : ENNReal) = 0
  simp

theorem exact_top : (⊤ : Double fl).exact = ⊤ := rfl

theorem exact_mono {x y : Double fl} (h : x ≤ y) : x.exact ≤ y.exact := by
  obtain ⟨x, hx⟩ := x
  obtain ⟨y, hy⟩ := y
  have h' : x ≤ y := h
  cases y with
  | top => exact le_top
  | coe b =>
    cases x with
    | top => simp at h'
    | coe a =>
      have : a ≤ b := by exact_mod_cast h'
      show ((a : NNReal) : ENNReal) ≤ ((b : NNReal) : ENNReal)
      exact_mod_cast this

theorem exact_eq_top {x : Double fl} : x.exact = ⊤ ↔ x = ⊤ := by
  obtain ⟨x, hx⟩ := x
  cases x with
  | top => exact ⟨fun _ => rfl, fun _ => rfl⟩
  | coe a =>
    constructor
    · intro h; exact absurd h ENNReal.coe_ne_top
    · intro h; have := congrArg Rounded.val h; cases this

variable [hfl : Fact (RoundsToNearest fl)]

omit hfl in
theorem exact_coe {x : Double fl} {a : ℚ≥0} (h : x.val = a) : x.exact = ((a : NNReal) : ENNReal) := by
  unfold exact; rw [h]

omit hfl in
theorem rep_coe {x : Double fl} {a : ℚ≥0} (h : x.val = a) : Fl.Rep 53 (-1074) (a : ℚ) ∧ (a : ℚ) ≤ maxDouble := by
  have := x.isRep
  rw [h] at this
  exact this

omit hfl in
theorem top_or_coe (x : Double fl) : x = ⊤ ∨ ∃ a : ℚ≥0, x.val = a := by
  obtain ⟨x, hx⟩ := x
  cases x with
  | top => exact .inl rfl
  | coe a => exact .inr ⟨a, rfl⟩

theorem add_coe {x y : Double fl} {a b : ℚ≥0} (hx : x.val = a) (hy : y.val = b) :
    (fl ((a : ℚ) + b) ≤ maxDouble ∧ (x + y).val = (((fl ((a : ℚ) + b)).toNNRat : ℚ≥0) : WithTop ℚ≥0)) ∨
      (maxDouble < fl ((a : ℚ) + b) ∧ x + y = ⊤) := by
  have hv : (x + y).val = roundDouble fl (((a + b : ℚ≥0)) : WithTop ℚ≥0) := by
    show roundDouble fl (x.val + y.val) = _
    rw [hx, hy]; rfl
  have hr : roundDouble fl (((a + b : ℚ≥0)) : WithTop ℚ≥0) =
      if fl ((a : ℚ) + b) ≤ maxDouble then (((fl ((a : ℚ) + b)).toNNRat : ℚ≥0) : WithTop ℚ≥0) else ⊤ := by
    show (if fl ((a + b : ℚ≥0) : ℚ) ≤ maxDouble then (((fl ((a + b : ℚ≥0) : ℚ)).toNNRat : ℚ≥0) : WithTop ℚ≥0) else ⊤) = _
    rw [NNRat.cast_add]
  rw [hr] at hv
  by_cases hc : fl ((a : ℚ) + b) ≤ maxDouble
  · rw [if_pos hc] at hv; exact .inl ⟨hc, hv⟩
  · rw [if_neg hc] at hv; exact .inr ⟨not_le.mp hc, Rounded.val_inj hv⟩

/-- The exact sum is at most a factor of `1 + 2⁻⁵³` above the computed one. -/
theorem exact_add_le (x y : Double fl) : x.exact + y.exact ≤ rho * (x + y).exact := by
  by_cases ht : x + y = ⊤
  · rw [ht, exact_top, ENNReal.mul_top (ne_of_gt (lt_of_lt_of_le one_pos one_le_rho))]; exact le_top
  · rcases top_or_coe x with rfl | ⟨a, ha⟩
    · exact absurd (top_add y) ht
    rcases top_or_coe y with rfl | ⟨b, hb⟩
    · exact absurd (add_top x) ht
    rcases add_coe ha hb with ⟨h1, h2⟩ | ⟨-, h2⟩
    · rw [exact_coe h2, exact_coe ha, exact_coe hb, ← ENNReal.coe_add, ← NNRat.cast_add]
      apply cast_le
      rw [Rat.coe_toNNRat _ (fl_nonneg hfl.out (by positivity)), NNRat.cast_add]
      exact (fl_sum hfl.out (rep_coe ha).1 (rep_coe hb).1 (by positivity) (by positivity)).1
    · exact absurd h2 ht

/-- A finite number that is at most the computed sum is at most a factor of `1 + 2⁻⁵³` above the exact one, also if the computed sum has
overflowed. -/
theorem le_exact_add {d x y : Double fl} (hd : d ≠ ⊤) (h : d ≤ x + y) : d.exact ≤ rho * (x.exact + y.exact) := by
  have hr0 : rho ≠ 0 := ne_of_gt (lt_of_lt_of_le one_pos one_le_rho)
  rcases top_or_coe x with rfl | ⟨a, ha⟩
  · rw [exact_top, _root_.top_add, ENNReal.mul_top hr0]; exact le_top
  rcases top_or_coe y with rfl | ⟨b, hb⟩
  · rw [exact_top, _root_.add_top, ENNReal.mul_top hr0]; exact le_top
  rcases top_or_coe d with rfl | ⟨c, hc⟩
  · exact absurd rfl hd
  have hle : (c : ℚ) ≤ fl ((a : ℚ) + b) := by
    rcases add_coe ha hb with ⟨h1, h2⟩ | ⟨h1, -⟩
    · have h3 : d.val ≤ (x + y).val := h
      rw [hc, h2] at h3
      have h4 : c ≤ (fl ((a : ℚ) + b)).toNNRat := by exact_mod_cast h3
      have h5 : (c : ℚ) ≤ (((fl ((a : ℚ) + b)).toNNRat : ℚ≥0) : ℚ) := by exact_mod_cast h4
      rwa [Rat.coe_toNNRat _ (fl_nonneg hfl.out (by positivity))] at h5
    · exact le_trans (rep_coe hc).2 h1.le
  rw [exact_coe ha, exact_coe hb, exact_coe hc, ← ENNReal.coe_add, ← NNRat.cast_add]
  apply cast_le
  rw [NNRat.cast_add]
  exact le_trans hle (fl_sum hfl.out (rep_coe ha).1 (rep_coe hb).1 (by positivity) (by positivity)).2

/-- A further summand: `l` bounds everything finite below `x` up to `n` roundings, so `l + y` bounds everything finite below `x + y` up to
`n + 1`. -/
theorem bound_add {x y : Double fl} {l : ENNReal} {n : Nat} (h : ∀ d : Double fl, d ≠ ⊤ → d ≤ x → d.exact ≤ rho ^ n * l) {d : Double fl}
    (hd : d ≠ ⊤) (hle : d ≤ x + y) : d.exact ≤ rho ^ (n + 1) * (l + y.exact) := by
  have h1 : ∀ k, 1 ≤ rho ^ k := fun k => one_le_pow₀ one_le_rho
  by_cases hx : x = ⊤
  · subst hx
    calc d.exact ≤ rho ^ n * l := h d hd le_top
      _ ≤ rho ^ (n + 1) * (l + y.exact) := by
        gcongr
        · exact one_le_rho
        · omega
        · exact le_self_add
  · calc d.exact ≤ rho * (x.exact + y.exact) := le_exact_add hd hle
      _ ≤ rho * (rho ^ n * l + rho ^ n * y.exact) := by
        gcongr
        · exact h x hx (le_refl _)
        · exact le_mul_of_one_le_left' (h1 n)
      _ = rho ^ (n + 1) * (l + y.exact) := by rw [← mul_add, pow_succ, mul_comm (rho ^ n) rho, mul_assoc]

/-- The other direction: exact sums exceed computed ones by at most `n + 1` roundings. -/
theorem exact_bound_add {x y : Double fl} {l : ENNReal} {n : Nat} (h : l ≤ rho ^ n * x.exact) :
    l + y.exact ≤ rho ^ (n + 1) * (x + y).exact := by
  have h1 : 1 ≤ rho ^ n := one_le_pow₀ one_le_rho
  calc l + y.exact ≤ rho ^ n * x.exact + rho ^ n * y.exact := by
        gcongr
        exact le_mul_of_one_le_left' h1
    _ = rho ^ n * (x.exact + y.exact) := (mul_add _ _ _).symm
    _ ≤ rho ^ n * (rho * (x + y).exact) := by gcongr; exact exact_add_le x y
    _ = rho ^ (n + 1) * (x + y).exact := by rw [pow_succ, mul_assoc]

end Double
end CRU
