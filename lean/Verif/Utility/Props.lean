import Verif.Utility.Model
import Mathlib.Data.List.Perm.Subperm
import Mathlib.Data.List.Dedup
import Mathlib.Data.List.Count
/-
  C43-C46, C61: utility functions.
-/
namespace CRU.Util
open CRU.Fl

/-! ### C46 -/

/-- The random index lies in the container, with binary64 rounding of both the size and the product, to nearest with any rule
for ties: for *every* size of the type, also those that are not representable as `double`. -/
theorem C46_index_in_range {fl : ℚ → ℚ} (hfl : Nearest 53 (-1074) fl) {t : IntType} (ht : t.lo ≤ 0) {u : ℚ}
    (hu : Rep 53 (-1074) u) (h0 : 0 ≤ u) (h1 : u < 1) {size : Int} (hs : 1 ≤ size) (hsz : size ≤ t.hi) :
    ∃ i, randomIndex fl t u size = .ok i ∧ 0 ≤ i ∧ i < size := by
  have hone : Rep 53 (-1074) 1 := by
    have := rep_int (p := 53) (emin := -1074) (i := 1) (by norm_num) (by norm_num) (by norm_num)
    simpa using this
  have hzero : Rep 53 (-1074) 0 := by
    have := rep_int (p := 53) (emin := -1074) (i := 0) (by norm_num) (by norm_num) (by norm_num)
    simpa using this
  have hs' : (1 : ℚ) ≤ size := by exact_mod_cast hs
  have hx1 : (1 : ℚ) ≤ fl size := by
    rw [← hfl.fix hone]; exact hfl.mono hs'
  obtain ⟨y, hy, hyx, _, hle⟩ := mul_lt_self hfl (by norm_num) (by norm_num) hu h1 (hfl.rep size) (by
    refine le_trans ?_ hx1
    calc (2 : ℚ) ^ ((-1074 : Int) + (53 : Nat)) ≤ 2 ^ (0 : Int) := zpow_le_zpow_right₀ (by norm_num) (by norm_num)
      _ = 1 := by norm_num)
  -- the predecessor of the rounded size is below the size
  have hys : y < size := by
    by_contra hc
    push Not at hc
    have := hfl.near size y hy
    rw [abs_of_nonneg (by linarith), abs_of_nonneg (by linarith)] at this
    linarith
  have hlt : ⌊fl (u * fl size)⌋ < size := by
    rw [Int.floor_lt]
    linarith
  have hge : 0 ≤ ⌊fl (u * fl size)⌋ := by
    rw [Int.le_floor]
    have : fl 0 ≤ fl (u * fl size) := hfl.mono (mul_nonneg h0 (by linarith))
    rw [hfl.fix hzero] at this
    simpa using this
  refine ⟨⌊fl (u * fl size)⌋, ?_, hge, hlt⟩
  unfold randomIndex IntType.cast
  rw [if_neg (by omega), if_pos ⟨by omega, by omega⟩]

/-- The index is the draw times the size, rounded to an integer next to it: draws spread over the whole container. -/
theorem C46_index_spread {fl : ℚ → ℚ} (hfl : Nearest 53 (-1074) fl) {t : IntType} (ht : t.lo ≤ 0) {u : ℚ}
    (hu : Rep 53 (-1074) u) (h0 : 0 ≤ u) (h1 : u < 1) {size : Int} (hs : 1 ≤ size) (hsz : size ≤ t.hi) (h53 : size ≤ 2 ^ 53) :
    ∃ i, randomIndex fl t u size = .ok i ∧ ⌊u * size⌋ ≤ i ∧ i ≤ ⌈u * size⌉ := by
  obtain ⟨i, hi, i0, i1⟩ := C46_index_in_range hfl ht hu h0 h1 hs hsz
  have hrep : ∀ j : Int, 0 ≤ j → j ≤ size → Rep 53 (-1074) (j : ℚ) := fun j j0 j1 =>
    rep_int (by norm_num) (by norm_num) (by rw [abs_of_nonneg j0]; omega)
  have hfs : fl size = size := hfl.fix (hrep size (by omega) le_rfl)
  have hi' := hi
  unfold randomIndex IntType.cast at hi'
  rw [if_neg (by omega)] at hi'
  split at hi'
  · simp only [Res.ok.injEq] at hi'
    rw [hfs] at hi'
    have hs' : (0 : ℚ) ≤ size := by exact_mod_cast (by omega : (0 : Int) ≤ size)
    have hle : u * size ≤ size := by nlinarith
    refine ⟨i, hi, ?_, ?_⟩
    · rw [← hi', Int.le_floor]
      have hr := hrep ⌊u * size⌋ (Int.floor_nonneg.mpr (by positivity)) (by
        have := Int.floor_le (u * (size : ℚ))
        exact_mod_cast this.trans hle)
      rw [← hfl.fix hr]
      exact hfl.mono (Int.floor_le _)
    · have hr := hrep ⌈u * size⌉ (Int.ceil_nonneg (by positivity)) (Int.ceil_le.mpr hle)
      have h2 : fl (u * size) ≤ ⌈u * (size : ℚ)⌉ := by
        rw [← hfl.fix hr]
        exact hfl.mono (Int.le_ceil _)
      have h3 : ((⌊fl (u * size)⌋ : Int) : ℚ) ≤ ⌈u * (size : ℚ)⌉ := (Int.floor_le _).trans h2
      rw [hi'] at h3
      exact_mod_cast h3
  · cases hi'

/-- Every index of a container of up to 2^50 elements is returned for some draw. -/
theorem C46_index_onto {fl : ℚ → ℚ} (hfl : Nearest 53 (-1074) fl) {t : IntType} (ht : t.lo ≤ 0) {size : Int} (hsz : size ≤ t.hi)
    (h50 : size ≤ 2 ^ 50) {i : Int} (i0 : 0 ≤ i) (i1 : i < size) :
    ∃ u, Rep 53 (-1074) u ∧ 0 ≤ u ∧ u < 1 ∧ randomIndex fl t u size = .ok i := by
  have hs0 : (0 : ℚ) < size := by exact_mod_cast (by omega : (0 : Int) < size)
  have hi0 : (0 : ℚ) ≤ i := by exact_mod_cast i0
  have hi1 : (i : ℚ) + 1 ≤ size := by exact_mod_cast (by omega : i + 1 ≤ size)
  have h50' : (size : ℚ) ≤ 2 ^ 50 := by exact_mod_cast h50
  have hzero : Rep 53 (-1074) 0 := by
    have := rep_int (p := 53) (emin := -1074) (i := 0) (by norm_num) (by norm_num) (by norm_num)
    simpa using this
  have hx0 : 0 ≤ ((i : ℚ) + 1 / 2) / size := by positivity
  have hx1 : ((i : ℚ) + 1 / 2) / size ≤ 1 - 1 / (2 * size) := by
    rw [div_le_iff₀ hs0]
    have : (1 - 1 / (2 * (size : ℚ))) * size = size - 1 / 2 := by field_simp
    rw [this]; linarith
  have herr := hfl.unit_err (by norm_num) (by norm_num) (x := ((i : ℚ) + 1 / 2) / size) (by
    rw [abs_of_nonneg hx0]
    have : 0 < 1 / (2 * (size : ℚ)) := by positivity
    linarith)
  obtain ⟨e1, e2⟩ := abs_le.mp herr
  set u := fl (((i : ℚ) + 1 / 2) / size) with hu
  have hxs : ((i : ℚ) + 1 / 2) / size * size = i + 1 / 2 := by field_simp
  have hb : (2 : ℚ) ^ (-(53 : Nat) : Int) / 2 * size ≤ 1 / 8 := by
    have h2 : (2 : ℚ) ^ (-(53 : Nat) : Int) = 1 / 2 ^ 53 := by norm_num
    rw [h2]
    calc (1 : ℚ) / 2 ^ 53 / 2 * size ≤ 1 / 2 ^ 53 / 2 * 2 ^ 50 := by gcongr
      _ ≤ 1 / 8 := by norm_num
  have hlo : (i : ℚ) ≤ u * size := by nlinarith
  have hhi : u * size ≤ i + 3 / 4 := by nlinarith
  have hu0 : 0 ≤ u := by rw [hu, ← hfl.fix hzero]; exact hfl.mono hx0
  have hu1 : u < 1 := by
    by_contra hc
    push Not at hc
    nlinarith
  refine ⟨u, hfl.rep _, hu0, hu1, ?_⟩
  have hfs : fl size = size := hfl.fix (rep_int (by norm_num) (by norm_num) (by rw [abs_of_nonneg (by omega)]; omega))
  have r1 : Rep 53 (-1074) (i : ℚ) := rep_int (by norm_num) (by norm_num) (by rw [abs_of_nonneg i0]; omega)
  have r2 : Rep 53 (-1074) ((i : ℚ) + 3 / 4) := ⟨4 * i + 3, -2, by norm_num, by rw [abs_of_nonneg (by omega)]; omega, by push_cast; ring⟩
  have g1 : (i : ℚ) ≤ fl (u * size) := by rw [← hfl.fix r1]; exact hfl.mono hlo
  have g2 : fl (u * size) ≤ i + 3 / 4 := by rw [← hfl.fix r2]; exact hfl.mono hhi
  have hfloor : ⌊fl (u * size)⌋ = i := by
    rw [Int.floor_eq_iff]
    exact ⟨g1, by linarith⟩
  unfold randomIndex IntType.cast
  rw [if_neg (by omega), hfs, hfloor, if_pos ⟨by omega, by omega⟩]

/-- Concrete: each of 1000 places is hit by some draw, with round to nearest. -/
example (i : Int) (h0 : 0 ≤ i) (h1 : i < 1000) : ∃ u, 0 ≤ u ∧ u < 1 ∧ randomIndex (nearest 53 (-1074)) i64 u 1000 = .ok i := by
  obtain ⟨u, -, k⟩ := C46_index_onto (nearest_spec (p := 53) (emin := -1074) (by norm_num)) (t := i64) (by decide) (size := 1000) (by decide)
    (by norm_num) h0 h1
  exact ⟨u, k⟩

/-- An empty container throws. -/
theorem C46_empty_throws (fl : ℚ → ℚ) (t : IntType) (u : ℚ) {size : Int} (hs : size < 1) :
    randomIndex fl t u size = .throw .invalidArgument := by
  unfold randomIndex; rw [if_pos hs]

/-- A value drawn from a range lies in it, provided that the number of values in the range fits the type. Missing: ranges
with more values than the type can count, see `C46_range_false`. -/
theorem C46_range_partial {fl : ℚ → ℚ} (hfl : Nearest 53 (-1074) fl) {t : IntType} (ht : t.lo ≤ 0) {u : ℚ}
    (hu : Rep 53 (-1074) u) (h0 : 0 ≤ u) (h1 : u < 1) {start stop : Int} (hs : t.has start) (he : t.has stop)
    (hle : start ≤ stop) (hfit : stop - start + 1 ≤ t.hi) :
    ∃ v, randomInRange fl t u start stop = .ok v ∧ start ≤ v ∧ v ≤ stop := by
  obtain ⟨s1, s2⟩ := hs
  obtain ⟨e1, e2⟩ := he
  obtain ⟨i, hi, i0, i1⟩ := C46_index_in_range hfl ht hu h0 h1 (size := stop - start + 1) (by omega) hfit
  refine ⟨start + i, ?_, by omega, by omega⟩
  unfold randomInRange IntType.arith
  rw [if_neg (by omega), if_pos (show t.has (stop - start) from ⟨by omega, by omega⟩), Res.ok_bind,
    if_pos (show t.has (stop - start + 1) from ⟨by omega, by omega⟩), Res.ok_bind, hi, Res.ok_bind,
    if_pos (show t.has (start + i) from ⟨by omega, by omega⟩)]

/-- Reversed bounds throw. -/
theorem C46_range_throws (fl : ℚ → ℚ) (t : IntType) (u : ℚ) {start stop : Int} (h : stop < start) :
    randomInRange fl t u start stop = .throw .invalidArgument := by
  unfold randomInRange; rw [if_pos h]

/-- The unrestricted claim is false: the whole range of `int64_t` is undefined behaviour and that of `uint64_t` throws. -/
theorem C46_range_false (fl : ℚ → ℚ) (u : ℚ) :
    randomInRange fl i64 u i64.lo i64.hi = .ub ∧ randomInRange fl u64 u u64.lo u64.hi = .throw .invalidArgument := by
  constructor <;> rfl

/-- Non-vacuity: a rounding exists, the largest draw below 1 and the largest container. -/
example : ∃ i, randomIndex (nearest 53 (-1074)) i64 (1 - 2 ^ (-(53 : Int))) 9223372036854775807 = .ok i ∧ 0 ≤ i ∧
    i < 9223372036854775807 := by
  refine C46_index_in_range (nearest_spec (by norm_num)) (by decide) ⟨2 ^ 53 - 1, -53, by norm_num, by norm_num, ?_⟩ ?_ ?_
    (by norm_num) (by decide)
  · norm_num
  · norm_num
  · norm_num

example : ∃ v, randomInRange (nearest 53 (-1074)) i32 (1 / 2) (-5) 5 = .ok v ∧ -5 ≤ v ∧ v ≤ 5 := by
  refine C46_range_partial (nearest_spec (by norm_num)) (by decide) ⟨1, -1, by norm_num, by norm_num, ?_⟩ ?_ ?_
    (by decide) (by decide) (by norm_num) (by decide)
  · norm_num
  · norm_num
  · norm_num

/-! ### C44 -/

variable {T : Type}

/-- C44: the result is the value of `[lo, hi]` nearest to `val`: it lies in the interval, is `val` if that does, and otherwise
the bound on `val`'s side; reversed bounds throw. -/
theorem C44_clamp [LinearOrder T] (val lo hi : T) :
    (hi < lo → clampValue val lo hi = .throw .invalidArgument) ∧
    (lo ≤ hi → ∃ r, clampValue val lo hi = .ok r ∧ lo ≤ r ∧ r ≤ hi ∧ (lo ≤ val → val ≤ hi → r = val) ∧
      (val < lo → r = lo) ∧ (hi < val → r = hi)) := by
  unfold clampValue
  constructor
  · intro h; rw [if_neg (not_le.mpr h)]
  · intro h
    rw [if_pos h]
    split_ifs with h1 h2
    · exact ⟨lo, rfl, le_refl _, h, fun hc => absurd h1 (not_lt.mpr hc), fun _ => rfl, fun hc => absurd (lt_of_lt_of_le h1 h) (not_lt.mpr (le_of_lt hc))⟩
    · exact ⟨hi, rfl, h, le_refl _, fun _ hc => absurd h2 (not_lt.mpr hc), fun hc => absurd hc (not_lt.mpr (le_trans h (le_of_lt h2))), fun _ => rfl⟩
    · exact ⟨val, rfl, not_lt.mp h1, not_lt.mp h2, fun _ _ => rfl, fun hc => absurd hc h1, fun hc => absurd hc h2⟩

/-- C44: clamping is monotone and idempotent. -/
theorem C44_clamp_laws [LinearOrder T] {lo hi : T} (h : lo ≤ hi) (a b : T) :
    ∃ x y, clampValue a lo hi = .ok x ∧ clampValue b lo hi = .ok y ∧ (a ≤ b → x ≤ y) ∧ clampValue x lo hi = .ok x := by
  obtain ⟨x, h1, h2, h3, h4, h5, h6⟩ := (C44_clamp a lo hi).2 h
  obtain ⟨y, k1, k2, k3, k4, k5, k6⟩ := (C44_clamp b lo hi).2 h
  refine ⟨x, y, h1, k1, ?_, ?_⟩
  · intro hab
    rcases lt_or_ge a lo with ha | ha
    · rw [h5 ha]; exact k2
    · rcases lt_or_ge hi b with hb | hb
      · rw [k6 hb]; exact h3
      · rw [h4 ha (le_trans hab hb), k4 (le_trans ha hab) hb]; exact hab
  · obtain ⟨z, l1, _, _, l4, _⟩ := (C44_clamp x lo hi).2 h
    rw [l1, l4 h2 h3]

/-- C44: no result lies strictly between the thresholds; values outside are kept; values inside go to the threshold on their
side of the midpoint (the midpoint itself goes up); bad thresholds throw. -/
theorem C44_spread [LinearOrder T] (val low mid high : T) :
    (¬ (low ≤ mid ∧ mid ≤ high) → spreadValue val low mid high = .throw .invalidArgument) ∧
    (low ≤ mid → mid ≤ high → ∃ r, spreadValue val low mid high = .ok r ∧ ¬ (low < r ∧ r < high) ∧
      (val ≤ low → val < mid → r = val) ∧ (high ≤ val → r = val) ∧ (mid ≤ val → val < high → r = high) ∧
      (low < val → val < mid → r = low)) := by
  unfold spreadValue
  constructor
  · intro h; rw [if_neg h]
  · intro h1 h2
    rw [if_pos ⟨h1, h2⟩]
    split_ifs with a b
    · exact ⟨high, rfl, fun hc => lt_irrefl _ hc.2, fun _ hc => absurd a.1 (not_le.mpr hc), fun hc => absurd a.2 (not_lt.mpr hc),
        fun _ _ => rfl, fun _ hc => absurd a.1 (not_le.mpr hc)⟩
    · exact ⟨low, rfl, fun hc => lt_irrefl _ hc.1, fun hc => absurd b.2 (not_lt.mpr hc),
        fun hc => absurd (lt_of_lt_of_le b.1 h2) (not_lt.mpr hc), fun hc => absurd b.1 (not_lt.mpr hc), fun _ _ => rfl⟩
    · refine ⟨val, rfl, ?_, fun _ _ => rfl, fun _ => rfl, fun c d => absurd ⟨c, d⟩ a, fun c d => absurd ⟨d, c⟩ b⟩
      rintro ⟨c, d⟩
      rcases lt_or_ge val mid with e | e
      · exact b ⟨e, c⟩
      · exact a ⟨e, d⟩

example : clampValue (7 : Int) 0 5 = .ok 5 ∧ clampValue (-7 : Int) 0 5 = .ok 0 ∧ spreadValue (1 : Int) (-2) 0 2 = .ok 2 := by
  refine ⟨rfl, rfl, rfl⟩

/-! ### C43 -/

/-- C43: `SetBit` changes exactly the bit asked for. -/
theorem C43_set {w : Nat} (x : BitVec w) {i : Nat} (hi : i < w) (b : Bool) :
    ∃ y, setBit x i b = .ok y ∧ ∀ k, k < w → y.getLsbD k = if k = i then b else x.getLsbD k := by
  have hm : ∀ k, k < w → (BitVec.ofNat w (2 ^ i)).getLsbD k = decide (i = k) := by
    intro k hk
    rw [BitVec.getLsbD_ofNat]
    simp [hk, Nat.testBit_two_pow]
  unfold setBit
  rw [if_neg (by omega)]
  cases b with
  | true =>
    refine ⟨_, if_pos rfl, fun k hk => ?_⟩
    rw [BitVec.getLsbD_or, hm k hk]
    by_cases h : k = i
    · simp [h]
    · rw [if_neg h, decide_eq_false (fun hc => h hc.symm), Bool.or_false]
  | false =>
    refine ⟨_, if_neg (by simp), fun k hk => ?_⟩
    rw [BitVec.getLsbD_and, BitVec.getLsbD_not, hm k hk]
    by_cases h : k = i
    · simp [h]
    · rw [if_neg h, decide_eq_false (show ¬ i = k from fun hc => h hc.symm), decide_eq_true hk]
      simp

/-- C43: `GetBit` reads the bit. -/
theorem C43_get {w : Nat} (x : BitVec w) {i : Nat} (hi : i < w) : getBit x i = .ok (x.getLsbD i) := by
  obtain ⟨y, hy, hk⟩ := C43_set (0 : BitVec w) hi true
  unfold getBit
  rw [hy, Res.ok_bind]
  have hbit : ∀ k, k < w → (y &&& x).getLsbD k = (decide (k = i) && x.getLsbD i) := by
    intro k hkw
    rw [BitVec.getLsbD_and, hk k hkw]
    by_cases h : k = i
    · simp [h]
    · rw [if_neg h, decide_eq_false h]; simp
  cases hx : x.getLsbD i with
  | true =>
    rw [if_pos]
    · rfl
    · by_contra hc
      have h0 : y &&& x = 0 := BitVec.eq_of_toNat_eq (by simpa using hc)
      have := hbit i hi
      rw [h0, hx] at this
      simp at this
  | false =>
    rw [if_neg]
    · rfl
    · have h0 : y &&& x = 0 := by
        apply BitVec.eq_of_getLsbD_eq
        intro k hkw
        rw [hbit k hkw, hx]; simp
      rw [h0]; simp

/-- C43: reading after writing, for all widths and all positions inside the width. -/
theorem C43_get_set {w : Nat} (x : BitVec w) {i j : Nat} (hi : i < w) (hj : j < w) (b : Bool) :
    ∃ y, setBit x i b = .ok y ∧ (j = i → getBit y j = .ok b) ∧ (j ≠ i → getBit y j = getBit x j) := by
  obtain ⟨y, hy, hk⟩ := C43_set x hi b
  refine ⟨y, hy, fun h => ?_, fun h => ?_⟩
  · rw [C43_get y hj, hk j hj, if_pos h]
  · rw [C43_get y hj, C43_get x hj, hk j hj, if_neg h]

/-- Positions past the width: undefined for 32- and 64-bit types; for the narrower ones (promoted to `int`) positions up to
31 select no bit at all. -/
theorem C43_outside (b : Bool) :
    (∀ x : BitVec 32, ∀ i ≥ 32, setBit x i b = .ub) ∧ (∀ x : BitVec 64, ∀ i ≥ 64, setBit x i b = .ub) ∧
    (∀ x : BitVec 8, ∀ i ≥ 8, i < 32 → setBit x i b = .ok x ∧ getBit x i = .ok false) := by
  refine ⟨fun x i hi => ?_, fun x i hi => ?_, fun x i hi hlt => ?_⟩
  · unfold setBit; rw [if_pos (by omega)]
  · unfold setBit; rw [if_pos (by omega)]
  · have hm : BitVec.ofNat 8 (2 ^ i) = 0 := by
      apply BitVec.eq_of_toNat_eq
      rw [BitVec.toNat_ofNat]
      have : 2 ^ 8 ∣ 2 ^ i := Nat.pow_dvd_pow 2 hi
      simpa using Nat.mod_eq_zero_of_dvd this
    have hset : ∀ (z : BitVec 8) (b : Bool), setBit z i b = .ok z := by
      intro z b
      unfold setBit
      rw [if_neg (by omega), hm]
      cases b
      · rw [if_neg (by simp)]
        have : (~~~ (0 : BitVec 8)) = BitVec.allOnes 8 := rfl
        rw [this, BitVec.and_allOnes]
      · simp
    refine ⟨hset x b, ?_⟩
    unfold getBit
    rw [hset, Res.ok_bind, if_neg (by simp)]
    rfl

example : setBit (0x10 : BitVec 8) 7 true = .ok 0x90 ∧ getBit (0x90 : BitVec 8) 4 = .ok true := by decide

/-! ### C45 -/

variable [DecidableEq T]

theorem find_bump (m : List (T × Nat)) (k x : T) :
    find (bump m k) x = if k = x then some ((find m x).getD 0 + 1) else find m x := by
  induction m with
  | nil =>
    unfold bump find
    by_cases h : k = x
    · rw [if_pos h, if_pos h]; rfl
    · rw [if_neg h, if_neg h]; rfl
  | cons a m ih =>
    obtain ⟨k', n⟩ := a
    unfold bump
    by_cases h : k' = k
    · rw [if_pos h]
      subst h
      unfold find
      by_cases hx : k' = x
      · rw [if_pos hx, if_pos hx, if_pos hx]; rfl
      · rw [if_neg hx, if_neg hx, if_neg hx]
    · rw [if_neg h]
      unfold find
      by_cases hx : k' = x
      · have : k ≠ x := fun hc => h (hx.trans hc.symm)
        rw [if_pos hx, if_neg this, if_pos hx]
      · rw [if_neg hx, if_neg hx, ih]

theorem keys_bump (m : List (T × Nat)) (k : T) :
    (bump m k).map (·.1) = if k ∈ m.map (·.1) then m.map (·.1) else m.map (·.1) ++ [k] := by
  induction m with
  | nil => rfl
  | cons a m ih =>
    obtain ⟨k', n⟩ := a
    unfold bump
    by_cases h : k' = k
    · rw [if_pos h]; simp [h]
    · rw [if_neg h, List.map_cons, ih]
      have h' : k ≠ k' := fun hc => h hc.symm
      by_cases hm : k ∈ m.map (·.1)
      · rw [if_pos hm, if_pos (by simp only [List.map_cons, List.mem_cons]; exact .inr hm)]; rfl
      · rw [if_neg hm, if_neg (by simp only [List.map_cons, List.mem_cons]; exact fun hc => hc.elim h' hm)]; rfl

theorem find_none_iff {A : Type} (m : List (T × A)) (k : T) : find m k = none ↔ k ∉ m.map (·.1) := by
  induction m with
  | nil => simp [find]
  | cons a m ih =>
    obtain ⟨k', n⟩ := a
    unfold find
    by_cases h : k' = k
    · simp [h]
    · have h' : ¬ k = k' := fun hc => h hc.symm
      rw [if_neg h, ih, List.map_cons, List.mem_cons, not_or]
      exact ⟨fun a => ⟨h', a⟩, fun a => a.2⟩

theorem find_some_mem {A : Type} {m : List (T × A)} {k : T} {a : A} (h : find m k = some a) : (k, a) ∈ m := by
  induction m with
  | nil => cases h
  | cons x m ih =>
    obtain ⟨k', n⟩ := x
    unfold find at h
    split at h
    · rename_i hk; cases h; subst hk; simp
    · simp [ih h]

theorem find_of_mem {A : Type} {m : List (T × A)} (hn : (m.map (·.1)).Nodup) {k : T} {a : A} (h : (k, a) ∈ m) : find m k = some a := by
  induction m with
  | nil => cases h
  | cons x m ih =>
    obtain ⟨k', n⟩ := x
    rw [List.map_cons, List.nodup_cons] at hn
    unfold find
    rcases List.mem_cons.mp h with h | h
    · cases h; rw [if_pos rfl]
    · have : k' ≠ k := by
        rintro rfl
        exact hn.1 (List.mem_map.mpr ⟨_, h, rfl⟩)
      rw [if_neg this]; exact ih hn.2 h

/-- The counting map: distinct keys, exactly the members, with their multiplicities. -/
theorem countMap_spec (xs : List T) : ((countMap xs).map (·.1)).Nodup ∧ (∀ k, k ∈ (countMap xs).map (·.1) ↔ k ∈ xs) ∧
    ∀ k n, (k, n) ∈ countMap xs ↔ n = xs.count k ∧ k ∈ xs := by
  have gen : ∀ (ys : List T) (m : List (T × Nat)) (zs : List T), (m.map (·.1)).Nodup → (∀ k, k ∈ m.map (·.1) ↔ k ∈ zs) →
      (∀ k, find m k = if k ∈ zs then some (zs.count k) else none) →
      ((ys.foldl bump m).map (·.1)).Nodup ∧ (∀ k, k ∈ (ys.foldl bump m).map (·.1) ↔ k ∈ zs ++ ys) ∧
      (∀ k, find (ys.foldl bump m) k = if k ∈ zs ++ ys then some ((zs ++ ys).count k) else none) := by
    intro ys
    induction ys with
    | nil => intro m zs h1 h2 h3; rw [List.append_nil]; exact ⟨h1, h2, h3⟩
    | cons y ys ih =>
      intro m zs h1 h2 h3
      have := ih (bump m y) (zs ++ [y]) ?_ ?_ ?_
      · simpa using this
      · rw [keys_bump]
        split
        · exact h1
        · rename_i hc
          rw [List.nodup_append]
          exact ⟨h1, by simp, by intro a ha b hb; rw [List.mem_singleton] at hb; subst hb; exact fun hc' => hc (hc' ▸ ha)⟩
      · intro k
        rw [keys_bump]
        split
        · rename_i hc
          rw [h2 k, List.mem_append, List.mem_singleton]
          exact ⟨.inl, fun h => h.elim id (fun h => h ▸ (h2 y).mp hc)⟩
        · rw [List.mem_append, h2 k, List.mem_append]
      · intro k
        rw [find_bump, h3 k]
        by_cases hk : y = k
        · subst hk
          by_cases hz : y ∈ zs
          · simp [hz]
          · simp [hz, List.count_eq_zero_of_not_mem hz]
        · have : k ∈ zs ++ [y] ↔ k ∈ zs := by
            rw [List.mem_append, List.mem_singleton]
            exact ⟨fun h => h.elim id (fun hc => absurd hc.symm hk), .inl⟩
          simp only [if_neg hk, this]
          have hc : (zs ++ [y]).count k = zs.count k := by
            rw [List.count_append]; simp [List.count_singleton, hk]
          rw [hc]
  obtain ⟨h1, h2, h3⟩ := gen xs [] [] (by simp) (by simp) (by intro k; rfl)
  rw [List.nil_append] at h2
  refine ⟨h1, h2, fun k n => ?_⟩
  have h3' := h3 k
  rw [List.nil_append] at h3'
  constructor
  · intro hm
    have := find_of_mem h1 hm
    unfold countMap at this
    rw [h3'] at this
    split at this
    · rename_i hk; cases this; exact ⟨rfl, hk⟩
    · cases this
  · rintro ⟨rfl, hk⟩
    rw [if_pos hk] at h3'
    exact find_some_mem h3'

theorem find_countMap (xs : List T) (k : T) : find (countMap xs) k = if k ∈ xs then some (xs.count k) else none := by
  obtain ⟨h1, h2, h3⟩ := countMap_spec xs
  split
  · rename_i hk; exact find_of_mem h1 ((h3 k _).mpr ⟨rfl, hk⟩)
  · rename_i hk; rw [find_none_iff, h2]; exact hk

/-- The keys of the counting map of a sub-multiset are among those of the whole. -/
theorem countMap_length_le {xs ys : List T} (h : ∀ k ∈ xs, k ∈ ys) : (countMap xs).length ≤ (countMap ys).length := by
  obtain ⟨h1, h2, _⟩ := countMap_spec xs
  obtain ⟨_, k2, _⟩ := countMap_spec ys
  have := (h1.subperm (l₂ := (countMap ys).map (·.1)) (fun k hk => (k2 k).mpr (h k ((h2 k).mp hk)))).length_le
  simpa using this

/-- C45: `IsSubset` decides inclusion of multisets: every element occurs in the candidate at most as often as in the set. -/
theorem C45_subset (set candidate : List T) : isSubset set candidate = true ↔ candidate.Subperm set := by
  rw [List.subperm_ext_iff]
  obtain ⟨h1, h2, h3⟩ := countMap_spec candidate
  have hall : ((countMap candidate).all fun kc => match find (countMap set) kc.1 with
      | some n => !decide (kc.2 > n)
      | none => false) = true ↔ ∀ x ∈ candidate, candidate.count x ≤ set.count x := by
    rw [List.all_eq_true]
    constructor
    · intro h x hx
      have := h (x, candidate.count x) ((h3 x _).mpr ⟨rfl, hx⟩)
      rw [find_countMap] at this
      split at this
      · rename_i n he
        split at he
        · cases he
          simpa using this
        · cases he
      · cases this
    · rintro h ⟨k, n⟩ hm
      obtain ⟨rfl, hk⟩ := (h3 k n).mp hm
      have hc := h k hk
      have hpos := List.count_pos_iff.mpr hk
      have hset : k ∈ set := List.count_pos_iff.mp (by omega)
      rw [find_countMap, if_pos hset]
      simpa using hc
  unfold isSubset
  dsimp only
  constructor
  · intro h
    split at h
    · cases h
    · exact hall.mp h
  · intro h
    rw [if_neg]
    · exact hall.mpr h
    · have : ∀ k ∈ candidate, k ∈ set := by
        intro k hk
        have := h k hk
        have hpos := List.count_pos_iff.mpr hk
        exact List.count_pos_iff.mp (by omega)
      have := countMap_length_le this
      omega

/-- C45: `CollectionsEqual` decides equality of multisets. -/
theorem C45_equal (set1 set2 : List T) : collectionsEqual set1 set2 = true ↔ set1.Perm set2 := by
  obtain ⟨h1, h2, h3⟩ := countMap_spec set1
  have hall : ((countMap set1).all fun kc => match find (countMap set2) kc.1 with
      | some n => !decide (kc.2 ≠ n)
      | none => false) = true ↔ ∀ x ∈ set1, set1.count x = set2.count x := by
    rw [List.all_eq_true]
    constructor
    · intro h x hx
      have := h (x, set1.count x) ((h3 x _).mpr ⟨rfl, hx⟩)
      rw [find_countMap] at this
      split at this
      · rename_i n he
        split at he
        · cases he
          simpa using this
        · cases he
      · cases this
    · rintro h ⟨k, n⟩ hm
      obtain ⟨rfl, hk⟩ := (h3 k n).mp hm
      have hc := h k hk
      have hpos := List.count_pos_iff.mpr hk
      have hset : k ∈ set2 := List.count_pos_iff.mp (by omega)
      rw [find_countMap, if_pos hset]
      simpa using hc
  unfold collectionsEqual
  dsimp only
  constructor
  · intro h
    split at h
    · cases h
    · rename_i hl
      push Not at hl
      split at h
      · cases h
      · have hc := hall.mp h
        have hs : set1.Subperm set2 := List.subperm_ext_iff.mpr fun x hx => le_of_eq (hc x hx)
        exact hs.perm_of_length_le (by omega)
  · intro h
    have hmem : ∀ k, k ∈ set1 ↔ k ∈ set2 := fun k => h.mem_iff
    have hl1 := countMap_length_le (fun k hk => (hmem k).mp hk)
    have hl2 := countMap_length_le (fun k hk => (hmem k).mpr hk)
    rw [if_neg (by rw [h.length_eq]; simp), if_neg (by omega)]
    exact hall.mpr fun x _ => h.count_eq x

example : isSubset [1, 2, 2, 3] [2, 2] = true ∧ isSubset [1, 2, 3] [2, 2] = false ∧ collectionsEqual [1, 2, 2] [2, 1, 2] = true ∧
    collectionsEqual [1, 2, 2] [1, 1, 2] = false := by decide

/-! ### C61 -/

theorem find_assign {A : Type} (m : List (T × A)) (k x : T) (v : A) :
    find (assign m k v) x = if k = x then some v else find m x := by
  induction m with
  | nil => simp [assign, find]
  | cons a m ih =>
    obtain ⟨k', n⟩ := a
    unfold assign
    by_cases h : k' = k
    · rw [if_pos h]
      subst h
      unfold find
      by_cases hx : k' = x
      · simp [hx]
      · simp [hx]
    · rw [if_neg h]
      unfold find
      by_cases hx : k' = x
      · have : k ≠ x := fun hc => h (hx.trans hc.symm)
        simp [hx, this]
      · rw [if_neg hx, if_neg hx, ih]

theorem keys_assign {A : Type} (m : List (T × A)) (k : T) (v : A) :
    (assign m k v).map (·.1) = if k ∈ m.map (·.1) then m.map (·.1) else m.map (·.1) ++ [k] := by
  induction m with
  | nil => rfl
  | cons a m ih =>
    obtain ⟨k', n⟩ := a
    unfold assign
    by_cases h : k' = k
    · rw [if_pos h]; simp [h]
    · rw [if_neg h, List.map_cons, ih]
      have h' : k ≠ k' := fun hc => h hc.symm
      by_cases hm : k ∈ m.map (·.1)
      · rw [if_pos hm, if_pos (by simp only [List.map_cons, List.mem_cons]; exact .inr hm)]; rfl
      · rw [if_neg hm, if_neg (by simp only [List.map_cons, List.mem_cons]; exact fun hc => hc.elim h' hm)]; rfl

theorem foldl_assign {A : Type} (l : List (T × A)) : ∀ m : List (T × A),
    ((m.map (·.1)).Nodup → ((l.foldl (fun m kv => assign m kv.1 kv.2) m).map (·.1)).Nodup) ∧
    ∀ k, find (l.foldl (fun m kv => assign m kv.1 kv.2) m) k = (find l.reverse k).or (find m k) := by
  have find_app : ∀ (a b : List (T × A)) (k : T), find (a ++ b) k = (find a k).or (find b k) := by
    intro a b k
    induction a with
    | nil => simp [find]
    | cons x a ih =>
      obtain ⟨k', n⟩ := x
      rw [List.cons_append, find, find.eq_2 _ _ _ a]
      split
      · rfl
      · exact ih
  induction l with
  | nil => intro m; exact ⟨id, fun k => by simp [find]⟩
  | cons x l ih =>
    intro m
    obtain ⟨k', v⟩ := x
    obtain ⟨i1, i2⟩ := ih (assign m k' v)
    constructor
    · intro hn
      apply i1
      rw [keys_assign]
      split
      · exact hn
      · rename_i hc
        rw [List.nodup_append]
        exact ⟨hn, by simp, by intro a ha b hb; rw [List.mem_singleton] at hb; subst hb; exact fun hc' => hc (hc' ▸ ha)⟩
    · intro k
      rw [List.foldl_cons, i2 k, find_assign, List.reverse_cons, find_app, Option.or_assoc]
      congr 1
      unfold find
      split
      · simp
      · unfold find; simp

/-- C61: the map made from pairs has distinct keys and gives every key the value of its *last* pair; keys that do not occur
are absent, and `RetrieveOrDefault` then gives the default. -/
theorem C61_make_from_pairs {A : Type} (l : List (T × A)) :
    (getKeys (makeFromPairs l)).Nodup ∧
    (∀ pre k v post, l = pre ++ (k, v) :: post → k ∉ post.map (·.1) → ∀ d, retrieveOrDefault (makeFromPairs l) k d = v) ∧
    (∀ k, k ∉ l.map (·.1) → ∀ d, retrieveOrDefault (makeFromPairs l) k d = d) ∧
    (∀ k, k ∈ getKeys (makeFromPairs l) ↔ k ∈ l.map (·.1)) := by
  obtain ⟨h1, h2⟩ := foldl_assign l []
  have hf : ∀ k, find (makeFromPairs l) k = find l.reverse k := by
    intro k
    unfold makeFromPairs
    rw [h2 k]
    simp [find]
  have hnone : ∀ k, k ∉ l.map (·.1) → find l.reverse k = none := by
    intro k hk
    rw [find_none_iff]; simpa using hk
  refine ⟨h1 (by simp), ?_, ?_, ?_⟩
  · intro pre k v post hl hk d
    have : find l.reverse k = some v := by
      rw [hl, List.reverse_append, List.reverse_cons]
      have hp : ∀ (a b : List (T × A)), k ∉ a.map (·.1) → find (a ++ b) k = find b k := by
        intro a b ha
        induction a with
        | nil => rfl
        | cons x a ih =>
          obtain ⟨k', n⟩ := x
          simp only [List.map_cons, List.mem_cons, not_or] at ha
          rw [List.cons_append]
          rw [find, if_neg (fun hc => ha.1 hc.symm)]
          exact ih ha.2
      rw [List.append_assoc, hp _ _ (by simpa using hk)]
      simp [find]
    unfold retrieveOrDefault
    rw [hf, this]
  · intro k hk d
    unfold retrieveOrDefault
    rw [hf, hnone k hk]
  · intro k
    have := find_none_iff (makeFromPairs l) k
    rw [hf, find_none_iff] at this
    unfold getKeys
    have h' : k ∉ l.reverse.map (·.1) ↔ k ∉ l.map (·.1) := by simp
    rw [h'] at this
    exact (not_iff_not.mp this).symm

/-- C61: the two-container version is the pair version, and throws exactly when the lengths differ. -/
theorem C61_make_from_keys_values {A : Type} (keys : List T) (values : List A) :
    (keys.length = values.length → makeFromKeysValues keys values = .ok (makeFromPairs (keys.zip values))) ∧
    (keys.length ≠ values.length → makeFromKeysValues keys values = .throw .invalidArgument) := by
  unfold makeFromKeysValues makeFromPairs
  exact ⟨fun h => if_pos h, fun h => if_neg h⟩

/-- C61: taking a map apart and putting it together again gives the same map. -/
theorem C61_round_trip {A : Type} (m : List (T × A)) (hm : (getKeys m).Nodup) (k : T) (d : A) :
    retrieveOrDefault (makeFromPairs (getKeysAndValues m)) k d = retrieveOrDefault m k d ∧
    makeFromKeysValues (getKeys m) (m.map (·.2)) = .ok (makeFromPairs (getKeysAndValues m)) := by
  constructor
  · by_cases hk : k ∈ m.map (·.1)
    · obtain ⟨⟨k', v⟩, hmem, rfl⟩ := List.mem_map.mp hk
      obtain ⟨pre, post, hl⟩ := List.append_of_mem hmem
      have hf := find_of_mem hm hmem
      have hpost : k' ∉ post.map (·.1) := by
        have := hm
        unfold getKeys at this
        rw [hl, List.map_append, List.map_cons, List.nodup_append] at this
        exact (List.nodup_cons.mp this.2.1).1
      rw [(C61_make_from_pairs (getKeysAndValues m)).2.1 pre k' v post hl hpost d]
      unfold retrieveOrDefault
      rw [hf]
    · rw [(C61_make_from_pairs (getKeysAndValues m)).2.2.1 k hk d]
      unfold retrieveOrDefault
      rw [(find_none_iff m k).mpr hk]
  · rw [(C61_make_from_keys_values _ _).1 (by simp [getKeys])]
    congr 1
    unfold getKeys getKeysAndValues
    congr 1
    exact (List.zip_of_prod rfl rfl).symm

example : retrieveOrDefault (makeFromPairs [(1, "a"), (2, "b"), (1, "c")]) 1 "?" = "c" := by decide

end CRU.Util
