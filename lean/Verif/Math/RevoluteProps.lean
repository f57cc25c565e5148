import Verif.Math.Revolute
import Mathlib.Analysis.SpecialFunctions.Trigonometric.Basic
/-
  C50: continuous revolute joints, in exact arithmetic.
-/
namespace CRU.Math
set_option linter.unusedSectionVars false

variable {K : Type} [Field K] [LinearOrder K] [IsStrictOrderedRing K] [FloorRing K]

theorem Congruent.refl (pi a : K) : Congruent pi a a := ⟨0, by simp⟩

theorem Congruent.symm {pi a b : K} (h : Congruent pi a b) : Congruent pi b a := by
  obtain ⟨k, rfl⟩ := h
  exact ⟨-k, by push_cast; ring⟩

theorem Congruent.trans {pi a b c : K} (h : Congruent pi a b) (h' : Congruent pi b c) : Congruent pi a c := by
  obtain ⟨k, rfl⟩ := h
  obtain ⟨l, rfl⟩ := h'
  exact ⟨k + l, by push_cast; ring⟩

theorem Congruent.add {pi a b c d : K} (h : Congruent pi a b) (h' : Congruent pi c d) : Congruent pi (a + c) (b + d) := by
  obtain ⟨k, rfl⟩ := h
  obtain ⟨l, rfl⟩ := h'
  exact ⟨k + l, by push_cast; ring⟩

theorem Congruent.sub {pi a b c d : K} (h : Congruent pi a b) (h' : Congruent pi c d) : Congruent pi (a - c) (b - d) := by
  obtain ⟨k, rfl⟩ := h
  obtain ⟨l, rfl⟩ := h'
  exact ⟨k - l, by push_cast; ring⟩

/-- Congruent angles less than a turn apart are equal. -/
theorem Congruent.eq {pi a b : K} (hp : 0 < pi) (h : Congruent pi a b) (h1 : b < a + 2 * pi) (h2 : a < b + 2 * pi) : a = b := by
  obtain ⟨k, rfl⟩ := h
  have hk1 : (k : K) < 1 := by
    by_contra hc
    push Not at hc
    nlinarith
  have hk2 : (-1 : K) < k := by
    by_contra hc
    push Not at hc
    nlinarith
  have e1 : k < 1 := by exact_mod_cast hk1
  have e2 : -1 < k := by exact_mod_cast hk2
  have : k = 0 := by omega
  subst this
  simp

theorem fmod_spec {x y : K} (hy : 0 < y) : (∃ n : Int, fmod x y = x - n * y) ∧ (0 ≤ x → 0 ≤ fmod x y ∧ fmod x y < y) ∧
    (x < 0 → -y < fmod x y ∧ fmod x y ≤ 0) := by
  have hxy : x = x / y * y := by field_simp
  refine ⟨⟨_, by unfold fmod; rw [mul_comm]⟩, fun hx => ?_, fun hx => ?_⟩
  · have h0 : 0 ≤ x / y := div_nonneg hx hy.le
    unfold fmod
    rw [if_pos h0]
    have h1 := Int.floor_le (x / y)
    have h2 := Int.lt_floor_add_one (x / y)
    constructor
    · nlinarith
    · nlinarith
  · have h0 : ¬0 ≤ x / y := not_le.mpr (div_neg_of_neg_of_pos hx hy)
    unfold fmod
    rw [if_neg h0]
    have h1 := Int.le_ceil (x / y)
    have h2 := Int.ceil_lt_add_one (x / y)
    constructor
    · nlinarith
    · nlinarith

/-- C50: every angle is mapped to the one congruent angle in [-pi, pi). -/
theorem C50_enforce {pi : K} (hp : 0 < pi) (v r : K) :
    enforce id pi v = r ↔ Congruent pi v r ∧ -pi ≤ r ∧ r < pi := by
  have key : Congruent pi v (enforce id pi v) ∧ -pi ≤ enforce id pi v ∧ enforce id pi v < pi := by
    have h2 : pi - -pi = 2 * pi := by ring
    obtain ⟨⟨n, hn⟩, hpos, hneg⟩ := fmod_spec (x := v - -pi) (y := 2 * pi) (by linarith)
    unfold enforce
    simp only [id, h2]
    by_cases hr : fmod (v - -pi) (2 * pi) ≥ 0
    · rw [if_pos hr]
      refine ⟨⟨-n, by rw [hn]; push_cast; ring⟩, by linarith, ?_⟩
      rcases le_or_gt 0 (v - -pi) with hx | hx
      · linarith [(hpos hx).2]
      · linarith [(hneg hx).2]
    · rw [if_neg hr]
      push Not at hr
      refine ⟨⟨1 - n, by rw [hn]; push_cast; ring⟩, ?_, by linarith⟩
      rcases le_or_gt 0 (v - -pi) with hx | hx
      · linarith [(hpos hx).1]
      · linarith [(hneg hx).1]
  constructor
  · rintro rfl; exact key
  · rintro ⟨h1, h2, h3⟩
    exact (key.1.symm.trans h1).eq hp (by linarith [key.2.1]) (by linarith [key.2.2])

example : enforce id (3 : ℚ) 10 = -2 := (C50_enforce (by norm_num) _ _).mpr ⟨⟨-2, by norm_num⟩, by norm_num, by norm_num⟩

theorem enforce_spec {pi : K} (hp : 0 < pi) (v : K) :
    Congruent pi v (enforce id pi v) ∧ -pi ≤ enforce id pi v ∧ enforce id pi v < pi := (C50_enforce hp v _).mp rfl

/-- C50: the result depends on the angle only up to full turns, and applying the function again changes nothing. -/
theorem C50_enforce_congruent {pi : K} (hp : 0 < pi) (a b : K) :
    (enforce id pi a = enforce id pi b ↔ Congruent pi a b) ∧ enforce id pi (enforce id pi a) = enforce id pi a := by
  have ha := enforce_spec hp a
  have hb := enforce_spec hp b
  refine ⟨⟨fun h => ?_, fun h => ?_⟩, ?_⟩
  · have h1 := ha.1
    rw [h] at h1
    exact h1.trans hb.1.symm
  · exact (C50_enforce hp a _).mpr ⟨h.trans hb.1, hb.2⟩
  · exact (C50_enforce hp _ _).mpr ⟨Congruent.refl _ _, ha.2⟩

/-- C50: the signed distance is the one angle in [-pi, pi) that is congruent to the difference of the angles; added to the first angle it
gives the second, up to full turns. -/
theorem C50_signed_distance {pi : K} (hp : 0 < pi) (p1 p2 d : K) :
    (signedDistance id pi p1 p2 = d ↔ Congruent pi (p2 - p1) d ∧ -pi ≤ d ∧ d < pi) ∧
    addRevolute id pi p1 (signedDistance id pi p1 p2) = enforce id pi p2 := by
  have h1 := enforce_spec hp p1
  have h2 := enforce_spec hp p2
  have hc : Congruent pi (p2 - p1) (enforce id pi p2 - enforce id pi p1) := h2.1.sub h1.1
  have hd : ∀ d, signedDistance id pi p1 p2 = d ↔ Congruent pi (p2 - p1) d ∧ -pi ≤ d ∧ d < pi := by
    intro d
    show enforce id pi (enforce id pi p2 - enforce id pi p1) = d ↔ _
    rw [C50_enforce hp]
    exact ⟨fun ⟨a, b⟩ => ⟨hc.trans a, b⟩, fun ⟨a, b⟩ => ⟨hc.symm.trans a, b⟩⟩
  refine ⟨hd d, ?_⟩
  have h3 := ((hd _).mp rfl).1
  show enforce id pi (p1 + signedDistance id pi p1 p2) = enforce id pi p2
  rw [(C50_enforce_congruent hp _ _).1]
  have h4 := (Congruent.refl pi p1).add h3
  rw [add_sub_cancel] at h4
  exact h4.symm

example : signedDistance id (3 : ℚ) 10 (-11) = -3 := ((C50_signed_distance (by norm_num) _ _ _).1).mpr ⟨⟨3, by norm_num⟩, by norm_num, by norm_num⟩

theorem signed_spec {pi : K} (hp : 0 < pi) (p1 p2 : K) : Congruent pi (p2 - p1) (signedDistance id pi p1 p2) ∧
    -pi ≤ signedDistance id pi p1 p2 ∧ signedDistance id pi p1 p2 < pi := (C50_signed_distance hp p1 p2 _).1.mp rfl

/-- An angle in [-pi, pi] is the shortest among its congruent angles. -/
theorem abs_least {pi a b : K} (hp : 0 < pi) (h : Congruent pi a b) (h1 : -pi ≤ a) (h2 : a ≤ pi) : |a| ≤ |b| := by
  obtain ⟨k, rfl⟩ := h
  have ha : |a| ≤ pi := abs_le.mpr ⟨h1, h2⟩
  by_cases hk : k = 0
  · subst hk; simp
  · rcases lt_or_gt_of_ne hk with hk | hk
    · have e : (k : K) ≤ -1 := by exact_mod_cast (by omega : k ≤ -1)
      have : a + k * (2 * pi) ≤ a - 2 * pi := by nlinarith
      rw [abs_of_nonpos (a := a + k * (2 * pi)) (by linarith)]
      rcases abs_cases a with ⟨c, _⟩ | ⟨c, _⟩ <;> rw [c] <;> linarith
    · have e : (1 : K) ≤ k := by exact_mod_cast (by omega : 1 ≤ k)
      have : a + 2 * pi ≤ a + k * (2 * pi) := by nlinarith
      rw [abs_of_nonneg (a := a + k * (2 * pi)) (by linarith)]
      rcases abs_cases a with ⟨c, _⟩ | ⟨c, _⟩ <;> rw [c] <;> linarith

/-- C50: the distance is the length of the shortest turn from one angle to the other: some angle of that length turns the first
into the second, and none that is shorter. It is a metric on the angles up to full turns. -/
theorem C50_distance {pi : K} (hp : 0 < pi) (a b c : K) :
    (∃ t, Congruent pi (a + t) b ∧ |t| = distance id pi a b) ∧ (∀ t, Congruent pi (a + t) b → distance id pi a b ≤ |t|) ∧
    distance id pi a b ≤ pi ∧ (distance id pi a b = 0 ↔ Congruent pi a b) ∧ distance id pi a b = distance id pi b a ∧
    distance id pi a c ≤ distance id pi a b + distance id pi b c := by
  have ex : ∀ a b : K, ∃ t, Congruent pi (a + t) b ∧ |t| = distance id pi a b := by
    intro a b
    refine ⟨signedDistance id pi a b, ?_, rfl⟩
    have h4 := (Congruent.refl pi a).add (signed_spec hp a b).1
    rw [add_sub_cancel] at h4
    exact h4.symm
  have least : ∀ a b t : K, Congruent pi (a + t) b → distance id pi a b ≤ |t| := by
    intro a b t ht
    have hs := signed_spec hp a b
    refine abs_least hp ?_ hs.2.1 hs.2.2.le
    have h5 := ht.symm.sub (Congruent.refl pi a)
    rw [add_sub_cancel_left] at h5
    exact hs.1.symm.trans h5
  have hsym : ∀ a b : K, distance id pi a b ≤ distance id pi b a := by
    intro a b
    obtain ⟨t, ht, he⟩ := ex b a
    rw [← he, ← abs_neg]
    refine least a b (-t) ?_
    have h5 := ht.symm.sub (Congruent.refl pi t)
    rwa [add_sub_cancel_right, sub_eq_add_neg] at h5
  refine ⟨ex a b, least a b, ?_, ⟨fun h => ?_, fun h => ?_⟩, le_antisymm (hsym a b) (hsym b a), ?_⟩
  · have hs := signed_spec hp a b
    exact abs_le.mpr ⟨hs.2.1, hs.2.2.le⟩
  · obtain ⟨t, ht, he⟩ := ex a b
    rw [h, abs_eq_zero] at he
    rwa [he, add_zero] at ht
  · have := least a b 0 (by rwa [add_zero])
    rw [abs_zero] at this
    exact le_antisymm this (abs_nonneg _)
  · obtain ⟨s, hs, es⟩ := ex a b
    obtain ⟨t, ht, et⟩ := ex b c
    rw [← es, ← et]
    refine le_trans (least a c (s + t) ?_) (abs_add_le s t)
    have h5 := (hs.add (Congruent.refl pi t)).trans ht
    rwa [add_assoc] at h5

example : distance id (3 : ℚ) (-2) 2 = 2 := by
  show |signedDistance id (3 : ℚ) (-2) 2| = 2
  rw [((C50_signed_distance (by norm_num) (-2) 2 (-2)).1).mpr ⟨⟨-1, by norm_num⟩, by norm_num, by norm_num⟩]
  norm_num

/-- C50: the range from `start` to `stop` is the counter-clockwise turn in [0, 2 pi) that leads from `start` to `stop`. -/
theorem C50_range {pi : K} (hp : 0 < pi) (start stop r : K) :
    getRange id pi start stop = r ↔ 0 ≤ r ∧ r < 2 * pi ∧ Congruent pi (start + r) stop := by
  have key : 0 ≤ getRange id pi start stop ∧ getRange id pi start stop < 2 * pi ∧ Congruent pi (start + getRange id pi start stop) stop := by
    have hs := signed_spec hp start stop
    have hc : Congruent pi (start + signedDistance id pi start stop) stop := by
      have h4 := (Congruent.refl pi start).add hs.1
      rw [add_sub_cancel] at h4
      exact h4.symm
    unfold getRange
    dsimp only [id]
    split
    · rename_i h
      exact ⟨h, by linarith, hc⟩
    · rename_i h
      push Not at h
      refine ⟨by linarith, by linarith, Congruent.trans ⟨-1, ?_⟩ hc⟩
      push_cast; ring
  constructor
  · rintro rfl; exact key
  · rintro ⟨h1, h2, h3⟩
    have h4 := (key.2.2.trans h3.symm).sub (Congruent.refl pi start)
    rw [add_sub_cancel_left, add_sub_cancel_left] at h4
    exact h4.eq hp (by linarith [key.1]) (by linarith [key.2.1])

/-- C50: `CheckInContinuousRevoluteRange` is true exactly for the angles on the arc of length `range` that begins at `start`. -/
theorem C50_check_range {pi : K} (hp : 0 < pi) (start range val : K) :
    checkInRange id pi start range val = true ↔ OnArc pi start range val := by
  have e1 : signedDistance id pi (enforce id pi start) (enforce id pi val) = signedDistance id pi start val := by
    unfold signedDistance
    dsimp only
    rw [(C50_enforce_congruent hp start start).2, (C50_enforce_congruent hp val val).2]
  have e2 : checkInRange id pi start range val = decide (getRange id pi start val ≤ range) := by
    unfold checkInRange getRange
    dsimp only
    rw [e1]
    split
    · by_cases h : signedDistance id pi start val ≤ range <;> simp [h]
    · by_cases h : id (id (2 * pi) + signedDistance id pi start val) ≤ range
      · rw [if_pos h, decide_eq_true h]
      · rw [if_neg h, decide_eq_false h]
  obtain ⟨h1, h2, h3⟩ := (C50_range hp start val _).mp rfl
  rw [e2, decide_eq_true_iff]
  constructor
  · intro h
    exact ⟨_, h1, h, h3⟩
  · rintro ⟨t, t0, t1, tc⟩
    by_contra hc
    push Not at hc
    have := (C50_range hp start val t).mpr ⟨t0, by linarith, tc⟩
    rw [this] at hc
    linarith

example : checkInRange id (3 : ℚ) 2 3 (-2) = true := (C50_check_range (by norm_num) _ _ _).mpr
  ⟨2, by norm_num, by norm_num, -1, by norm_num⟩

/-- C50: `CheckInContinuousRevoluteBounds` is true exactly for the angles passed on the counter-clockwise way from `start` to `stop`
(which is shorter than a full turn); it does not change when full turns are added to any argument. -/
theorem C50_check_bounds {pi : K} (hp : 0 < pi) (start stop val : K) :
    (∃ r, 0 ≤ r ∧ r < 2 * pi ∧ Congruent pi (start + r) stop ∧ (checkInBounds id pi start stop val = true ↔ OnArc pi start r val)) ∧
    (∀ start' stop' val', Congruent pi start start' → Congruent pi stop stop' → Congruent pi val val' →
      checkInBounds id pi start' stop' val' = checkInBounds id pi start stop val) := by
  obtain ⟨h1, h2, h3⟩ := (C50_range hp start stop _).mp rfl
  refine ⟨⟨_, h1, h2, h3, C50_check_range hp _ _ _⟩, ?_⟩
  intro start' stop' val' ha hb hv
  have hr : getRange id pi start' stop' = getRange id pi start stop := by
    rw [C50_range hp]
    exact ⟨h1, h2, ((ha.symm.add (Congruent.refl pi _)).trans h3).trans hb⟩
  unfold checkInBounds
  rw [hr, Bool.eq_iff_iff, C50_check_range hp, C50_check_range hp]
  constructor
  · rintro ⟨t, t0, t1, tc⟩
    exact ⟨t, t0, t1, ((ha.add (Congruent.refl pi _)).trans tc).trans hv.symm⟩
  · rintro ⟨t, t0, t1, tc⟩
    exact ⟨t, t0, t1, ((ha.symm.add (Congruent.refl pi _)).trans tc).trans hv⟩

/-- C50: interpolation starts at the first angle, ends at the second, never throws, and moves along the shortest turn at constant
speed: at ratio `r` (clamped to [0, 1]) the signed distance already covered is `r` times the whole. -/
theorem C50_interpolate {pi : K} (hp : 0 < pi) (p1 p2 ratio : K) :
    ∃ q, interpolateRevolute id pi p1 p2 ratio = .ok q ∧ -pi ≤ q ∧ q < pi ∧
      (ratio ≤ 0 → q = enforce id pi p1) ∧ (1 ≤ ratio → q = enforce id pi p2) ∧
      (0 ≤ ratio → ratio ≤ 1 → signedDistance id pi p1 q = ratio * signedDistance id pi p1 p2) := by
  have main : ∀ r, Util.clampValue ratio 0 1 = .ok r → 0 ≤ r → r ≤ 1 → ∃ q, interpolateRevolute id pi p1 p2 ratio = .ok q ∧ -pi ≤ q ∧ q < pi ∧
      (r = 0 → q = enforce id pi p1) ∧ (r = 1 → q = enforce id pi p2) ∧
      (signedDistance id pi p1 q = r * signedDistance id pi p1 p2) := by
    intro r hr h0 h1
    have hs := signed_spec hp p1 p2
    have hq := enforce_spec hp (p1 + signedDistance id pi p1 p2 * r)
    refine ⟨enforce id pi (p1 + signedDistance id pi p1 p2 * r), ?_, hq.2.1, hq.2.2, ?_, ?_, ?_⟩
    · unfold interpolateRevolute
      rw [hr]
      rfl
    · rintro rfl
      rw [mul_zero, add_zero]
    · rintro rfl
      rw [mul_one]
      exact (C50_signed_distance hp p1 p2 0).2
    · rw [(C50_signed_distance hp _ _ _).1]
      refine ⟨?_, ?_, ?_⟩
      · have h5 := hq.1.symm.sub (Congruent.refl pi p1)
        rw [add_sub_cancel_left, mul_comm (signedDistance id pi p1 p2) r] at h5
        rw [mul_comm (signedDistance id pi p1 p2) r]
        exact h5
      · nlinarith
      · nlinarith
  unfold Util.clampValue at main
  rw [if_pos (by norm_num)] at main
  by_cases h0 : ratio < 0
  · obtain ⟨q, a, b, c, d, e, f⟩ := main 0 (by rw [if_pos h0]) (le_refl _) (by norm_num)
    exact ⟨q, a, b, c, fun _ => d rfl, fun h => by linarith, fun h => by linarith⟩
  · by_cases h1 : ratio > 1
    · obtain ⟨q, a, b, c, d, e, f⟩ := main 1 (by rw [if_neg h0, if_pos h1]) (by norm_num) (le_refl _)
      exact ⟨q, a, b, c, fun h => by linarith, fun _ => e rfl, fun _ h => by linarith⟩
    · push Not at h0 h1
      obtain ⟨q, a, b, c, d, e, f⟩ := main ratio (by rw [if_neg (not_lt.mpr h0), if_neg (not_lt.mpr h1)]) h0 h1
      exact ⟨q, a, b, c, fun h => d (le_antisymm h h0), fun h => e (le_antisymm h1 h), fun _ _ => f⟩

/-- Half way from 2 to -2 (with pi = 3), the angle is 3, i.e. -3. -/
example : interpolateRevolute id (3 : ℚ) 2 (-2) (1 / 2) = .ok (-3) := by
  obtain ⟨q, hq, h1, h2, _, _, h3⟩ := C50_interpolate (pi := (3 : ℚ)) (by norm_num) 2 (-2) (1 / 2)
  have h4 := h3 (by norm_num) (by norm_num)
  rw [((C50_signed_distance (by norm_num) (2 : ℚ) (-2) 2).1).mpr ⟨⟨1, by norm_num⟩, by norm_num, by norm_num⟩] at h4
  obtain ⟨⟨k, hk⟩, _, _⟩ := ((C50_signed_distance (pi := (3 : ℚ)) (by norm_num) 2 q _).1).mp h4
  have : q = -3 := by
    have hk' : (k : ℚ) * 6 = 3 - q := by linarith
    have k1 : (k : ℚ) < 2 := by linarith
    have k2 : (0 : ℚ) < k := by linarith
    have k1' : k < 2 := by exact_mod_cast k1
    have k2' : 0 < k := by exact_mod_cast k2
    have : k = 1 := by omega
    subst this
    push_cast at hk'
    linarith
  rw [hq, this]

/-- The theorems apply to the real numbers with the real π. -/
example (v : ℝ) : -Real.pi ≤ enforce id Real.pi v ∧ enforce id Real.pi v < Real.pi := (enforce_spec Real.pi_pos v).2

end CRU.Math
