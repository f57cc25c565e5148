import Verif.Color.Model
import Mathlib.Tactic.Linarith
import Mathlib.Tactic.NormNum
/-
  C54, C75: colours.
-/
namespace CRU.Color
open CRU.Fl

/-! ### Specification -/

/-- A channel value between 0 and 1. -/
def InUnit (v : Flt) : Prop := ∃ x : ℚ, v = .fin x ∧ 0 ≤ x ∧ x ≤ 1

def RGBA.Valid (c : RGBA) : Prop := InUnit c.r ∧ InUnit c.g ∧ InUnit c.b ∧ InUnit c.a

/-- The value an operation stores is not NaN. -/
def Op.NotNan : Op → Prop
  | .setR v | .setG v | .setB v | .setA v => v ≠ .nan
  | _ => True

/-! ### Proofs -/

theorem trim_inUnit {v : Flt} (h : v ≠ .nan) : InUnit (trim v) := by
  unfold trim
  cases v with
  | nan => exact absurd rfl h
  | negInf => exact ⟨0, by simp [Flt.lt], le_refl _, zero_le_one⟩
  | posInf => exact ⟨1, by simp [Flt.lt], zero_le_one, le_refl _⟩
  | fin x =>
    split
    · exact ⟨0, rfl, le_refl _, zero_le_one⟩
    · rename_i h1
      split
      · exact ⟨1, rfl, zero_le_one, le_refl _⟩
      · rename_i h2
        exact ⟨x, rfl, not_lt.mp h1, not_lt.mp h2⟩

theorem trim_fix {x : ℚ} (h0 : 0 ≤ x) (h1 : x ≤ 1) : trim (.fin x) = .fin x := by
  unfold trim
  rw [if_neg (show ¬ (Flt.fin x).lt (.fin 0) from not_lt.mpr h0), if_neg (show ¬ (Flt.fin 1).lt (.fin x) from not_lt.mpr h1)]

theorem trim_fin (x : ℚ) : trim (.fin x) = .fin (if x < 0 then 0 else if 1 < x then 1 else x) := by
  unfold trim
  by_cases h : x < 0
  · rw [if_pos h, if_pos (show (Flt.fin x).lt (.fin 0) from h)]
  · rw [if_neg h, if_neg (show ¬ (Flt.fin x).lt (.fin 0) from h)]
    by_cases h1 : 1 < x
    · rw [if_pos h1, if_pos (show (Flt.fin 1).lt (.fin x) from h1)]
    · rw [if_neg h1, if_neg (show ¬ (Flt.fin 1).lt (.fin x) from h1)]

theorem trim_of_inUnit {v : Flt} (h : InUnit v) : trim v = v := by
  obtain ⟨x, rfl, h0, h1⟩ := h
  exact trim_fix h0 h1

/-- C54: trimming clamps to [0, 1]: the nearest end for a number or infinity outside, no change inside. -/
theorem C54_trim (v : Flt) (h : v ≠ .nan) : InUnit (trim v) ∧ (InUnit v → trim v = v) ∧ (v.lt (.fin 0) → trim v = .fin 0) ∧ ((Flt.fin 1).lt v → trim v = .fin 1) ∧
    trim (trim v) = trim v := by
  refine ⟨trim_inUnit h, trim_of_inUnit, fun h0 => ?_, fun h1 => ?_, trim_of_inUnit (trim_inUnit h)⟩
  · unfold trim
    rw [if_pos h0]
  · unfold trim
    rw [if_neg ?_, if_pos h1]
    cases v with
    | nan => exact absurd rfl h
    | negInf => simp [Flt.lt] at h1
    | posInf => simp [Flt.lt]
    | fin x =>
      have : (1 : ℚ) < x := h1
      exact not_lt.mpr (by linarith : (0 : ℚ) ≤ x)

example : trim .posInf = .fin 1 ∧ trim (.fin (1 / 2)) = .fin (1 / 2) :=
  ⟨(C54_trim .posInf (by simp)).2.2.2.1 (by simp [Flt.lt]), (C54_trim (.fin (1 / 2)) (by simp)).2.1 ⟨1 / 2, rfl, by norm_num, by norm_num⟩⟩

/-- C54 fails for NaN: it stays NaN, and its conversion to a byte is undefined. -/
theorem C54_nan_false (fl : ℚ → ℚ) : trim .nan = .nan ∧ toHex fl .nan = .ub := by
  refine ⟨rfl, rfl⟩

section
variable {fl : ℚ → ℚ} (hfl : Nearest 24 (-149) fl)
include hfl

theorem fl_int {i : Int} (h : |i| ≤ 2 ^ 24) : fl i = i := hfl.fix (rep_int (by norm_num) (by norm_num) h)
theorem fl_zero : fl 0 = 0 := by have := fl_int hfl (i := 0) (by norm_num); simpa using this
theorem fl_one : fl 1 = 1 := by have := fl_int hfl (i := 1) (by norm_num); simpa using this
theorem fl_255 : fl 255 = 255 := by have := fl_int hfl (i := 255) (by norm_num); simpa using this

theorem fl_unit {x : ℚ} (h0 : 0 ≤ x) (h1 : x ≤ 1) : 0 ≤ fl x ∧ fl x ≤ 1 ∧ |fl x - x| ≤ 1 / 2 ^ 24 := by
  refine ⟨?_, ?_, ?_⟩
  · rw [← fl_zero hfl]; exact hfl.mono h0
  · rw [← fl_one hfl]; exact hfl.mono h1
  · have := hfl.unit_err (by norm_num) (by norm_num) (x := x) (abs_le.mpr ⟨by linarith, h1⟩)
    refine le_trans this ?_
    norm_num

theorem fl_scaled {x : ℚ} (h0 : 0 ≤ x) (h1 : x ≤ 255) : 0 ≤ fl x ∧ fl x ≤ 255 ∧ |fl x - x| ≤ 1 / 2 ^ 16 := by
  refine ⟨?_, ?_, ?_⟩
  · rw [← fl_zero hfl]; exact hfl.mono h0
  · rw [← fl_255 hfl]; exact hfl.mono h1
  · have h := hfl.err (by norm_num) x
    refine le_trans h ?_
    have hm : max (-149 : Int) (Int.log 2 |x| + 1 - (24 : Nat)) ≤ -16 := by
      apply max_le (by norm_num)
      by_cases hx0 : |x| = 0
      · rw [hx0, Int.log_zero_right]; norm_num
      · have hpos : 0 < |x| := lt_of_le_of_ne (abs_nonneg x) (Ne.symm hx0)
        have : Int.log 2 |x| < 8 := by
          rw [← Int.lt_zpow_iff_log_lt (by norm_num) hpos, abs_of_nonneg h0]
          norm_num
          linarith
        omega
    have h2 : (2 : ℚ) ^ (max (-149 : Int) (Int.log 2 |x| + 1 - (24 : Nat))) ≤ 2 ^ (-16 : Int) := zpow_le_zpow_right₀ (by norm_num) hm
    have h3 : (2 : ℚ) ^ (-16 : Int) = 1 / 2 ^ 16 := by norm_num
    rw [h3] at h2
    have : (0 : ℚ) ≤ 1 / 2 ^ 16 := by norm_num
    linarith

theorem fromHex_inUnit (h : UInt8) : InUnit (fromHex fl h) := by
  have hl : ((h.toNat : Nat) : ℚ) ≤ 255 := by exact_mod_cast Nat.le_of_lt_succ h.toNat_lt
  have h0 : (0 : ℚ) ≤ (h.toNat : ℚ) := by positivity
  obtain ⟨a, b, _⟩ := fl_unit hfl (x := (h.toNat : ℚ) / 255) (by positivity) (by rw [div_le_one (by norm_num)]; exact hl)
  exact ⟨_, rfl, a, b⟩

/-- The byte for a channel value between 0 and 1: within half a step (and a rounding) of 255 times the value. -/
theorem toHex_spec {x : ℚ} (h0 : 0 ≤ x) (h1 : x ≤ 1) :
    ∃ h : UInt8, toHex fl (.fin x) = .ok h ∧ (h.toNat : ℚ) - 1 / 2 ≤ fl (x * 255) ∧ fl (x * 255) < (h.toNat : ℚ) + 1 / 2 := by
  obtain ⟨a, b, _⟩ := fl_scaled hfl (x := x * 255) (by linarith) (by linarith)
  unfold toHex
  rw [trim_fix h0 h1]
  dsimp only
  unfold roundAway
  rw [if_pos a]
  have f1 := Int.floor_le (fl (x * 255) + 1 / 2)
  have f2 := Int.lt_floor_add_one (fl (x * 255) + 1 / 2)
  generalize ⌊fl (x * 255) + 1 / 2⌋ = i at f1 f2
  have i0 : 0 ≤ i := by
    have : (-1 : ℚ) < i := by linarith
    have : (-1 : Int) < i := by exact_mod_cast this
    omega
  have i1 : i ≤ 255 := by
    have : (i : ℚ) < 256 := by linarith
    have : i < (256 : Int) := by exact_mod_cast this
    omega
  unfold castU8
  rw [if_pos ⟨i0, i1⟩]
  obtain ⟨n, rfl⟩ : ∃ n : Nat, i = n := ⟨i.toNat, by omega⟩
  have hn : (UInt8.ofNat n).toNat = n := by
    simp only [UInt8.toNat_ofNat']
    omega
  refine ⟨_, rfl, ?_, ?_⟩
  · rw [Int.toNat_natCast, hn]
    push_cast at f1
    linarith
  · rw [Int.toNat_natCast, hn]
    push_cast at f2
    linarith

omit hfl in
theorem u8_eq_of_near {h k : UInt8} (h1 : (h.toNat : ℚ) < k.toNat + 1) (h2 : (k.toNat : ℚ) < h.toNat + 1) : h = k := by
  have a : h.toNat < k.toNat + 1 := by exact_mod_cast h1
  have b : k.toNat < h.toNat + 1 := by exact_mod_cast h2
  exact UInt8.toNat_inj.mp (by omega)

/-- C54: a byte survives the conversion to a channel value and back; a channel value changes by less than one 509th; conversion is monotone and total. -/
theorem C54_round_trip :
    (∀ h : UInt8, toHex fl (fromHex fl h) = .ok h) ∧
    (∀ v : Flt, v ≠ .nan → ∃ h, toHex fl v = .ok h) ∧
    (∀ x : ℚ, 0 ≤ x → x ≤ 1 → ∃ h y, toHex fl (.fin x) = .ok h ∧ fromHex fl h = .fin y ∧ |y - x| < 1 / 509) ∧
    (∀ x y : ℚ, x ≤ y → ∃ h k : UInt8, toHex fl (.fin x) = .ok h ∧ toHex fl (.fin y) = .ok k ∧ h ≤ k) := by
  have total : ∀ v : Flt, v ≠ .nan → ∃ x : ℚ, 0 ≤ x ∧ x ≤ 1 ∧ trim v = .fin x ∧ toHex fl v = toHex fl (.fin x) := by
    intro v hv
    obtain ⟨x, e, h0, h1⟩ := trim_inUnit hv
    refine ⟨x, h0, h1, e, ?_⟩
    unfold toHex
    rw [e, trim_fix h0 h1]
  refine ⟨fun h => ?_, fun v hv => ?_, fun x h0 h1 => ?_, fun x y hxy => ?_⟩
  · have hl : ((h.toNat : Nat) : ℚ) ≤ 255 := by exact_mod_cast Nat.le_of_lt_succ h.toNat_lt
    have hp : (0 : ℚ) ≤ (h.toNat : ℚ) := by positivity
    obtain ⟨a, b, c⟩ := fl_unit hfl (x := (h.toNat : ℚ) / 255) (by positivity) (by rw [div_le_one (by norm_num)]; exact hl)
    obtain ⟨k, hk, k1, k2⟩ := toHex_spec hfl a b
    obtain ⟨_, _, c2⟩ := fl_scaled hfl (x := fl ((h.toNat : ℚ) / 255) * 255) (by linarith) (by linarith)
    unfold fromHex
    rw [hk]
    congr 1
    have e1 : fl ((h.toNat : ℚ) / 255) * 255 - h.toNat = 255 * (fl ((h.toNat : ℚ) / 255) - (h.toNat : ℚ) / 255) := by ring
    obtain ⟨c3, c4⟩ := abs_le.mp c
    obtain ⟨c5, c6⟩ := abs_le.mp c2
    norm_num at c3 c4 c5 c6
    apply u8_eq_of_near <;> linarith
  · obtain ⟨x, h0, h1, _, e⟩ := total v hv
    rw [e]
    obtain ⟨h, hh, _⟩ := toHex_spec hfl h0 h1
    exact ⟨h, hh⟩
  · obtain ⟨h, hh, k1, k2⟩ := toHex_spec hfl h0 h1
    refine ⟨h, _, hh, rfl, ?_⟩
    have hl : ((h.toNat : Nat) : ℚ) ≤ 255 := by exact_mod_cast Nat.le_of_lt_succ h.toNat_lt
    have hp : (0 : ℚ) ≤ (h.toNat : ℚ) := by positivity
    obtain ⟨_, _, c⟩ := fl_unit hfl (x := (h.toNat : ℚ) / 255) (by positivity) (by rw [div_le_one (by norm_num)]; exact hl)
    obtain ⟨_, _, c2⟩ := fl_scaled hfl (x := x * 255) (by linarith) (by linarith)
    obtain ⟨c3, c4⟩ := abs_le.mp c
    obtain ⟨c5, c6⟩ := abs_le.mp c2
    norm_num at c3 c4 c5 c6
    rw [abs_lt]
    have e1 : (h.toNat : ℚ) / 255 = (1 / 255) * h.toNat := by ring
    constructor <;> linarith
  · obtain ⟨a, a0, a1, ea, eah⟩ := total (.fin x) (by simp)
    obtain ⟨b, b0, b1, eb, ebh⟩ := total (.fin y) (by simp)
    have hab : a ≤ b := by
      rw [trim_fin, Flt.fin.injEq] at ea eb
      split_ifs at ea eb <;> linarith
    obtain ⟨h, hh, k1, k2⟩ := toHex_spec hfl a0 a1
    obtain ⟨k, hk, k3, k4⟩ := toHex_spec hfl b0 b1
    refine ⟨h, k, eah.trans hh, ebh.trans hk, ?_⟩
    have hm : fl (a * 255) ≤ fl (b * 255) := hfl.mono (by linarith)
    have : (h.toNat : ℚ) < k.toNat + 1 := by linarith
    have : h.toNat < k.toNat + 1 := by exact_mod_cast this
    exact UInt8.le_iff_toNat_le.mpr (by omega)

/-- C54: every colour built from bytes and from values that are not NaN, however changed by setters afterwards, has its channels in [0, 1], so all its bytes can be
read. -/
theorem C54_channels_valid (r g b a : Flt) (hr : r ≠ .nan) (hg : g ≠ .nan) (hb : b ≠ .nan) (ha : a ≠ .nan) (i j k l : UInt8) :
    (RGBA.ofFloats r g b a).Valid ∧ (RGBA.ofFloats3 r g b).Valid ∧ (RGBA.ofHex fl i j k l).Valid ∧ (RGBA.ofMixed fl i j k a).Valid ∧ (RGBA.ofHex3 fl i j k).Valid ∧
    RGBA.default.Valid ∧ (makeFromFloats r g b a).Valid ∧ (makeFromHex fl i j k l).Valid ∧ (makeFromMixed fl i j k a).Valid ∧
    ∀ (c : RGBA) (ops : List Op), c.Valid → (∀ op ∈ ops, op.NotNan) → (ops.foldl (Op.run fl) c).Valid ∧ convert (ops.foldl (Op.run fl) c) = ops.foldl (Op.run fl) c ∧
      ∃ w x y z, (ops.foldl (Op.run fl) c).rHex fl = .ok w ∧ (ops.foldl (Op.run fl) c).gHex fl = .ok x ∧ (ops.foldl (Op.run fl) c).bHex fl = .ok y ∧
        (ops.foldl (Op.run fl) c).aHex fl = .ok z := by
  have u1 : InUnit (.fin 1) := ⟨1, rfl, zero_le_one, le_refl _⟩
  have u0 : InUnit (.fin 0) := ⟨0, rfl, le_refl _, zero_le_one⟩
  have nn : ∀ {v : Flt}, InUnit v → v ≠ .nan := by
    rintro v ⟨x, rfl, _⟩ h
    cases h
  have F := fun h => fromHex_inUnit hfl h
  have T := fun {v : Flt} (h : v ≠ .nan) => trim_inUnit h
  refine ⟨⟨T hr, T hg, T hb, T ha⟩, ⟨T hr, T hg, T hb, u1⟩, ⟨F i, F j, F k, F l⟩, ⟨F i, F j, F k, T ha⟩, ⟨F i, F j, F k, u1⟩, ⟨u0, u0, u0, u0⟩, ⟨T hr, T hg, T hb, T ha⟩,
    ⟨T (nn (F i)), T (nn (F j)), T (nn (F k)), T (nn (F l))⟩, ⟨T (nn (F i)), T (nn (F j)), T (nn (F k)), T (nn (T ha))⟩, fun c ops hc hops => ?_⟩
  have hv : (ops.foldl (Op.run fl) c).Valid := by
    induction ops generalizing c with
    | nil => exact hc
    | cons op ops ih =>
      refine ih _ ?_ fun o ho => hops o (List.mem_cons_of_mem _ ho)
      have hop := hops op (List.mem_cons_self ..)
      obtain ⟨c1, c2, c3, c4⟩ := hc
      cases op with
      | setR v => exact ⟨T hop, c2, c3, c4⟩
      | setG v => exact ⟨c1, T hop, c3, c4⟩
      | setB v => exact ⟨c1, c2, T hop, c4⟩
      | setA v => exact ⟨c1, c2, c3, T hop⟩
      | setRHex h => exact ⟨F h, c2, c3, c4⟩
      | setGHex h => exact ⟨c1, F h, c3, c4⟩
      | setBHex h => exact ⟨c1, c2, F h, c4⟩
      | setAHex h => exact ⟨c1, c2, c3, F h⟩
  refine ⟨hv, ?_, ?_⟩
  · generalize ops.foldl (Op.run fl) c = d at hv
    obtain ⟨c1, c2, c3, c4⟩ := hv
    unfold convert
    rw [trim_of_inUnit c1, trim_of_inUnit c2, trim_of_inUnit c3, trim_of_inUnit c4]
  · have tot := (C54_round_trip hfl).2.1
    obtain ⟨w, hw⟩ := tot _ (nn hv.1)
    obtain ⟨x, hx⟩ := tot _ (nn hv.2.1)
    obtain ⟨y, hy⟩ := tot _ (nn hv.2.2.1)
    obtain ⟨z, hz⟩ := tot _ (nn hv.2.2.2)
    exact ⟨w, x, y, z, hw, hx, hy, hz⟩

/-- C54: the bytes a colour was built from or that were set are read back, each from its own channel; a setter leaves the other channels alone. -/
theorem C54_bytes (i j k l : UInt8) (a : Flt) :
    (∀ c ∈ [RGBA.ofHex fl i j k l, makeFromHex fl i j k l], c.rHex fl = .ok i ∧ c.gHex fl = .ok j ∧ c.bHex fl = .ok k ∧ c.aHex fl = .ok l) ∧
    (∀ c ∈ [RGBA.ofMixed fl i j k a, makeFromMixed fl i j k a, RGBA.ofHex3 fl i j k], c.rHex fl = .ok i ∧ c.gHex fl = .ok j ∧ c.bHex fl = .ok k) ∧
    (RGBA.ofHex3 fl i j k).aHex fl = .ok 255 ∧
    (∀ c : RGBA, ((Op.setRHex i).run fl c).rHex fl = .ok i ∧ ((Op.setGHex i).run fl c).gHex fl = .ok i ∧ ((Op.setBHex i).run fl c).bHex fl = .ok i ∧
      ((Op.setAHex i).run fl c).aHex fl = .ok i) ∧
    (∀ (c : RGBA) (op : Op), (op.run fl c).r = c.r ∨ (op.run fl c).g = c.g ∧ (op.run fl c).b = c.b ∧ (op.run fl c).a = c.a) ∧
    (∀ (c : RGBA) (op : Op), (op.run fl c).g = c.g ∨ (op.run fl c).r = c.r ∧ (op.run fl c).b = c.b ∧ (op.run fl c).a = c.a) ∧
    (∀ (c : RGBA) (op : Op), (op.run fl c).b = c.b ∨ (op.run fl c).r = c.r ∧ (op.run fl c).g = c.g ∧ (op.run fl c).a = c.a) := by
  have R := (C54_round_trip hfl).1
  have F := fun h => trim_of_inUnit (fromHex_inUnit hfl h)
  have h255 : toHex fl (.fin 1) = .ok 255 := by
    have := R 255
    unfold fromHex at this
    have e : ((UInt8.toNat 255 : Nat) : ℚ) / 255 = 1 := by
      show ((255 : Nat) : ℚ) / 255 = 1
      norm_num
    rwa [e, fl_one hfl] at this
  refine ⟨?_, ?_, h255, fun c => ⟨R i, R i, R i, R i⟩, ?_, ?_, ?_⟩
  · intro c hc
    simp only [List.mem_cons, List.not_mem_nil, or_false] at hc
    rcases hc with rfl | rfl
    · exact ⟨R i, R j, R k, R l⟩
    · simp only [makeFromHex, makeFromFloats, RGBA.rHex, RGBA.gHex, RGBA.bHex, RGBA.aHex, F]
      exact ⟨R i, R j, R k, R l⟩
  · intro c hc
    simp only [List.mem_cons, List.not_mem_nil, or_false] at hc
    rcases hc with rfl | rfl | rfl
    · exact ⟨R i, R j, R k⟩
    · simp only [makeFromMixed, makeFromFloats, RGBA.rHex, RGBA.gHex, RGBA.bHex, F]
      exact ⟨R i, R j, R k⟩
    · exact ⟨R i, R j, R k⟩
  all_goals
    intro c op
    cases op <;> simp [Op.run]

end

/-- There is such a rounding. -/
example : ∃ fl, Nearest 24 (-149) fl ∧ toHex fl (fromHex fl 127) = .ok 127 :=
  ⟨_, nearest_spec (by norm_num), (C54_round_trip (nearest_spec (by norm_num))).1 127⟩

/-! ### C75: hot to cold, and the palette -/

/-- The number clamped to [0, 1]. -/
def unitClamp (x : ℚ) : ℚ := max 0 (min 1 x)

/-- C75: for bounds in order the colour of a value at the fraction `t` of the way (values outside count as the ends): red rises from 0 to 1 in the third quarter, blue falls
from 1 to 0 in the second, green rises in the first and falls in the last; opaque. Reversed bounds are refused. -/
theorem C75_hot_to_cold {fl : ℚ → ℚ} (hfl : Nearest 24 (-149) fl) (value lo hi : ℚ) :
    (hi < lo → hotToCold fl value lo hi = .throw .invalidArgument) ∧
    (lo < hi → ∃ t : ℚ, t = unitClamp ((value - lo) / (hi - lo)) ∧ hotToCold fl value lo hi =
      .ok ⟨.fin (fl (unitClamp (4 * t - 2))), .fin (fl (min (unitClamp (4 * t)) (unitClamp (4 - 4 * t)))), .fin (fl (unitClamp (2 - 4 * t))), .fin 1⟩) := by
  refine ⟨fun h => ?_, fun h => ⟨_, rfl, ?_⟩⟩
  · unfold hotToCold
    rw [if_neg (not_le.mpr h)]
  · have hr : 0 < hi - lo := by linarith
    have h01 : (0 : ℚ) ≤ 1 := zero_le_one
    -- the clamped value
    obtain ⟨t, ht0, ht1, htv, htc⟩ : ∃ t : ℚ, 0 ≤ t ∧ t ≤ 1 ∧ (if value < lo then lo else if value > hi then hi else value) = lo + t * (hi - lo) ∧
        unitClamp ((value - lo) / (hi - lo)) = t := by
      split_ifs with h1 h2
      · refine ⟨0, le_refl _, h01, by ring, ?_⟩
        have : (value - lo) / (hi - lo) < 0 := div_neg_of_neg_of_pos (by linarith) hr
        unfold unitClamp
        rw [min_eq_right (by linarith), max_eq_left (by linarith)]
      · refine ⟨1, h01, le_refl _, by ring, ?_⟩
        have : 1 < (value - lo) / (hi - lo) := by rw [lt_div_iff₀ hr]; linarith
        unfold unitClamp
        rw [min_eq_left (by linarith), max_eq_right h01]
      · have a : 0 ≤ (value - lo) / (hi - lo) := div_nonneg (by linarith) hr.le
        have b : (value - lo) / (hi - lo) ≤ 1 := by rw [div_le_one hr]; linarith
        refine ⟨(value - lo) / (hi - lo), a, b, by field_simp; ring, ?_⟩
        unfold unitClamp
        rw [min_eq_right b, max_eq_right a]
    have cl : ∀ x : ℚ, 0 ≤ x → x ≤ 1 → unitClamp x = x := fun x a b => by unfold unitClamp; rw [min_eq_right b, max_eq_right a]
    have cl0 : ∀ x : ℚ, x ≤ 0 → unitClamp x = 0 := fun x a => by unfold unitClamp; rw [min_eq_right (by linarith), max_eq_left a]
    have cl1 : ∀ x : ℚ, 1 ≤ x → unitClamp x = 1 := fun x a => by unfold unitClamp; rw [min_eq_left a, max_eq_right h01]
    have q : ∀ {a x : ℚ}, a = x * (hi - lo) → quot a (hi - lo) = .fin x := by
      intro a x e
      unfold quot
      rw [if_neg hr.ne', e, mul_div_assoc, div_self hr.ne', mul_one]
    have tr : ∀ x : ℚ, 0 ≤ x → x ≤ 1 → trim (toFloat fl (.fin x)) = .fin (fl x) := by
      intro x a b
      obtain ⟨c, d, _⟩ := fl_unit hfl a b
      exact trim_fix c d
    have t1 : trim (Flt.fin 1) = .fin 1 := trim_fix h01 (le_refl _)
    unfold hotToCold
    rw [if_pos h.le]
    dsimp only
    rw [htv, htc]
    congr 1
    unfold hotToColdChannels makeFromFloats
    rw [t1]
    by_cases c1 : t < 1 / 4
    · have e1 : lo + t * (hi - lo) < lo + 1 / 4 * (hi - lo) := by
        have := mul_lt_mul_of_pos_right c1 hr
        linarith
      rw [if_pos e1, q (x := 4 * t) (by ring)]
      dsimp only
      rw [tr 0 (le_refl _) h01, tr (4 * t) (by linarith) (by linarith), tr 1 h01 (le_refl _), cl0 (4 * t - 2) (by linarith), cl (4 * t) (by linarith) (by linarith),
        cl1 (4 - 4 * t) (by linarith), cl1 (2 - 4 * t) (by linarith), min_eq_left (by linarith)]
    have e1 : ¬ lo + t * (hi - lo) < lo + 1 / 4 * (hi - lo) := by
      have := mul_le_mul_of_nonneg_right (not_lt.mp c1) hr.le
      linarith
    rw [if_neg e1]
    by_cases c2 : t < 1 / 2
    · have e2 : lo + t * (hi - lo) < lo + 1 / 2 * (hi - lo) := by
        have := mul_lt_mul_of_pos_right c2 hr
        linarith
      rw [if_pos e2, q (x := 1 - 4 * t) (by ring)]
      dsimp only [addOne]
      rw [tr 0 (le_refl _) h01, tr (1 + (1 - 4 * t)) (by linarith) (by linarith), tr 1 h01 (le_refl _), cl0 (4 * t - 2) (by linarith), cl1 (4 * t) (by linarith),
        cl1 (4 - 4 * t) (by linarith), cl (2 - 4 * t) (by linarith) (by linarith), min_self, show 1 + (1 - 4 * t) = 2 - 4 * t by ring]
    have e2 : ¬ lo + t * (hi - lo) < lo + 1 / 2 * (hi - lo) := by
      have := mul_le_mul_of_nonneg_right (not_lt.mp c2) hr.le
      linarith
    rw [if_neg e2]
    by_cases c3 : t < 3 / 4
    · have e3 : lo + t * (hi - lo) < lo + 3 / 4 * (hi - lo) := by
        have := mul_lt_mul_of_pos_right c3 hr
        linarith
      rw [if_pos e3, q (x := 4 * t - 2) (by ring)]
      dsimp only
      rw [tr 0 (le_refl _) h01, tr (4 * t - 2) (by linarith) (by linarith), tr 1 h01 (le_refl _), cl (4 * t - 2) (by linarith) (by linarith), cl1 (4 * t) (by linarith),
        cl1 (4 - 4 * t) (by linarith), cl0 (2 - 4 * t) (by linarith), min_self]
    have e3 : ¬ lo + t * (hi - lo) < lo + 3 / 4 * (hi - lo) := by
      have := mul_le_mul_of_nonneg_right (not_lt.mp c3) hr.le
      linarith
    rw [if_neg e3, q (x := 3 - 4 * t) (by ring)]
    dsimp only [addOne]
    rw [tr 0 (le_refl _) h01, tr (1 + (3 - 4 * t)) (by linarith) (by linarith), tr 1 h01 (le_refl _), cl1 (4 * t - 2) (by linarith), cl1 (4 * t) (by linarith),
      cl (4 - 4 * t) (by linarith) (by linarith), cl0 (2 - 4 * t) (by linarith), min_eq_right (by linarith), show 1 + (3 - 4 * t) = 4 - 4 * t by ring]

/-- C75: for bounds in order every channel is a number in [0, 1]. It fails for equal bounds: the green channel is NaN. -/
theorem C75_in_range_partial {fl : ℚ → ℚ} (hfl : Nearest 24 (-149) fl) (value lo hi : ℚ) (h : lo < hi) : ∃ c, hotToCold fl value lo hi = .ok c ∧ c.Valid := by
  obtain ⟨t, _, e⟩ := (C75_hot_to_cold hfl value lo hi).2 h
  refine ⟨_, e, ?_⟩
  have u : ∀ x, 0 ≤ unitClamp x ∧ unitClamp x ≤ 1 := fun x => ⟨le_max_left _ _, max_le zero_le_one (min_le_left _ _)⟩
  have f : ∀ x : ℚ, 0 ≤ x → x ≤ 1 → InUnit (.fin (fl x)) := fun x a b => ⟨_, rfl, (fl_unit hfl a b).1, (fl_unit hfl a b).2.1⟩
  exact ⟨f _ (u _).1 (u _).2, f _ (le_min (u _).1 (u _).1) (le_trans (min_le_left _ _) (u _).2), f _ (u _).1 (u _).2, ⟨1, rfl, zero_le_one, le_refl _⟩⟩

theorem C75_equal_bounds_false (fl : ℚ → ℚ) (value bound : ℚ) : ∃ c, hotToCold fl value bound bound = .ok c ∧ c.g = .nan := by
  unfold hotToCold
  rw [if_pos (le_refl _)]
  have e : (if value < bound then bound else if value > bound then bound else value) = bound := by
    split_ifs with a b
    · rfl
    · rfl
    · linarith [not_lt.mp a, not_lt.mp b]
  dsimp only
  rw [e]
  refine ⟨_, rfl, ?_⟩
  simp [hotToColdChannels, quot, addOne, toFloat, makeFromFloats, trim, Flt.lt]

example : ∃ fl, ∃ c, hotToCold fl 5 0 10 = .ok c ∧ c.Valid := ⟨_, C75_in_range_partial (nearest_spec (by norm_num)) 5 0 10 (by norm_num)⟩

theorem palette_get (n : Nat) : palette[n]? = none ∨ n < 20 := by
  by_cases h : n < 20
  · exact .inr h
  · exact .inl (List.getElem?_eq_none (by simpa [palette] using h))

/-- C75: code 0 is transparent white; codes 1 to 20 are twenty different colours, none of them black or white, with the given alpha; other codes are black with the given alpha. -/
theorem C75_unique_colors {fl : ℚ → ℚ} (hfl : Nearest 24 (-149) fl) (alpha : Flt) :
    lookupUnique fl 0 alpha = ⟨.fin 1, .fin 1, .fin 1, .fin 0⟩ ∧
    (∀ code, 20 < code → lookupUnique fl code alpha = ⟨.fin 0, .fin 0, .fin 0, trim alpha⟩) ∧
    (∀ code, 0 < code → code ≤ 20 → (lookupUnique fl code alpha).a = trim alpha ∧ ∃ r g b, (lookupUnique fl code alpha).rHex fl = .ok r ∧
      (lookupUnique fl code alpha).gHex fl = .ok g ∧ (lookupUnique fl code alpha).bHex fl = .ok b ∧ (r, g, b) ≠ (0, 0, 0) ∧ (r, g, b) ≠ (255, 255, 255)) ∧
    (∀ i j alpha', 0 < i → i ≤ 20 → 0 < j → j ≤ 20 → i ≠ j → ¬ ((lookupUnique fl i alpha).rHex fl = (lookupUnique fl j alpha').rHex fl ∧
      (lookupUnique fl i alpha).gHex fl = (lookupUnique fl j alpha').gHex fl ∧ (lookupUnique fl i alpha).bHex fl = (lookupUnique fl j alpha').bHex fl)) := by
  have h01 : (0 : ℚ) ≤ 1 := zero_le_one
  have t1 : trim (Flt.fin 1) = .fin 1 := trim_fix h01 (le_refl _)
  have t0 : trim (Flt.fin 0) = .fin 0 := trim_fix (le_refl _) h01
  have entry : ∀ code : UInt32, 0 < code → code ≤ 20 → ∃ n : Nat, ∃ hn : n < 20, code.toNat = n + 1 ∧ ∀ al : Flt,
      lookupUnique fl code al = makeFromMixed fl (palette[n]'hn).1 (palette[n]'hn).2.1 (palette[n]'hn).2.2 al := by
    intro code h0 h1
    have a : 0 < code.toNat := by simpa [UInt32.lt_iff_toNat_lt] using h0
    have b : code.toNat ≤ 20 := by simpa [UInt32.le_iff_toNat_le] using h1
    have hn : code.toNat - 1 < 20 := by omega
    refine ⟨code.toNat - 1, hn, by omega, fun al => ?_⟩
    unfold lookupUnique
    rw [if_neg (by intro h; rw [h] at a; simp at a), List.getElem?_eq_getElem (show code.toNat - 1 < palette.length from hn)]
    rfl
  have bytes : ∀ (i j k : UInt8) (al : Flt), (makeFromMixed fl i j k al).rHex fl = .ok i ∧ (makeFromMixed fl i j k al).gHex fl = .ok j ∧
      (makeFromMixed fl i j k al).bHex fl = .ok k := fun i j k al => (C54_bytes hfl i j k 0 al).2.1 _ (by simp)
  have tt : ∀ v, trim (trim v) = trim v := by
    intro v
    cases v with
    | nan => rfl
    | negInf => exact trim_of_inUnit (trim_inUnit (by simp))
    | posInf => exact trim_of_inUnit (trim_inUnit (by simp))
    | fin x => exact trim_of_inUnit (trim_inUnit (by simp))
  refine ⟨?_, fun code hc => ?_, fun code h0 h1 => ?_, fun i j al i0 i1 j0 j1 hij hc => ?_⟩
  · simp [lookupUnique, makeFromFloats, t1, t0]
  · have hc' : 20 < code.toNat := by simpa [UInt32.lt_iff_toNat_lt] using hc
    unfold lookupUnique
    rw [if_neg (by intro h; rw [h] at hc'; simp at hc'), (palette_get _).resolve_right (by omega)]
    simp [makeFromFloats, t0]
  · obtain ⟨n, hn, _, e⟩ := entry code h0 h1
    rw [e]
    obtain ⟨b1, b2, b3⟩ := bytes palette[n].1 palette[n].2.1 palette[n].2.2 alpha
    refine ⟨tt alpha, _, _, _, b1, b2, b3, ?_, ?_⟩
    · have : ∀ x ∈ palette, x ≠ (0, 0, 0) := by decide
      exact this _ (List.getElem_mem _)
    · have : ∀ x ∈ palette, x ≠ (255, 255, 255) := by decide
      exact this _ (List.getElem_mem _)
  · obtain ⟨n, hn, en, e⟩ := entry i i0 i1
    obtain ⟨m, hm, em, e'⟩ := entry j j0 j1
    rw [e, e'] at hc
    obtain ⟨b1, b2, b3⟩ := bytes palette[n].1 palette[n].2.1 palette[n].2.2 alpha
    obtain ⟨d1, d2, d3⟩ := bytes palette[m].1 palette[m].2.1 palette[m].2.2 al
    rw [b1, b2, b3, d1, d2, d3] at hc
    obtain ⟨q1, q2, q3⟩ := hc
    simp only [Res.ok.injEq] at q1 q2 q3
    have hnd : palette.Nodup := by decide
    have : palette[n] = palette[m] := Prod.ext q1 (Prod.ext q2 q3)
    have hnm := (List.Nodup.getElem_inj_iff hnd).mp this
    exact hij (UInt32.toNat_inj.mp (by omega))

/-- Two different floats never have a difference that rounds to zero (gradual underflow). -/
theorem sub_ne_zero_of_rep {fl : ℚ → ℚ} (hfl : Nearest 24 (-149) fl) {x y : ℚ} (hx : Rep 24 (-149) x) (hy : Rep 24 (-149) y) (h : x < y) :
    0 < fl (y - x) ∧ fl (x - y) < 0 := by
  obtain ⟨m, e, he, _, rfl⟩ := hx
  obtain ⟨m', e', he', _, rfl⟩ := hy
  have hz : ∀ (a : Int) (b : Int), (-149 : Int) ≤ b → ∃ k : Int, (a : ℚ) * 2 ^ b = k * 2 ^ (-149 : Int) := by
    intro a b hb
    obtain ⟨n, rfl⟩ : ∃ n : Nat, b = -149 + n := ⟨(b + 149).toNat, by omega⟩
    refine ⟨a * 2 ^ n, ?_⟩
    rw [zpow_add₀ (by norm_num), zpow_natCast]
    push_cast
    ring
  obtain ⟨k, hk⟩ := hz m e he
  obtain ⟨k', hk'⟩ := hz m' e' he'
  rw [hk, hk'] at h ⊢
  have hp : (0 : ℚ) < 2 ^ (-149 : Int) := two_zpow_pos _
  have hkk : k < k' := by
    have := (mul_lt_mul_iff_left₀ hp).mp h
    exact_mod_cast this
  have h1 : (2 : ℚ) ^ (-149 : Int) ≤ (k' : ℚ) * 2 ^ (-149 : Int) - (k : ℚ) * 2 ^ (-149 : Int) := by
    rw [← sub_mul]
    have : (1 : ℚ) ≤ (k' : ℚ) - k := by
      have : k + 1 ≤ k' := hkk
      have : ((k + 1 : Int) : ℚ) ≤ k' := by exact_mod_cast this
      push_cast at this
      linarith
    have := mul_le_mul_of_nonneg_right this hp.le
    linarith
  have h2 := hfl.mono h1
  have h3 := hfl.mono (x := (k : ℚ) * 2 ^ (-149 : Int) - (k' : ℚ) * 2 ^ (-149 : Int)) (y := -(2 : ℚ) ^ (-149 : Int)) (by linarith)
  rw [hfl.fix ⟨1, -149, le_refl _, by norm_num, by norm_num⟩] at h2
  rw [hfl.fix (x := -(2 : ℚ) ^ (-149 : Int)) ⟨-1, -149, le_refl _, by norm_num, by norm_num⟩] at h3
  exact ⟨by linarith, by linarith⟩

theorem diff_zero_iff {fl : ℚ → ℚ} (hfl : Nearest 24 (-149) fl) {x y : ℚ} (hx : Rep 24 (-149) x) (hy : Rep 24 (-149) y) : ¬ 0 < |fl (x - y)| ↔ x = y := by
  constructor
  · intro h
    by_contra hne
    rcases lt_or_gt_of_ne hne with hl | hl
    · exact h (abs_pos.mpr (sub_ne_zero_of_rep hfl hx hy hl).2.ne)
    · exact h (abs_pos.mpr (sub_ne_zero_of_rep hfl hy hx hl).1.ne')
  · rintro rfl
    rw [sub_self, fl_zero hfl, abs_zero]
    exact lt_irrefl _

theorem colorsEqual_iff (fl : ℚ → ℚ) (c d : RGBA) (t : Flt) : colorsEqual fl c d t = true ↔
    ¬ t.lt (absDiff fl c.r d.r) ∧ ¬ t.lt (absDiff fl c.g d.g) ∧ ¬ t.lt (absDiff fl c.b d.b) ∧ ¬ t.lt (absDiff fl c.a d.a) := by
  unfold colorsEqual
  split_ifs with h1 h2 h3 h4 <;> simp_all

/-- All channels are numbers that a `float` can hold. -/
def RGBA.IsRep (c : RGBA) : Prop := ∃ r g b a, c = ⟨.fin r, .fin g, .fin b, .fin a⟩ ∧ Rep 24 (-149) r ∧ Rep 24 (-149) g ∧ Rep 24 (-149) b ∧ Rep 24 (-149) a

/-- C75: with tolerance zero, colours are equal exactly if all their channels are equal numbers; a larger tolerance accepts no fewer. -/
theorem C75_colors_equal {fl : ℚ → ℚ} (hfl : Nearest 24 (-149) fl) {c d : RGBA} (hc : c.IsRep) (hd : d.IsRep) :
    (colorsEqual fl c d (.fin 0) = true ↔ c = d) ∧
    ∀ s t : ℚ, s ≤ t → colorsEqual fl c d (.fin s) = true → colorsEqual fl c d (.fin t) = true := by
  obtain ⟨r, g, b, a, rfl, hr, hg, hb, ha⟩ := hc
  obtain ⟨r', g', b', a', rfl, hr', hg', hb', ha'⟩ := hd
  have key : ∀ t : ℚ, colorsEqual fl ⟨.fin r, .fin g, .fin b, .fin a⟩ ⟨.fin r', .fin g', .fin b', .fin a'⟩ (.fin t) = true ↔
      ¬ t < |fl (r - r')| ∧ ¬ t < |fl (g - g')| ∧ ¬ t < |fl (b - b')| ∧ ¬ t < |fl (a - a')| := by
    intro t
    exact colorsEqual_iff fl _ _ (.fin t)
  refine ⟨?_, fun s t hst h => ?_⟩
  · rw [key, diff_zero_iff hfl hr hr', diff_zero_iff hfl hg hg', diff_zero_iff hfl hb hb', diff_zero_iff hfl ha ha']
    simp
  · rw [key] at h ⊢
    obtain ⟨h1, h2, h3, h4⟩ := h
    refine ⟨?_, ?_, ?_, ?_⟩ <;> intro hh
    · exact h1 (lt_of_le_of_lt hst hh)
    · exact h2 (lt_of_le_of_lt hst hh)
    · exact h3 (lt_of_le_of_lt hst hh)
    · exact h4 (lt_of_le_of_lt hst hh)

example : ∃ c d : RGBA, c.IsRep ∧ d.IsRep ∧ c ≠ d := by
  have h0 : Rep 24 (-149) 0 := ⟨0, 0, by norm_num, by norm_num, by norm_num⟩
  have h1 : Rep 24 (-149) 1 := ⟨1, 0, by norm_num, by norm_num, by norm_num⟩
  exact ⟨⟨.fin 0, .fin 0, .fin 0, .fin 0⟩, ⟨.fin 1, .fin 0, .fin 0, .fin 0⟩, ⟨0, 0, 0, 0, rfl, h0, h0, h0, h0⟩, ⟨1, 0, 0, 0, rfl, h1, h0, h0, h0⟩, by simp⟩

/-- A colour with a NaN channel is "equal" to one with any value there. -/
theorem C75_colors_equal_nan_false (fl : ℚ → ℚ) (h0 : fl 0 = 0) (v : Flt) : colorsEqual fl ⟨.nan, .fin 0, .fin 0, .fin 0⟩ ⟨v, .fin 0, .fin 0, .fin 0⟩ (.fin 0) = true := by
  have : ∀ v, absDiff fl .nan v = .nan := fun v => by cases v <;> rfl
  unfold colorsEqual
  dsimp only
  rw [this, if_neg (show ¬ (Flt.fin 0).lt .nan from id)]
  have e : absDiff fl (.fin 0) (.fin 0) = .fin 0 := by
    show Flt.fin |fl (0 - 0)| = _
    rw [sub_zero, h0, abs_zero]
  rw [e, if_neg (show ¬ (Flt.fin 0).lt (.fin 0) from lt_irrefl (0 : ℚ)), if_neg (show ¬ (Flt.fin 0).lt (.fin 0) from lt_irrefl (0 : ℚ)),
    if_neg (show ¬ (Flt.fin 0).lt (.fin 0) from lt_irrefl (0 : ℚ))]

example : colorsEqual (nearest 24 (-149)) ⟨.nan, .fin 0, .fin 0, .fin 0⟩ ⟨.fin 1, .fin 0, .fin 0, .fin 0⟩ (.fin 0) = true :=
  C75_colors_equal_nan_false _ (fl_zero (nearest_spec (by norm_num))) _

end CRU.Color
