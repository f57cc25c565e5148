import Verif.Base
import Verif.Float
import Mathlib.Algebra.Order.Round
/-
  color_builder.hpp. `float` values are rationals, two infinities and NaN; `fl` is the rounding to binary32 (any rounding to nearest with 24 bits), which the results in
  the range of the program do not overflow.
-/
namespace CRU.Color
open CRU.Fl

/-- A `float`. -/
inductive Flt where
  | nan
  | negInf
  | posInf
  | fin (x : ℚ)

/-- `a < b`. -/
def Flt.lt : Flt → Flt → Prop
  | .nan, _ => False
  | _, .nan => False
  | .negInf, .negInf => False
  | .negInf, _ => True
  | _, .negInf => False
  | .posInf, _ => False
  | .fin _, .posInf => True
  | .fin a, .fin b => a < b

instance : ∀ a b : Flt, Decidable (a.lt b)
  | .nan, _ => .isFalse (by simp [Flt.lt])
  | .negInf, .nan => .isFalse (by simp [Flt.lt])
  | .negInf, .negInf => .isFalse (by simp [Flt.lt])
  | .negInf, .posInf => .isTrue (by simp [Flt.lt])
  | .negInf, .fin _ => .isTrue (by simp [Flt.lt])
  | .posInf, .nan => .isFalse (by simp [Flt.lt])
  | .posInf, .negInf => .isFalse (by simp [Flt.lt])
  | .posInf, .posInf => .isFalse (by simp [Flt.lt])
  | .posInf, .fin _ => .isFalse (by simp [Flt.lt])
  | .fin _, .nan => .isFalse (by simp [Flt.lt])
  | .fin _, .negInf => .isFalse (by simp [Flt.lt])
  | .fin _, .posInf => .isTrue (by simp [Flt.lt])
  | .fin a, .fin b => inferInstanceAs (Decidable (a < b))

/-- color_builder.hpp:21-24 `TrimColorValue`, with utility.hpp:270-308 `ClampValue` for the bounds 0 and 1. -/
def trim (v : Flt) : Flt := if v.lt (.fin 0) then .fin 0 else if (Flt.fin 1).lt v then .fin 1 else v

/-- color_builder.hpp:15-18 `ColorChannelFromHex`. -/
def fromHex (fl : ℚ → ℚ) (h : UInt8) : Flt := .fin (fl ((h.toNat : ℚ) / 255))

/-- `std::round`: to the nearest integer, halves away from zero. -/
def roundAway (x : ℚ) : Int := if 0 ≤ x then ⌊x + 1 / 2⌋ else ⌈x - 1 / 2⌉

/-- `static_cast<uint8_t>` of a floating-point value that is an integer: undefined out of range. -/
def castU8 (i : Int) : Res UInt8 := if 0 ≤ i ∧ i ≤ 255 then .ok (UInt8.ofNat i.toNat) else .ub

/-- color_builder.hpp:27-30 `ColorChannelToHex`. The conversion of NaN is undefined. -/
def toHex (fl : ℚ → ℚ) (v : Flt) : Res UInt8 :=
  match trim v with
  | .fin x => castU8 (roundAway (fl (x * 255)))
  | _ => .ub

/-- color_builder.hpp:34-101 `RGBAColor`. -/
structure RGBA where
  r : Flt
  g : Flt
  b : Flt
  a : Flt

/-- color_builder.hpp:43-46. -/
def RGBA.ofFloats (r g b a : Flt) : RGBA := ⟨trim r, trim g, trim b, trim a⟩
/-- color_builder.hpp:48-50. -/
def RGBA.ofFloats3 (r g b : Flt) : RGBA := ⟨trim r, trim g, trim b, .fin 1⟩
/-- color_builder.hpp:52-55. -/
def RGBA.ofHex (fl : ℚ → ℚ) (r g b a : UInt8) : RGBA := ⟨fromHex fl r, fromHex fl g, fromHex fl b, fromHex fl a⟩
/-- color_builder.hpp:57-60. -/
def RGBA.ofMixed (fl : ℚ → ℚ) (r g b : UInt8) (a : Flt) : RGBA := ⟨fromHex fl r, fromHex fl g, fromHex fl b, trim a⟩
/-- color_builder.hpp:62-64. -/
def RGBA.ofHex3 (fl : ℚ → ℚ) (r g b : UInt8) : RGBA := ⟨fromHex fl r, fromHex fl g, fromHex fl b, .fin 1⟩
/-- color_builder.hpp:66. -/
def RGBA.default : RGBA := ⟨.fin 0, .fin 0, .fin 0, .fin 0⟩

/-- The setters of color_builder.hpp:76-101. -/
inductive Op where
  | setR (v : Flt) | setG (v : Flt) | setB (v : Flt) | setA (v : Flt)
  | setRHex (h : UInt8) | setGHex (h : UInt8) | setBHex (h : UInt8) | setAHex (h : UInt8)

/-- color_builder.hpp:76-82 and 92-98. -/
def Op.run (fl : ℚ → ℚ) (c : RGBA) : Op → RGBA
  | .setR v => { c with r := trim v }
  | .setG v => { c with g := trim v }
  | .setB v => { c with b := trim v }
  | .setA v => { c with a := trim v }
  | .setRHex h => { c with r := fromHex fl h }
  | .setGHex h => { c with g := fromHex fl h }
  | .setBHex h => { c with b := fromHex fl h }
  | .setAHex h => { c with a := fromHex fl h }

/-- color_builder.hpp:84-90 `GetRHex`, ... -/
def RGBA.rHex (fl : ℚ → ℚ) (c : RGBA) : Res UInt8 := toHex fl c.r
/-- (color_builder.hpp:84-90) -/
def RGBA.gHex (fl : ℚ → ℚ) (c : RGBA) : Res UInt8 := toHex fl c.g
/-- (color_builder.hpp:84-90) -/
def RGBA.bHex (fl : ℚ → ℚ) (c : RGBA) : Res UInt8 := toHex fl c.b
/-- (color_builder.hpp:84-90) -/
def RGBA.aHex (fl : ℚ → ℚ) (c : RGBA) : Res UInt8 := toHex fl c.a

/-- color_builder.hpp:105-115 `MakeFromFloatColors`. -/
def makeFromFloats (r g b a : Flt) : RGBA := { r := trim r, g := trim g, b := trim b, a := trim a }

/-- color_builder.hpp:119-126 `MakeFromHexColors`. -/
def makeFromHex (fl : ℚ → ℚ) (r g b a : UInt8) : RGBA := makeFromFloats (fromHex fl r) (fromHex fl g) (fromHex fl b) (fromHex fl a)

/-- color_builder.hpp:131-138 `MakeFromMixedColors`. -/
def makeFromMixed (fl : ℚ → ℚ) (r g b : UInt8) (a : Flt) : RGBA := makeFromFloats (fromHex fl r) (fromHex fl g) (fromHex fl b) (trim a)

/-- color_builder.hpp:184-194 `ConvertColor`. -/
def convert (c : RGBA) : RGBA := { r := trim c.r, g := trim c.g, b := trim c.b, a := trim c.a }

/-- `std::abs(a - b)`. -/
def absDiff (fl : ℚ → ℚ) : Flt → Flt → Flt
  | .nan, _ => .nan
  | _, .nan => .nan
  | .posInf, .posInf => .nan
  | .negInf, .negInf => .nan
  | .posInf, _ => .posInf
  | .negInf, _ => .posInf
  | _, .posInf => .posInf
  | _, .negInf => .posInf
  | .fin a, .fin b => .fin |fl (a - b)|

/-- color_builder.hpp:198-219 `ColorsEqual`. -/
def colorsEqual (fl : ℚ → ℚ) (c d : RGBA) (tolerance : Flt) : Bool :=
  if tolerance.lt (absDiff fl c.r d.r) then false
  else if tolerance.lt (absDiff fl c.g d.g) then false
  else if tolerance.lt (absDiff fl c.b d.b) then false
  else if tolerance.lt (absDiff fl c.a d.a) then false
  else true

/-- A division of doubles, exact except for the divisor zero. -/
def quot (a b : ℚ) : Flt := if b = 0 then (if a = 0 then .nan else if 0 < a then .posInf else .negInf) else .fin (a / b)

/-- `1.0 + v`. -/
def addOne : Flt → Flt
  | .fin x => .fin (1 + x)
  | v => v

/-- `static_cast<float>`. -/
def toFloat (fl : ℚ → ℚ) : Flt → Flt
  | .fin x => .fin (fl x)
  | v => v

/-- color_builder.hpp:147-177: the three channels. -/
def hotToColdChannels (value min_value range : ℚ) : Flt × Flt × Flt :=
  if value < min_value + 1 / 4 * range then (.fin 0, quot (4 * (value - min_value)) range, .fin 1)
  else if value < min_value + 1 / 2 * range then (.fin 0, .fin 1, addOne (quot (4 * (min_value + 1 / 4 * range - value)) range))
  else if value < min_value + 3 / 4 * range then (quot (4 * (value - min_value - 1 / 2 * range)) range, .fin 1, .fin 0)
  else (.fin 1, addOne (quot (4 * (min_value + 3 / 4 * range - value)) range), .fin 0)

/-- color_builder.hpp:142-181 `InterpolateHotToCold`. The arithmetic on doubles is exact here; the conversion to `float` rounds. -/
def hotToCold (fl : ℚ → ℚ) (value min_value max_value : ℚ) : Res RGBA :=
  if max_value ≥ min_value then
    let real_value := if value < min_value then min_value else if value > max_value then max_value else value
    let c := hotToColdChannels real_value min_value (max_value - min_value)
    .ok (makeFromFloats (toFloat fl c.1) (toFloat fl c.2.1) (toFloat fl c.2.2) (.fin 1))
  else .throw .invalidArgument

/-- color_builder.hpp:229-301: the table of colours 1 to 20. -/
def palette : List (UInt8 × UInt8 × UInt8) :=
  [(0xff, 0x00, 0xb3), (0x80, 0x75, 0x3e), (0xff, 0x00, 0x68), (0xa6, 0xd7, 0xbd), (0xc1, 0x20, 0x00), (0xce, 0x62, 0xa2), (0x81, 0x66, 0x70), (0x00, 0x34, 0x7d),
   (0xf6, 0x8e, 0x76), (0x00, 0x8a, 0x53), (0xff, 0x5c, 0x7a), (0x53, 0x7a, 0x37), (0xff, 0x00, 0x8e), (0xb3, 0x51, 0x28), (0xf4, 0x00, 0xc8), (0x7f, 0x0d, 0x18),
   (0x93, 0x00, 0xaa), (0x59, 0x15, 0x33), (0xf1, 0x13, 0x3a), (0x23, 0x16, 0x2c)]

/-- color_builder.hpp:221-307 `LookupUniqueColor`. -/
def lookupUnique (fl : ℚ → ℚ) (code : UInt32) (alpha : Flt) : RGBA :=
  if code = 0 then makeFromFloats (.fin 1) (.fin 1) (.fin 1) (.fin 0)
  else match palette[code.toNat - 1]? with
    | some (r, g, b) => makeFromMixed fl r g b alpha
    | none => makeFromFloats (.fin 0) (.fin 0) (.fin 0) alpha

end CRU.Color
