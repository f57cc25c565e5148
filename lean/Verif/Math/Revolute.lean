import Verif.Float
import Verif.Utility.Model
import Mathlib.Algebra.Order.Floor.Ring
import Mathlib.Tactic.FieldSimp
import Mathlib.Tactic.LinearCombination
/-
  Angles of continuous revolute joints (math.cpp). One model for exact and for rounded arithmetic: `fl` is applied to the result of every
  addition, subtraction and multiplication; `fmod` is exact (as IEEE 754 requires).
-/
namespace CRU.Math
set_option linter.unusedSectionVars false

variable {K : Type} [Field K] [LinearOrder K] [IsStrictOrderedRing K] [FloorRing K]

/-- std::fmod: `x - n * y` where `n` is `x / y` truncated towards zero. -/
def fmod (x y : K) : K := x - y * (if 0 ≤ x / y then ⌊x / y⌋ else ⌈x / y⌉ : Int)

/-- math.cpp:71-84 `EnforceContinuousRevoluteBounds`; `pi` is the constant M_PI. -/
def enforce (fl : K → K) (pi value : K) : K :=
  let low := -pi
  let high := pi
  let remainder := fmod (fl (value - low)) (fl (high - low))
  if remainder ≥ 0 then fl (remainder + low) else fl (remainder + high)

/-- math.cpp:602-610 `ContinuousRevoluteSignedDistance`. -/
def signedDistance (fl : K → K) (pi p1 p2 : K) : K :=
  let c1 := enforce fl pi p1
  let c2 := enforce fl pi p2
  enforce fl pi (fl (c2 - c1))

/-- math.cpp:612-615 `ContinuousRevoluteDistance`. -/
def distance (fl : K → K) (pi p1 p2 : K) : K := |signedDistance fl pi p1 p2|

/-- math.cpp:617-620 `AddContinuousRevoluteValues`. -/
def addRevolute (fl : K → K) (pi start change : K) : K := enforce fl pi (fl (start + change))

/-- math.cpp:622-633 `GetContinuousRevoluteRange`. -/
def getRange (fl : K → K) (pi start stop : K) : K :=
  let raw := signedDistance fl pi start stop
  if raw ≥ 0 then raw else fl (fl (2 * pi) + raw)

/-- math.cpp:635-665 `CheckInContinuousRevoluteRange`. -/
def checkInRange (fl : K → K) (pi start range val : K) : Bool :=
  let realVal := enforce fl pi val
  let realStart := enforce fl pi start
  let delta := signedDistance fl pi realStart realVal
  if delta ≥ 0 then (if delta ≤ range then true else false)
  else (let realDelta := fl (fl (2 * pi) + delta)
        if realDelta ≤ range then true else false)

/-- math.cpp:667-673 `CheckInContinuousRevoluteBounds`. -/
def checkInBounds (fl : K → K) (pi start stop val : K) : Bool :=
  checkInRange fl pi start (getRange fl pi start stop) val

/-- math.cpp:394-408 `InterpolateContinuousRevolute`. -/
def interpolateRevolute (fl : K → K) (pi p1 p2 ratio : K) : Res K := do
  let r ← Util.clampValue ratio 0 1
  let delta := signedDistance fl pi p1 p2
  return addRevolute fl pi p1 (fl (delta * r))

/-! ### Specification -/

/-- Two angles are the same up to full turns. -/
def Congruent (pi a b : K) : Prop := ∃ k : Int, b = a + k * (2 * pi)

/-- `c` lies on the arc that runs counter-clockwise from `a` for the angle `d`. -/
def OnArc (pi a d c : K) : Prop := ∃ t, 0 ≤ t ∧ t ≤ d ∧ Congruent pi (a + t) c

end CRU.Math
