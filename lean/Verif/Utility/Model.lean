import Verif.Int64
import Verif.Float
/-
  Model of include/common_robotics_utilities/utility.hpp (232-647). Logging variants differ only by the call of the logging
  function. `double` values are rationals (`Verif/Float.lean`), rounded by `fl`.
-/
namespace CRU.Util

/-! ### Random indices -/

/-- An integer type of at least 32 bits: range and signedness (narrower types are promoted to `int` first; not modelled). -/
structure IntType where
  lo : Int
  hi : Int
  signed : Bool

/-- `int64_t` -/
def i64 : IntType := ⟨-9223372036854775808, 9223372036854775807, true⟩
/-- `uint64_t`, `size_t` -/
def u64 : IntType := ⟨0, 18446744073709551615, false⟩
/-- `int32_t` -/
def i32 : IntType := ⟨-2147483648, 2147483647, true⟩
/-- `uint32_t` -/
def u32 : IntType := ⟨0, 4294967295, false⟩

/-- `x` is a value of the type. -/
def IntType.has (t : IntType) (x : Int) : Prop := t.lo ≤ x ∧ x ≤ t.hi

instance (t : IntType) (x : Int) : Decidable (t.has x) := inferInstanceAs (Decidable (_ ∧ _))

/-- Result of an arithmetic operation: signed overflow is undefined, unsigned arithmetic wraps. -/
def IntType.arith (t : IntType) (x : Int) : Res Int :=
  if t.has x then .ok x else if t.signed then .ub else .ok (x % (t.hi + 1))

/-- `static_cast` from a floating-point value that is already integral: undefined out of range. -/
def IntType.cast (t : IntType) (x : Int) : Res Int := if t.has x then .ok x else .ub

/-- utility.hpp:238-251 `GetUniformRandomIndex`; `u` is the value drawn. -/
def randomIndex (fl : ℚ → ℚ) (t : IntType) (u : ℚ) (size : Int) : Res Int :=
  if size < 1 then .throw .invalidArgument else t.cast ⌊fl (u * fl size)⌋

/-- utility.hpp:255-268 `GetUniformRandomInRange`. -/
def randomInRange (fl : ℚ → ℚ) (t : IntType) (u : ℚ) (start stop : Int) : Res Int :=
  if start > stop then .throw .invalidArgument
  else do
    let range ← t.arith (stop - start)
    let size ← t.arith (range + 1)
    let offset ← randomIndex fl t u size
    t.arith (start + offset)

/-! ### Clamping -/

/-- utility.hpp:270-308 `ClampValue`. -/
def clampValue {T : Type} [LT T] [LE T] [DecidableLT T] [DecidableLE T] (val lo hi : T) : Res T :=
  if hi ≥ lo then if val < lo then .ok lo else if val > hi then .ok hi else .ok val else .throw .invalidArgument

/-- utility.hpp:310-356 `SpreadValue`. -/
def spreadValue {T : Type} [LT T] [LE T] [DecidableLT T] [DecidableLE T] (val low mid high : T) : Res T :=
  if low ≤ mid ∧ mid ≤ high then
    if val ≥ mid ∧ val < high then .ok high else if val < mid ∧ val > low then .ok low else .ok val
  else .throw .invalidArgument

/-! ### Bits -/

/-- utility.hpp:406-431 `SetBit` on a `w`-bit unsigned type, `w` = 8, 16, 32 or 64. The shifted operand is promoted to `int`
when narrower, so a shift by at least `max w 32` is undefined; the result is truncated to the type. -/
def setBit {w : Nat} (current : BitVec w) (pos : Nat) (value : Bool) : Res (BitVec w) :=
  if pos ≥ max w 32 then .ub
  else
    let mask := BitVec.ofNat w (2 ^ pos)
    if value then .ok (current ||| mask) else .ok (current &&& ~~~ mask)

/-- utility.hpp:433-446 `GetBit`. -/
def getBit {w : Nat} (current : BitVec w) (pos : Nat) : Res Bool := do
  let mask ← setBit (0 : BitVec w) pos true
  if (mask &&& current).toNat > 0 then pure true else pure false

/-! ### Collections -/

/-- `map[key] += 1`. A `std::map` is modelled as a list of pairs with distinct keys, in any order (the code below only tests
whether all of them pass a check). -/
def bump {T : Type} [DecidableEq T] : List (T × Nat) → T → List (T × Nat)
  | [], k => [(k, 1)]
  | (k', n) :: m, k => if k' = k then (k', n + 1) :: m else (k', n) :: bump m k

/-- utility.hpp:467-471, 473-477, 513-517, 519-523: members with their numbers of occurrences. -/
def countMap {T : Type} [DecidableEq T] (xs : List T) : List (T × Nat) := xs.foldl bump []

/-- `map.find(key)`. -/
def find {T A : Type} [DecidableEq T] : List (T × A) → T → Option A
  | [], _ => none
  | (k', a) :: m, k => if k' = k then some a else find m k

/-- utility.hpp:462-502 `IsSubset(set, candidate_subset)`. -/
def isSubset {T : Type} [DecidableEq T] (set candidate : List T) : Bool :=
  let sm := countMap set
  let cm := countMap candidate
  if cm.length > sm.length then false
  else cm.all fun kc => match find sm kc.1 with
    | some n => !decide (kc.2 > n)
    | none => false

/-- utility.hpp:504-548 `CollectionsEqual`. -/
def collectionsEqual {T : Type} [DecidableEq T] (set1 set2 : List T) : Bool :=
  if set1.length ≠ set2.length then false
  else
    let m1 := countMap set1
    let m2 := countMap set2
    if m1.length ≠ m2.length then false
    else m1.all fun kc => match find m2 kc.1 with
      | some n => !decide (kc.2 ≠ n)
      | none => false

/-! ### Map helpers -/

/-- `map[key] = value`. -/
def assign {T A : Type} [DecidableEq T] : List (T × A) → T → A → List (T × A)
  | [], k, v => [(k, v)]
  | (k', a) :: m, k, v => if k' = k then (k', v) :: m else (k', a) :: assign m k v

/-- utility.hpp:550-563 `RetrieveOrDefault`. -/
def retrieveOrDefault {T A : Type} [DecidableEq T] (m : List (T × A)) (k : T) (d : A) : A :=
  match find m k with
  | some a => a
  | none => d

/-- utility.hpp:609-619 `MakeFromKeysAndValues`, pairs. -/
def makeFromPairs {T A : Type} [DecidableEq T] (l : List (T × A)) : List (T × A) :=
  l.foldl (fun m kv => assign m kv.1 kv.2) []

/-- utility.hpp:621-644 `MakeFromKeysAndValues`, two containers. -/
def makeFromKeysValues {T A : Type} [DecidableEq T] (keys : List T) (values : List A) : Res (List (T × A)) :=
  if keys.length = values.length then .ok ((keys.zip values).foldl (fun m kv => assign m kv.1 kv.2) [])
  else .throw .invalidArgument

/-- utility.hpp:565-579 `GetKeysFromMapLike`. -/
def getKeys {T A : Type} (m : List (T × A)) : List T := m.map (·.1)

/-- utility.hpp:595-607 `GetKeysAndValues`. -/
def getKeysAndValues {T A : Type} (m : List (T × A)) : List (T × A) := m

end CRU.Util
