import Verif.Base
/-
  What correct (de)serialization means, independent of the model.
-/
namespace CRU.Ser

/-- 2^64 and 2^63. -/
scoped notation "TWO64" => (18446744073709551616 : Nat)
scoped notation "TWO63" => (9223372036854775808 : Nat)

abbrev Buf := List UInt8

/-- `Serializer<T>` (serialization.hpp:86-87): new buffer contents and the returned byte count. -/
abbrev Serializer (T : Type) := T → Buf → Res (Buf × Nat)

/-- `Deserializer<T>` (serialization.hpp:89-91): value and bytes read, or an exception. A byte count of 0 stands for a
`Deserialized` without value. -/
abbrev Deserializer (T : Type) := Buf → Nat → Res (T × Nat)

/-- The pair round-trips the value `x` in every buffer context, up to `eqv`: the serializer appends some non-empty byte
string, leaves the earlier bytes alone and returns its length; the deserializer, at the offset where the bytes were
written and whatever precedes and follows, returns the value and that length. -/
def RoundTripsUpTo {T : Type} (eqv : T → T → Prop) (ser : Serializer T) (de : Deserializer T) (x : T) : Prop :=
  ∃ enc : Buf, enc ≠ [] ∧ (∀ buf : Buf, (buf ++ enc).length < TWO63 → ser x buf = .ok (buf ++ enc, enc.length)) ∧
    ∀ pre post : Buf, (pre ++ enc ++ post).length < TWO63 →
      ∃ y, de (pre ++ enc ++ post) pre.length = .ok (y, enc.length) ∧ eqv y x

/-- … returning exactly the same value. -/
def RoundTrips {T : Type} (ser : Serializer T) (de : Deserializer T) (x : T) : Prop :=
  RoundTripsUpTo Eq ser de x

/-- On every buffer and offset the deserializer either throws or returns a value and a positive count with
`offset + count ≤ size`, and that result depends only on the bytes `[offset, offset + count)`; it never has undefined
behaviour (reads nothing outside the buffer). -/
def SafeDeserializer {T : Type} (de : Deserializer T) : Prop :=
  ∀ (buf : Buf) (off : Nat), buf.length < TWO63 → off < TWO64 →
    de buf off ≠ .ub ∧
    ∀ v n, de buf off = .ok (v, n) → 0 < n ∧ off + n ≤ buf.length ∧
      ∀ buf' : Buf, buf'.length < TWO63 → off + n ≤ buf'.length →
        (buf'.drop off).take n = (buf.drop off).take n → de buf' off = .ok (v, n)

/-- Big-endian bytes of an `n`-byte unsigned integer: byte `i` is `v / 256^(n-1-i) mod 256`. -/
def beBytes (n v : Nat) : Buf := (List.range n).map fun i => UInt8.ofNat (v / 256 ^ (n - 1 - i) % 256)

end CRU.Ser
