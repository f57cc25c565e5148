/-
  RFC 4648 base64, written independently of the model.
-/
namespace CRU.Base64.Spec

/-- Bits of a byte, most significant first. -/
def byteBits (x : UInt8) : List Nat :=
  [x.toNat / 128 % 2, x.toNat / 64 % 2, x.toNat / 32 % 2, x.toNat / 16 % 2,
   x.toNat / 8 % 2, x.toNat / 4 % 2, x.toNat / 2 % 2, x.toNat % 2]

/-- The bit string of a byte vector. -/
def bits (b : List UInt8) : List Nat := b.flatMap byteBits

/-- Value of a bit string, most significant bit first. -/
def value (bs : List Nat) : Nat := bs.foldl (fun acc d => 2 * acc + d) 0

/-- Split a bit string into 6-bit groups, the last one filled up with zero bits on the right. -/
def sextets : List Nat → List Nat
  | [] => []
  | x :: xs => value (((x :: xs).take 6) ++ List.replicate (6 - (x :: xs).length) 0) ::
      sextets ((x :: xs).drop 6)
termination_by l => l.length
decreasing_by simp +arith

/-- The standard alphabet. -/
def alphabet : List Char :=
  "ABCDEFGHIJKLMNOPQRSTUVWXYZabcdefghijklmnopqrstuvwxyz0123456789+/".toList

/-- Character for a 6-bit value. -/
def letter (v : Nat) : UInt8 := (alphabet.getD v '?').toNat.toUInt8

/-- The base64 text of a byte vector: letters of the 6-bit groups, then '=' up to a multiple of four. -/
def text (b : List UInt8) : List UInt8 :=
  let s := (sextets (bits b)).map letter
  s ++ List.replicate ((4 - s.length % 4) % 4) '='.toNat.toUInt8

end CRU.Base64.Spec
