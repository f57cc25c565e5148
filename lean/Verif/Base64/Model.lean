import Verif.Base
/-
  Model of src/common_robotics_utilities/base64_helpers.cpp.
  Bytes and chars are `UInt8` codes; a `std::string` is a list of char codes.
  `char` is signed (x86-64 / AArch64-Linux `-fsigned-char` ABI), so a char with code ≥ 128 is negative and
  `static_cast<size_t>` turns it into a number near 2^64.
-/
namespace CRU.Base64

/-- base64_helpers.cpp:13-20 `B64IndexTable`: 123 listed entries, the remaining 133 of 256 are zero-initialised. -/
def indexTable : List Nat :=
  [0, 0, 0, 0, 0, 0, 0, 0, 0, 0, 0, 0, 0, 0, 0, 0, 0, 0, 0, 0, 0, 0, 0, 0, 0,
   0, 0, 0, 0, 0, 0, 0, 0, 0, 0, 0, 0, 0, 0, 0, 0, 0, 0, 62, 63, 62, 62, 63,
   52, 53, 54, 55, 56, 57, 58, 59, 60, 61, 0, 0, 0, 0, 0, 0, 0, 0, 1, 2, 3, 4,
   5, 6, 7, 8, 9, 10, 11, 12, 13, 14, 15, 16, 17, 18, 19, 20, 21, 22, 23, 24,
   25, 0, 0, 0, 0, 63, 0, 26, 27, 28, 29, 30, 31, 32, 33, 34, 35, 36, 37, 38,
   39, 40, 41, 42, 43, 44, 45, 46, 47, 48, 49, 50, 51] ++ List.replicate 133 0

/-- base64_helpers.cpp:22-27 `B64ValueTable`, as char codes: A-Z, a-z, 0-9, '+', '/'. -/
def valueTable : List UInt8 :=
  [65, 66, 67, 68, 69, 70, 71, 72, 73, 74, 75, 76, 77, 78, 79,
   80, 81, 82, 83, 84, 85, 86, 87, 88, 89, 90, 97, 98, 99, 100,
   101, 102, 103, 104, 105, 106, 107, 108, 109, 110, 111, 112, 113, 114, 115,
   116, 117, 118, 119, 120, 121, 122, 48, 49, 50, 51, 52, 53, 54, 55,
   56, 57, 43, 47]

/-- `v[i] = x` on a vector or string: undefined outside. -/
def setRaw {α} (l : List α) (i : Nat) (x : α) : Res (List α) :=
  if i < l.length then .ok (l.set i x) else .ub

/-- `s[i]` on a const std::string: `s[s.size()]` is `'\0'`, beyond is undefined. -/
def strAt (s : List UInt8) (i : Nat) : Res UInt8 :=
  if i = s.length then .ok 0 else atRaw s i

/-- `static_cast<size_t>(char)` for signed char. -/
def charToSize (c : UInt8) : Nat :=
  if c.toNat < 128 then c.toNat else 2 ^ 64 - 256 + c.toNat

/-- `B64IndexTable[static_cast<size_t>(encoded[i])]` (e.g. base64_helpers.cpp:39). -/
def idxAt (s : List UInt8) (i : Nat) : Res Nat := do
  let c ← strAt s i
  atRaw indexTable (charToSize c)

/-- base64_helpers.cpp:36-46, the loop body run for `n` blocks from positions `i`, `j`. -/
def decodeLoop (s : List UInt8) : Nat → Nat → Nat → List UInt8 → Res (List UInt8)
  | 0, _, _, buf => .ok buf
  | n + 1, i, j, buf => do
    let t0 ← idxAt s i
    let t1 ← idxAt s (i + 1)
    let t2 ← idxAt s (i + 2)
    let t3 ← idxAt s (i + 3)
    let v := t0 <<< 18 ||| t1 <<< 12 ||| t2 <<< 6 ||| t3
    let buf ← setRaw buf j (UInt8.ofNat (v >>> 16))
    let buf ← setRaw buf (j + 1) (UInt8.ofNat ((v >>> 8) &&& 0xFF))
    let buf ← setRaw buf (j + 2) (UInt8.ofNat (v &&& 0xFF))
    decodeLoop s n (i + 4) (j + 3) buf

/-- base64_helpers.cpp:29-60 `Decode`.  `L` is a multiple of 4, so `for (i = 0; i < L; i += 4)` runs `L / 4` times. -/
def decode (s : List UInt8) : Res (List UInt8) := do
  let len := s.length
  let lastIsPad ← (if len > 0 then do
      if len % 4 ≠ 0 then pure true
      else
        let c ← strAt s (len - 1)
        pure (c == 61)
    else pure false)
  let pad := if lastIsPad then 1 else 0
  let L := ((len + 3) / 4 - pad) * 4
  let buf := List.replicate (L / 4 * 3 + pad) (0 : UInt8)
  let buf ← decodeLoop s (L / 4) 0 0 buf
  if pad > 0 then do
    let t0 ← idxAt s L
    let t1 ← idxAt s (L + 1)
    let v := t0 <<< 18 ||| t1 <<< 12
    let buf ← setRaw buf (buf.length - 1) (UInt8.ofNat (v >>> 16))
    let more ← (if len > L + 2 then do
        let c ← strAt s (L + 2)
        pure (c != 61)
      else pure false)
    if more then do
      let t2 ← idxAt s (L + 2)
      let v := v ||| t2 <<< 6
      pure (buf ++ [UInt8.ofNat ((v >>> 8) &&& 0xFF)])
    else pure buf
  else pure buf

/-- `B64ValueTable[i]`: `std::array::operator[]`, unchecked. -/
def valAt (i : Nat) : Res UInt8 := atRaw valueTable i

/-- base64_helpers.cpp:75-91, the main `while` loop; returns the final positions and output. -/
def encodeLoop (b : List UInt8) (ip op : Nat) (out : List UInt8) : Res (Nat × Nat × List UInt8) :=
  if b.length - ip ≥ 3 then do
    let b0 ← atRaw b ip
    let b1 ← atRaw b (ip + 1)
    let b2 ← atRaw b (ip + 2)
    let c0 ← valAt (b0.toNat >>> 2)
    let out ← setRaw out op c0
    let c1 ← valAt (((b0.toNat &&& 0x03) <<< 4) ||| (b1.toNat >>> 4))
    let out ← setRaw out (op + 1) c1
    let c2 ← valAt (((b1.toNat &&& 0x0f) <<< 2) ||| (b2.toNat >>> 6))
    let out ← setRaw out (op + 2) c2
    let c3 ← valAt (b2.toNat &&& 0x3f)
    let out ← setRaw out (op + 3) c3
    encodeLoop b (ip + 3) (op + 4) out
  else .ok (ip, op, out)
termination_by b.length - ip

/-- base64_helpers.cpp:62-113 `Encode`; `encoded_length` is computed modulo 2^64. -/
def encode (b : List UInt8) : Res (List UInt8) := do
  let len := b.length
  let elen := (4 * ((len + 2) / 3)) % 2 ^ 64
  if elen < len then pure []
  else
    let out := List.replicate elen (0 : UInt8)
    let (ip, op, out) ← encodeLoop b 0 0 out
    if ip < len then do
      let b0 ← atRaw b ip
      let c0 ← valAt (b0.toNat >>> 2)
      let out ← setRaw out op c0
      if len - ip = 1 then do
        let c1 ← valAt ((b0.toNat &&& 0x03) <<< 4)
        let out ← setRaw out (op + 1) c1
        let out ← setRaw out (op + 2) 61
        setRaw out (op + 3) 61
      else do
        let b1 ← atRaw b (ip + 1)
        let c1 ← valAt (((b0.toNat &&& 0x03) <<< 4) ||| (b1.toNat >>> 4))
        let out ← setRaw out (op + 1) c1
        let c2 ← valAt ((b1.toNat &&& 0x0f) <<< 2)
        let out ← setRaw out (op + 2) c2
        setRaw out (op + 3) 61
    else pure out

end CRU.Base64
