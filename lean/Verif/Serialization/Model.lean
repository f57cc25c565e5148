import Verif.Serialization.Spec
/-
  Model of include/common_robotics_utilities/serialization.hpp and src/…/serialization.cpp.
  A buffer is a list of bytes. 64-bit unsigned additions and products wrap. A trivially copyable type is given by its
  object representation. Allocation of a container of at most `2^63 - 1` bytes is assumed to succeed; a larger one throws
  `std::length_error` (libstdc++ `max_size`).
-/
namespace CRU.Ser

/-- Object representation of a trivially copyable type: `memcpy` out and back gives the same value. -/
structure Repr (T : Type) where
  size : Nat
  pos : 0 < size
  small : size < 4294967296
  bytes : T → Buf
  ofBytes : Buf → T
  length_bytes : ∀ x, (bytes x).length = size
  ofBytes_bytes : ∀ x, ofBytes (bytes x) = x

/-- uint64 addition. -/
def add64 (a b : Nat) : Nat := (a + b) % TWO64
/-- uint64 multiplication. -/
def mul64 (a b : Nat) : Nat := (a * b) % TWO64
/-- uint64 subtraction. -/
def diff64 (a b : Nat) : Nat := (a + TWO64 - b) % TWO64

/-- `memcpy(dst, &buffer[pos], len)`: undefined if `pos` is not an index of the buffer or the bytes are not all inside. -/
def memRead (buf : Buf) (pos len : Nat) : Res Buf :=
  if pos < buf.length ∧ pos + len ≤ buf.length then .ok ((buf.drop pos).take len) else .ub

/-- `memcpy(&buffer[pos], src, src.size)`. -/
def memWrite (buf : Buf) (pos : Nat) (src : Buf) : Res Buf :=
  if pos < buf.length ∧ pos + src.length ≤ buf.length then .ok (buf.take pos ++ src ++ buf.drop (pos + src.length))
  else .ub

/-- `reserve(n)` / constructing a container of `n` elements of `sz` bytes. -/
def allocate (n sz : Nat) : Res Unit := if n * sz < TWO63 then .ok () else .throw .lengthError

/-- serialization.hpp:31-39, constructor of `Deserialized`. -/
def mkDeserialized {T : Type} (v : T) (n : Nat) : Res (T × Nat) :=
  if n = 0 then .throw .invalidArgument else .ok (v, n)

/-- serialization.hpp:41-74 `Value()` / `BytesRead()`: throw when there is no value. -/
def getValue {T : Type} (d : T × Nat) : Res (T × Nat) := if d.2 = 0 then .throw .runtimeError else .ok d

variable {T : Type}

/-- serialization.hpp:305-319 `SerializeMemcpyable`. -/
def serMem (r : Repr T) : Serializer T := fun x buf =>
  let buf' := buf ++ r.bytes x
  .ok (buf', buf'.length - buf.length)

/-- serialization.hpp:321-337 `DeserializeMemcpyable`. -/
def deMem (r : Repr T) : Deserializer T := fun buf off =>
  if off ≥ buf.length then .throw .invalidArgument
  else if add64 off r.size > buf.length then .throw .invalidArgument
  else do
    let b ← memRead buf off r.size
    mkDeserialized (r.ofBytes b) r.size

/-- Serialize the items in order (e.g. serialization.hpp:396-401). -/
def serItems (item : Serializer T) : List T → Buf → Res Buf
  | [], buf => .ok buf
  | x :: xs, buf => do
    let r ← item x buf
    serItems item xs r.1

/-- Deserialize `n` items from `pos` (e.g. serialization.hpp:422-429); returns the items and the new position. -/
def deItems (item : Deserializer T) (buf : Buf) : Nat → Nat → Res (List T × Nat)
  | 0, pos => .ok ([], pos)
  | n + 1, pos => do
    let d ← item buf pos
    let d ← getValue d
    let rest ← deItems item buf n (add64 pos d.2)
    pure (d.1 :: rest.1, rest.2)

/-- A container of items behind a size header. `hs` is the header's serializer (plain or network `uint64_t`).
serialization.hpp:386-406 `SerializeVectorLike`, 339-358 `SerializeString`, 545-565 `SerializeSetLike`,
494-515 `SerializeMapLike`, and the network variants at 868-887, 917-937, 1020-1041, 1071-1091. -/
def serSeq (hs : Serializer Nat) (item : Serializer T) : Serializer (List T) := fun xs buf => do
  let h ← hs (xs.length % TWO64) buf
  let buf' ← serItems item xs h.1
  pure (buf', buf'.length - buf.length)

/-- serialization.hpp:408-434 `DeserializeVectorLike`, 360-384 `DeserializeString`, network variants 889-915, 939-966,
995-1018:
`esz` is the size of one element in memory, used by `reserve`. -/
def deSeq (hd : Deserializer Nat) (esz : Nat) (item : Deserializer T) : Deserializer (List T) := fun buf off => do
  let h ← hd buf off
  let h ← getValue h
  let pos := add64 off h.2
  allocate h.1 esz
  let r ← deItems item buf h.1 pos
  mkDeserialized r.1 (diff64 r.2 off)

/-- serialization.hpp:593-608 `SerializePair`. -/
def serPair {A B : Type} (sa : Serializer A) (sb : Serializer B) : Serializer (A × B) := fun p buf => do
  let r ← sa p.1 buf
  let r' ← sb p.2 r.1
  pure (r'.1, r'.1.length - buf.length)

/-- serialization.hpp:610-632 `DeserializePair`. -/
def dePair {A B : Type} (da : Deserializer A) (db : Deserializer B) : Deserializer (A × B) := fun buf off => do
  let a ← da buf off
  let a ← getValue a
  let pos := add64 off a.2
  let b ← db buf pos
  let b ← getValue b
  let pos := add64 pos b.2
  mkDeserialized (a.1, b.1) (diff64 pos off)

/-- Insert deserialized elements one by one (`deserialized.insert(…)`, serialization.hpp:531-539, 579-587). -/
def insertAll (ins : T → List T → List T) : List T → List T → List T
  | [], c => c
  | x :: xs, c => insertAll ins xs (ins x c)

/-- serialization.hpp:517-543 `DeserializeMapLike`, 567-591 `DeserializeSetLike`, network variants 1043-1069, 1093-1116.
A set- or map-like container is the list of its elements in iteration order, `ins` its `insert`. No `reserve`. -/
def deContainer (hd : Deserializer Nat) (item : Deserializer T) (ins : T → List T → List T) : Deserializer (List T) :=
  fun buf off => do
    let h ← hd buf off
    let h ← getValue h
    let pos := add64 off h.2
    let r ← deItems item buf h.1 pos
    mkDeserialized (insertAll ins r.1 []) (diff64 r.2 off)

/-- serialization.hpp:436-461 `SerializeMemcpyableVectorLike`. The buffer length after `resize` is assumed to fit. -/
def serMemVec (hs : Serializer Nat) (r : Repr T) : Serializer (List T) := fun xs buf => do
  let h ← hs (xs.length % TWO64) buf
  let len := mul64 r.size xs.length
  let prev := h.1.length
  let grown := h.1 ++ List.replicate len 0
  let buf' ← if xs.length % TWO64 > 0 then memWrite grown prev (xs.flatMap r.bytes) else pure grown
  pure (buf', buf'.length - buf.length)

/-- Split bytes into `n` objects. -/
def chunks (r : Repr T) : Nat → Buf → List T
  | 0, _ => []
  | n + 1, b => r.ofBytes (b.take r.size) :: chunks r n (b.drop r.size)

/-- serialization.hpp:463-492 `DeserializeMemcpyableVectorLike`. -/
def deMemVec (hd : Deserializer Nat) (r : Repr T) : Deserializer (List T) := fun buf off => do
  let h ← hd buf off
  let h ← getValue h
  let pos := add64 off h.2
  let len := mul64 r.size h.1
  if add64 pos len > buf.length then .throw .invalidArgument
  else do
    allocate h.1 r.size
    let items ← if h.1 > 0 then do
        let b ← memRead buf pos len
        pure (chunks r h.1 b)
      else pure []
    let pos' := add64 pos len
    mkDeserialized items (diff64 pos' off)

/-! ### Byte order -/

/-- Little-endian bytes of an unsigned integer. -/
def leBytes : Nat → Nat → Buf
  | 0, _ => []
  | n + 1, v => UInt8.ofNat (v % 256) :: leBytes n (v / 256)

/-- Value of little-endian bytes. -/
def ofLe : Buf → Nat
  | [] => 0
  | b :: bs => b.toNat + 256 * ofLe bs

/-- Memory of an `n`-byte unsigned integer on this host. -/
def hostBytes (little : Bool) (n v : Nat) : Buf := if little then leBytes n v else (leBytes n v).reverse

/-- The unsigned integer stored in these bytes on this host. -/
def hostValue (little : Bool) (b : Buf) : Nat := if little then ofLe b else ofLe b.reverse

/-- Reverse the bytes of an `n`-byte integer. -/
def byteSwap (n v : Nat) : Nat := ofLe (leBytes n v).reverse

/-- serialization.hpp:641-703 `HostToNetworkN` / `NetworkToHostN` (`htobeN`, `beNtoh`): swap on a little-endian host. -/
def hton (little : Bool) (n v : Nat) : Nat := if little then byteSwap n v else v

/-- serialization.hpp:722-746 / 781-805: temp_buffer after the size-dependent branch. Sizes other than 1, 2, 4, 8 are
excluded by the static_assert. -/
def netBytes (little : Bool) (r : Repr T) (x : T) : Buf :=
  if r.size = 1 then r.bytes x
  else if r.size = 2 ∨ r.size = 4 ∨ r.size = 8 then
    hostBytes little r.size (hton little r.size (hostValue little (r.bytes x)))
  else List.replicate r.size 0

/-- serialization.hpp:764-813 `SerializeNetworkMemcpyable`. -/
def serNet (little : Bool) (r : Repr T) : Serializer T := fun x buf =>
  let buf' := buf ++ netBytes little r x
  .ok (buf', buf'.length - buf.length)

/-- serialization.hpp:815-866 `DeserializeNetworkMemcpyable`. -/
def deNet (little : Bool) (r : Repr T) : Deserializer T := fun buf off =>
  if off ≥ buf.length then .throw .invalidArgument
  else if add64 off r.size > buf.length then .throw .invalidArgument
  else do
    let b ← memRead buf off r.size
    let v := if r.size = 1 then r.ofBytes b
      else r.ofBytes (hostBytes little r.size (hton little r.size (hostValue little b)))
    mkDeserialized v r.size

/-- serialization.hpp:705-762 `SerializeNetworkMemcpyableInPlace`. -/
def serNetInPlace (little : Bool) (r : Repr T) (x : T) (buf : Buf) (pos : Nat) : Res (Buf × Nat) :=
  if add64 pos r.size ≤ buf.length then do
    let buf' ← memWrite buf pos (netBytes little r x)
    pure (buf', r.size)
  else .throw .runtimeError

/-- The loop of `SerializeNetworkMemcpyableVectorLike` (serialization.hpp:981-988). -/
def serNetItemsInPlace (little : Bool) (r : Repr T) : List T → Buf → Nat → Res Buf
  | [], buf, _ => .ok buf
  | x :: xs, buf, pos => do
    let w ← serNetInPlace little r x buf pos
    serNetItemsInPlace little r xs w.1 (add64 pos w.2)

/-- serialization.hpp:968-993 `SerializeNetworkMemcpyableVectorLike`. -/
def serNetMemVec (little : Bool) (hs : Serializer Nat) (r : Repr T) : Serializer (List T) := fun xs buf => do
  let h ← hs (xs.length % TWO64) buf
  let len := mul64 r.size xs.length
  let grown := h.1 ++ List.replicate len 0
  let buf' ← serNetItemsInPlace little r xs grown h.1.length
  pure (buf', buf'.length - buf.length)

/-- `uint64_t` in host memory. -/
def u64Bytes (little : Bool) (v : Nat) : Buf := hostBytes little 8 v

/-- `SerializeMemcpyable<uint64_t>` / `DeserializeMemcpyable<uint64_t>`, the size header. -/
def serU64 (little : Bool) : Serializer Nat := fun v buf =>
  let buf' := buf ++ u64Bytes little v
  .ok (buf', buf'.length - buf.length)

/-- `DeserializeMemcpyable<uint64_t>` (serialization.hpp:321-337 at `T = uint64_t`). -/
def deU64 (little : Bool) : Deserializer Nat := fun buf off =>
  if off ≥ buf.length then .throw .invalidArgument
  else if add64 off 8 > buf.length then .throw .invalidArgument
  else do
    let b ← memRead buf off 8
    mkDeserialized (hostValue little b) 8

/-- `SerializeNetworkMemcpyable<uint64_t>` (serialization.hpp:764-813 at `T = uint64_t`), the network size header. -/
def serNetU64 (little : Bool) : Serializer Nat := fun v buf =>
  let buf' := buf ++ hostBytes little 8 (hton little 8 v)
  .ok (buf', buf'.length - buf.length)

/-- `DeserializeNetworkMemcpyable<uint64_t>` (serialization.hpp:815-866 at `T = uint64_t`). -/
def deNetU64 (little : Bool) : Deserializer Nat := fun buf off =>
  if off ≥ buf.length then .throw .invalidArgument
  else if add64 off 8 > buf.length then .throw .invalidArgument
  else do
    let b ← memRead buf off 8
    mkDeserialized (hton little 8 (hostValue little b)) 8

/-- A dynamic matrix: its dimensions and its column-major coefficients. -/
structure Matrix (T : Type) where
  rows : Nat
  cols : Nat
  data : List T
deriving DecidableEq

/-- serialization.cpp:39-58 `SerializeMatrixXd`; `memcpy` to `&buffer[previous_buffer_size]` is not guarded. -/
def serMatrix (little : Bool) (r : Repr T) : Serializer (Matrix T) := fun m buf => do
  let h1 ← serU64 little (m.rows % TWO64) buf
  let h2 ← serU64 little (m.cols % TWO64) h1.1
  let len := mul64 (mul64 r.size m.rows) m.cols
  let grown := h2.1 ++ List.replicate len 0
  let buf' ← memWrite grown h2.1.length (m.data.flatMap r.bytes)
  pure (buf', buf'.length - buf.length)

/-- serialization.cpp:125-151 `DeserializeMatrixXd`. -/
def deMatrix (little : Bool) (r : Repr T) : Deserializer (Matrix T) := fun buf off => do
  let h1 ← deU64 little buf off
  let h1 ← getValue h1
  let pos := add64 off h1.2
  let h2 ← deU64 little buf pos
  let h2 ← getValue h2
  let pos := add64 pos h2.2
  let len := mul64 (mul64 r.size h1.1) h2.1
  if add64 pos len > buf.length then .throw .invalidArgument
  else do
    allocate (h1.1 * h2.1) r.size
    let b ← memRead buf pos len
    let pos' := add64 pos len
    mkDeserialized ⟨h1.1, h2.1, chunks r (h1.1 * h2.1) b⟩ (diff64 pos' off)

end CRU.Ser
