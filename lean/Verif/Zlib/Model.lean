import Verif.Base
/-
  zlib_helpers.cpp. The zlib library is a parameter: a state machine that at each call of `deflate` or `inflate` sees the remaining input and the room for output, and
  answers with a return code, the number of input bytes it took and the bytes it wrote. All its other behaviour (how it splits its output over calls) is arbitrary.
  Loops take fuel; `none` means that the fuel was used up.
-/
namespace CRU.Zlib

abbrev Bytes := List UInt8

inductive Flush where
  | noFlush | finish
  deriving DecidableEq

/-- What one library call does. -/
structure Resp (S : Type) where
  state : S
  ret : Int
  consumed : Nat
  out : Bytes

/-- zlib's `deflateInit` / `deflate` or `inflateInit` / `inflate` (which is always called with `Z_NO_FLUSH`). (zlib_helpers.cpp:28-42, 82-115) -/
structure Lib (S : Type) where
  initRet : Int
  start : S
  step : S → Flush → Bytes → Nat → Resp S

/-- zlib.h: return codes. -/
def zOk : Int := 0
def zStreamEnd : Int := 1

/-- zlib_helpers.cpp:23 and 72: `BUFSIZE`. -/
def bufSize : Nat := 1024 * 1024

/-- `std::numeric_limits<uint32_t>::max()`. -/
def uint32Max : Nat := 4294967295

/-- `z_stream` and the array it writes to. `input` is what is left at `next_in`; `nextOut` is the offset of `next_out` in the array. `total_out` is not wrapped: 2^64 bytes
do not fit into a vector. (zlib_helpers.cpp:21-36, 74-90) -/
structure Z (S : Type) where
  st : S
  input : Bytes
  temp : Bytes
  nextOut : Nat
  availOut : Nat
  totalOut : Nat

/-- The library writes `out` at the offset `pos` of the array. -/
def writeAt (temp : Bytes) (pos : Nat) (out : Bytes) : Bytes := temp.take pos ++ out ++ temp.drop (pos + out.length)

/-- One call of `deflate` / `inflate`: writing past the end of the array is undefined. (no project code: C++ or bookkeeping) -/
def call {S : Type} (L : Lib S) (flush : Flush) (z : Z S) : Res (Int × Z S) :=
  let r := L.step z.st flush z.input z.availOut
  if z.nextOut + r.out.length ≤ z.temp.length then
    .ok (r.ret, { st := r.state, input := z.input.drop r.consumed, temp := writeAt z.temp z.nextOut r.out, nextOut := z.nextOut + r.out.length,
                  availOut := z.availOut - r.out.length, totalOut := z.totalOut + r.out.length })
  else .ub

/-- zlib_helpers.cpp:99-104 and 109-114: empty the array if it is full. -/
def drain {S : Type} (z : Z S) (buffer : Bytes) : Z S × Bytes :=
  if z.availOut = 0 then ({ z with nextOut := 0, availOut := bufSize }, buffer ++ z.temp.take bufSize) else (z, buffer)

/-- zlib_helpers.cpp:90-105: the loop over the input. -/
def feed {S : Type} (L : Lib S) : Nat → Z S → Bytes → Option (Res (Z S × Bytes))
  | 0, _, _ => none
  | fuel + 1, z, buffer =>
    if z.input.length ≠ 0 then
      match call L .noFlush z with
      | .ok (ret, z1) =>
        if ret ≠ zOk then some (.throw .runtimeError)
        else
          let d := drain z1 buffer
          feed L fuel d.1 d.2
      | .throw e => some (.throw e)
      | .ub => some .ub
    else some (.ok (z, buffer))

/-- zlib_helpers.cpp:106-116: the loop that finishes the stream. -/
def finish {S : Type} (L : Lib S) : Nat → Z S → Bytes → Option (Res (Int × Z S × Bytes))
  | 0, _, _ => none
  | fuel + 1, z, buffer =>
    let d := drain z buffer
    match call L .finish d.1 with
    | .ok (ret, z1) => if ret = zOk then finish L fuel z1 d.2 else some (.ok (ret, z1, d.2))
    | .throw e => some (.throw e)
    | .ub => some .ub

/-- zlib_helpers.cpp:117-128: the check of the last return code, and the rest of the array. -/
def compressTail {S : Type} (ret : Int) (z : Z S) (buffer : Bytes) : Res Bytes :=
  if ret ≠ zStreamEnd then .throw .runtimeError else .ok (buffer ++ z.temp.take (bufSize - z.availOut))

/-- zlib_helpers.cpp:66-134 `CompressBytes`. `garbage` is the initial content of the array. -/
def compress {S : Type} (L : Lib S) (garbage : Bytes) (fuel : Nat) (uncompressed : Bytes) : Option (Res Bytes) :=
  if uncompressed.length ≤ uint32Max then
    if L.initRet ≠ zOk then some (.throw .runtimeError)
    else
      match feed L fuel { st := L.start, input := uncompressed, temp := garbage, nextOut := 0, availOut := bufSize, totalOut := 0 } [] with
      | none => none
      | some (.throw e) => some (.throw e)
      | some .ub => some .ub
      | some (.ok (z, buffer)) =>
        match finish L fuel z buffer with
        | none => none
        | some (.throw e) => some (.throw e)
        | some .ub => some .ub
        | some (.ok (ret, z1, buffer1)) => some (compressTail ret z1 buffer1)
  else some (.throw .invalidArgument)

/-- zlib_helpers.cpp:43-47: append what was written. -/
def collect {S : Type} (z : Z S) (buffer : Bytes) : Bytes :=
  if buffer.length < z.totalOut then buffer ++ z.temp.take (bufSize - z.availOut) else buffer

/-- zlib_helpers.cpp:38-49: the loop. -/
def drainAll {S : Type} (L : Lib S) : Nat → Z S → Bytes → Option (Res (Int × Bytes))
  | 0, _, _ => none
  | fuel + 1, z, buffer =>
    match call L .noFlush { z with nextOut := 0, availOut := bufSize } with
    | .ok (ret, z1) =>
      let buffer1 := collect z1 buffer
      if ret = zOk then drainAll L fuel z1 buffer1 else some (.ok (ret, buffer1))
    | .throw e => some (.throw e)
    | .ub => some .ub

/-- zlib_helpers.cpp:50-58. -/
def decompressTail (ret : Int) (buffer : Bytes) : Res Bytes := if ret ≠ zStreamEnd then .throw .runtimeError else .ok buffer

/-- zlib_helpers.cpp:17-64 `DecompressBytes`. -/
def decompress {S : Type} (L : Lib S) (garbage : Bytes) (fuel : Nat) (compressed : Bytes) : Option (Res Bytes) :=
  if compressed.length ≤ uint32Max then
    if L.initRet ≠ zOk then some (.throw .runtimeError)
    else
      match drainAll L fuel { st := L.start, input := compressed, temp := garbage, nextOut := 0, availOut := 0, totalOut := 0 } [] with
      | none => none
      | some (.throw e) => some (.throw e)
      | some .ub => some .ub
      | some (.ok (ret, buffer)) => some (decompressTail ret buffer)
  else some (.throw .invalidArgument)

/-! ### Files -/

/-- The file being written: `none` if it cannot be opened, otherwise how many of the bytes reach the disk. (zlib_helpers.cpp:135-162) -/
abbrev WriteEnv := Option (Nat → Nat)

/-- zlib_helpers.cpp:154-162 `CompressAndWriteToFile`: the content of the file afterwards (`none`: not created), or the exception. The stream's state is never checked. -/
def compressAndWrite {S : Type} (L : Lib S) (garbage : Bytes) (fuel : Nat) (uncompressed : Bytes) (env : WriteEnv) : Option (Res (Option Bytes)) :=
  match compress L garbage fuel uncompressed with
  | none => none
  | some (.throw e) => some (.throw e)
  | some .ub => some .ub
  | some (.ok compressed) => some (.ok (env.map fun written => compressed.take (written compressed.length)))

/-- zlib_helpers.cpp:136-152 `LoadFromFileAndDecompress` of a regular file with the given content (`none`: it cannot be opened), of which `readable` bytes can be read. -/
def loadAndDecompress {S : Type} (L : Lib S) (garbage : Bytes) (fuel : Nat) (file : Option Bytes) (readable : Nat) : Option (Res Bytes) :=
  match file with
  | none => some (.throw .runtimeError)
  | some content => if readable < content.length then some (.throw .runtimeError) else decompress L garbage fuel content

end CRU.Zlib
