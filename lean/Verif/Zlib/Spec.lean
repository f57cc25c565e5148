import Verif.Zlib.Model
/-
  What the zlib manual promises about `deflate` and `inflate`, and C55 in its terms.
-/
namespace CRU.Zlib

/-- The stream format: `IsStream x c` means that `c` is a complete compressed stream of `x`. -/
structure Format where
  IsStream : Bytes → Bytes → Prop
  /-- A stream marks its own end, and determines what it was made from. -/
  unique : ∀ {x c y d : Bytes}, IsStream x c → IsStream y d → c <+: d → x = y ∧ c = d

/-- A library that counts honestly: never more output than there is room for, never more input than there is. `taken` and `emitted` are what it has read and written so far. The conditions are about the states that correct use leads to (`ok`): no call
after a call that did not return `Z_OK`, and no `Z_NO_FLUSH` after `Z_FINISH`. -/
structure Honest {S : Type} (L : Lib S) where
  ok : Flush → S → Prop
  taken : S → Bytes
  emitted : S → Bytes
  ok_start : ok .noFlush L.start
  ok_finish : ∀ s, ok .noFlush s → ok .finish s
  ok_step : ∀ s f input n, ok f s → (L.step s f input n).ret = zOk → ok f (L.step s f input n).state
  start : taken L.start = [] ∧ emitted L.start = []
  room : ∀ s f input n, ok f s → (L.step s f input n).out.length ≤ n
  count : ∀ s f input n, ok f s → (L.step s f input n).consumed ≤ input.length
  step : ∀ s f input n, ok f s → taken (L.step s f input n).state = taken s ++ input.take (L.step s f input n).consumed ∧
    emitted (L.step s f input n).state = emitted s ++ (L.step s f input n).out

/-- `deflate` answers `Z_STREAM_END` only when a complete stream of all input has been written. -/
def DeflateSound {S : Type} (F : Format) {L : Lib S} (H : Honest L) : Prop :=
  ∀ s n, H.ok .finish s → (L.step s .finish [] n).ret = zStreamEnd → F.IsStream (H.taken s) (H.emitted (L.step s .finish [] n).state)

/-- `deflate` does not fail while it has room, and does not go on for ever. -/
structure DeflateWorks {S : Type} {L : Lib S} (H : Honest L) where
  init : L.initRet = zOk
  rank : S → Bytes → Nat
  feed : ∀ s input n, H.ok .noFlush s → input ≠ [] → 0 < n → (L.step s .noFlush input n).ret = zOk ∧
    rank (L.step s .noFlush input n).state (input.drop (L.step s .noFlush input n).consumed) < rank s input
  finish : ∀ s n, H.ok .finish s → 0 < n → (L.step s .finish [] n).ret = zStreamEnd ∨
    ((L.step s .finish [] n).ret = zOk ∧ rank (L.step s .finish [] n).state [] < rank s [])

/-- `inflate` answers `Z_STREAM_END` only when it has read a complete stream and written all that it stands for. -/
def InflateSound {S : Type} (F : Format) {L : Lib S} (H : Honest L) : Prop :=
  ∀ s input n, H.ok .noFlush s → (L.step s .noFlush input n).ret = zStreamEnd →
    F.IsStream (H.emitted (L.step s .noFlush input n).state) (H.taken (L.step s .noFlush input n).state)

/-- `inflate` does not go on for ever, and while the bytes read and to be read start with a complete stream it does not fail. -/
structure InflateWorks {S : Type} (F : Format) {L : Lib S} (H : Honest L) where
  init : L.initRet = zOk
  rank : S → Bytes → Nat
  progress : ∀ s input n, H.ok .noFlush s → 0 < n → (L.step s .noFlush input n).ret = zOk →
    rank (L.step s .noFlush input n).state (input.drop (L.step s .noFlush input n).consumed) < rank s input
  good : ∀ s input n x c, H.ok .noFlush s → 0 < n → F.IsStream x c → c <+: H.taken s ++ input →
    (L.step s .noFlush input n).ret = zOk ∨ (L.step s .noFlush input n).ret = zStreamEnd

/-- `f` ends with the result `r`, whatever the (sufficient) fuel. -/
def Ends {α : Type} (f : Nat → Option (Res α)) (r : Res α) : Prop := ∃ N, ∀ fuel, N ≤ fuel → f fuel = some r

end CRU.Zlib
