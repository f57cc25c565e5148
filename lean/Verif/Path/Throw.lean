import Verif.Path.Model
/-
  include/common_robotics_utilities/path_processing.hpp with callbacks that keep state and that may throw.
  What a callback answers may depend on every call made before it, of any callback, and on every answer given: the callbacks are
  functions of the list of calls so far. (A callback with an initial state of its own, or one that reads a clock, is such a function.)
  Every run ends with the list of the calls that were made. Numbers as in `Verif/Path/Model.lean`.
-/
namespace CRU.Path.Throw
open CRU.Util

variable {C ε α β : Type}

/-- One call of a callback: its arguments, and the answer or exception. (no project code: C++ or bookkeeping) -/
inductive Event (C ε : Type) where
  | valid (a b : C) (ans : Except ε Bool)
  | dist (a b : C) (ans : Except ε ℚ)
  | interp (a b : C) (t : ℚ) (ans : Except ε C)
  | draw (ans : Except ε ℚ)

/-- The calls made so far, in order. (no project code: C++ or bookkeeping) -/
abbrev Hist (C ε : Type) := List (Event C ε)

/-- The callbacks. (path_processing.hpp:193-207, 280-289) -/
structure Fns (C ε : Type) where
  /-- `edge_validity_check_fn` -/
  valid : Hist C ε → C → C → Except ε Bool
  /-- `state_distance_fn` -/
  dist : Hist C ε → C → C → Except ε ℚ
  /-- `state_interpolation_fn` -/
  interp : Hist C ε → C → C → ℚ → Except ε C
  /-- `uniform_unit_real_fn` -/
  draw : Hist C ε → Except ε ℚ

/-- How a run can fail: an exception of the library, one of a callback, undefined behaviour. (no project code: C++ or bookkeeping) -/
inductive Fail (ε : Type) where
  | lib (x : Exc)
  | user (x : ε)
  | ub

/-- Code that makes calls. (no project code: C++ or bookkeeping) -/
abbrev Run (C ε α : Type) := Hist C ε → Except (Fail ε) α × Hist C ε

/-- A statement that does nothing but give `a`. (no project code: C++ or bookkeeping) -/
def ret (a : α) : Run C ε α := fun h => (.ok a, h)

/-- Sequential composition; an exception skips the rest: nothing in the file catches. (no project code: C++ or bookkeeping) -/
def seq (m : Run C ε α) (f : α → Run C ε β) : Run C ε β := fun h =>
  match m h with
  | (.ok a, h1) => f a h1
  | (.error x, h1) => (.error x, h1)

instance : Monad (Run C ε) where
  pure := ret
  bind := seq

/-- A step that calls nothing. (no project code: C++ or bookkeeping) -/
def lib : Res α → Run C ε α
  | .ok a => ret a
  | .throw x => fun h => (.error (.lib x), h)
  | .ub => fun h => (.error .ub, h)

/-- A call of a callback: the answer, and the call added to the list. (no project code: C++ or bookkeeping) -/
def ask (f : Hist C ε → Except ε α) (ev : Except ε α → Event C ε) : Run C ε α := fun h =>
  match f h with
  | .ok a => (.ok a, h ++ [ev (.ok a)])
  | .error x => (.error (.user x), h ++ [ev (.error x)])

/-- path_processing.hpp:34, 49, 87: call of `edge_validity_check_fn`. -/
def askValid (F : Fns C ε) (a b : C) : Run C ε Bool := ask (fun h => F.valid h a b) (Event.valid a b)

/-- path_processing.hpp:97, 307: call of `state_distance_fn`. -/
def askDist (F : Fns C ε) (a b : C) : Run C ε ℚ := ask (fun h => F.dist h a b) (Event.dist a b)

/-- path_processing.hpp:105-107, 329-331: call of `state_interpolation_fn`. -/
def askInterp (F : Fns C ε) (a b : C) (t : ℚ) : Run C ε C := ask (fun h => F.interp h a b t) (Event.interp a b t)

/-- path_processing.hpp:219-223: call of `uniform_unit_real_fn`. -/
def askDraw (F : Fns C ε) : Run C ε ℚ := ask F.draw Event.draw

/-- The parameters of a smoothing run that are not callbacks. (path_processing.hpp:198-199) -/
structure Par where
  /-- `resample_shortcuts_interval` -/
  interval : ℚ
  /-- `check_for_marginal_shortcuts` -/
  check : Bool

/-- path_processing.hpp:29-43: number of edges before the first invalid one. -/
def freeEdges (F : Fns C ε) : List C → Run C ε Nat
  | a :: b :: l => do
    let v ← askValid F a b
    if v then do
      let n ← freeEdges F (b :: l)
      pure (n + 1)
    else pure 0
  | _ => pure 0

/-- path_processing.hpp:20-62 `ComputePercentCollisionFree`. -/
def percentFree (fl : ℚ → ℚ) (F : Fns C ε) (path : List C) : Run C ε ℚ :=
  match path with
  | [] => pure 1
  | [a] => do
    let v ← askValid F a a
    pure (if v then 1 else 0)
  | a :: b :: l => do
    let n ← freeEdges F (a :: b :: l)
    pure (fl (fl (n : ℚ) / fl (((a :: b :: l).length - 1 : Nat) : ℚ)))

/-- path_processing.hpp:101-108, 326-333: `state_interpolation_fn` at the given segment numbers, in order. -/
def interps (fl : ℚ → ℚ) (F : Fns C ε) (a b : C) (n : Nat) : List Nat → Run C ε (List C)
  | [] => pure []
  | k :: ks => do
    let x ← askInterp F a b (fl ((k : ℚ) / (n : ℚ)))
    let l ← interps fl F a b n ks
    pure (x :: l)

/-- path_processing.hpp:95-109: the states inserted between the two ends of a shortcut. -/
def inserted (fl : ℚ → ℚ) (par : Par) (F : Fns C ε) (a b : C) : Run C ε (List C) :=
  if par.interval > 0 then do
    let d ← askDist F a b
    let n ← lib (numSegments fl d par.interval)
    interps fl F a b n (List.range' 1 (n - 1))
  else pure []

/-- path_processing.hpp:87-123: the direct shortcut; `none` if it is rejected. -/
def direct (fl : ℚ → ℚ) (par : Par) (F : Fns C ε) (a b : C) : Run C ε (Option (List C)) := do
  let v ← askValid F a b
  if v then do
    let mid ← inserted fl par F a b
    if ([a] ++ mid ++ [b]).length ≤ 2 ∨ par.check = false then pure (some ([a] ++ mid ++ [b]))
    else do
      let p ← percentFree fl F ([a] ++ mid ++ [b])
      if p = 1 then pure (some ([a] ++ mid ++ [b])) else pure none
  else pure none

/-- path_processing.hpp:64-189 `AttemptShortcut`; the empty list means failure. -/
def attempt (fl : ℚ → ℚ) (par : Par) (F : Fns C ε) (path : List C) : (steps s e : Nat) → Run C ε (List C)
  | steps, s, e =>
    if s ≥ e then lib (.throw .invalidArgument)
    else do
      let a ← lib (atRaw path s)
      let b ← lib (atRaw path e)
      let d ← direct fl par F a b
      match d with
      | some shortcut => pure shortcut
      | none =>
        match steps with
        | 0 => pure []
        | steps' + 1 =>
          if e - s ≥ 2 then do
            let m := s + (e - s) / 2
            let first ← attempt fl par F path steps' s m
            let second ← attempt fl par F path steps' m e
            pure (combine path s m e first second)
          else pure []

/-- path_processing.hpp:219-231: the two ends of the next attempt. `GetUniformRandomIndex` checks the size before it draws; the
loop only gets here with a path of three or more states. -/
def window (fl : ℚ → ℚ) (F : Fns C ε) (fraction : ℚ) (length : Nat) : Run C ε (Int × Int) := do
  let size ← lib (i64.cast length)
  let u1 ← askDraw F
  let base ← lib (randomIndex fl i64 u1 size)
  let u2 ← askDraw F
  let off ← lib (interpolate fl (-fraction) fraction u2)
  let step ← lib (i64.cast ⌊fl (fl (size : ℚ) * off)⌋)
  let idx ← lib (i64.arith (base + step))
  let safe ← lib (clampValue idx 0 (size - 1))
  pure (base, safe)

/-- path_processing.hpp:213-275: the loop, with at most the given number of iterations left. -/
def loop (fl : ℚ → ℚ) (par : Par) (F : Fns C ε) (maxFailed steps : Nat) (fraction : ℚ) : Nat → Report C → Run C ε (Report C)
  | 0, r => pure r
  | n + 1, r =>
    if r.failed < maxFailed ∧ r.path.length > 2 then do
      let w ← window fl F fraction r.path.length
      let s := (min w.1 w.2).toNat
      let e := (max w.1 w.2).toNat
      if e ≤ s + 1 then loop fl par F maxFailed steps fraction n r
      else do
        let shortcut ← attempt fl par F r.path steps s e
        if shortcut.length > 0 then
          loop fl par F maxFailed steps fraction n
            ⟨slice r.path 0 s ++ shortcut ++ slice r.path (e + 1) r.path.length, r.attempts + 1, r.failed⟩
        else loop fl par F maxFailed steps fraction n ⟨r.path, r.attempts + 1, r.failed + 1⟩
    else pure r

/-- path_processing.hpp:191-277 `ShortcutSmoothPath`, with the calls it made. The given path is a `const` reference: the code
works on a copy, so there is nothing of the caller's that could change. -/
def smooth (fl : ℚ → ℚ) (par : Par) (F : Fns C ε) (maxIterations maxFailed steps : Nat) (fraction : ℚ) (path : List C) :
    Except (Fail ε) (Report C) × Hist C ε :=
  loop fl par F maxFailed steps fraction maxIterations ⟨path, 0, 0⟩ []

/-- path_processing.hpp:303-334: the states added for one segment of the path. -/
def segment (fl : ℚ → ℚ) (F : Fns C ε) (d : ℚ) (a b : C) : Run C ε (List C) := do
  let x ← askDist F a b
  let n ← lib (numSegments fl x d)
  if n = 0 then pure []
  else if n = 1 then pure [b]
  else interps fl F a b n (List.range' 1 n)

/-- path_processing.hpp:301-335: the loop over the segments, from the state `a` on. -/
def resampleFrom (fl : ℚ → ℚ) (F : Fns C ε) (d : ℚ) : C → List C → List C → Run C ε (List C)
  | _, [], acc => pure acc
  | a, b :: l, acc => do
    let s ← segment fl F d a b
    resampleFrom fl F d b l (acc ++ s)

/-- path_processing.hpp:279-337 `ResamplePath`, with the calls it made. -/
def resample (fl : ℚ → ℚ) (F : Fns C ε) (d : ℚ) (path : List C) : Except (Fail ε) (List C) × Hist C ε :=
  match path with
  | [] => (.ok [], [])
  | [a] => (.ok [a], [])
  | a :: b :: l => if d ≤ 0 then (.error (.lib .invalidArgument), []) else resampleFrom fl F d a (b :: l) [a] []

end CRU.Path.Throw
