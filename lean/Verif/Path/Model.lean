import Verif.Utility.Model
/-
  Model of include/common_robotics_utilities/path_processing.hpp. Containers are lists; `double` values are rationals rounded by
  `fl` (`Verif/Float.lean`), distances are finite. The callbacks are functions: they are pure and do not throw.
-/
namespace CRU.Path
open CRU.Util

variable {C : Type}

/-- The callbacks and the two constant parameters of a smoothing run. (path_processing.hpp:193-207) -/
structure Cfg (C : Type) where
  /-- `resample_shortcuts_interval` -/
  interval : ℚ
  /-- `check_for_marginal_shortcuts` -/
  check : Bool
  /-- `edge_validity_check_fn` -/
  valid : C → C → Bool
  /-- `state_distance_fn` -/
  dist : C → C → ℚ
  /-- `state_interpolation_fn` -/
  interp : C → C → ℚ → C

/-- path_processing.hpp:29-43: number of edges before the first invalid one. -/
def freeEdges (valid : C → C → Bool) : List C → Nat
  | a :: b :: l => if valid a b then freeEdges valid (b :: l) + 1 else 0
  | _ => 0

/-- path_processing.hpp:20-62 `ComputePercentCollisionFree`. -/
def percentFree (fl : ℚ → ℚ) (valid : C → C → Bool) (path : List C) : ℚ :=
  match path with
  | [] => 1
  | [a] => if valid a a then 1 else 0
  | _ :: _ :: _ => fl (fl (freeEdges valid path : ℚ) / fl ((path.length - 1 : Nat) : ℚ))

/-- path_processing.hpp:98-100, 308-310: `static_cast<uint32_t>(std::ceil(distance / interval))`, undefined out of range. -/
def numSegments (fl : ℚ → ℚ) (dist interval : ℚ) : Res Nat := do
  let n ← u32.cast ⌈fl (dist / interval)⌉
  pure n.toNat

/-- path_processing.hpp:95-109: the states inserted between the two ends of a shortcut. -/
def inserted (fl : ℚ → ℚ) (cfg : Cfg C) (a b : C) : Res (List C) :=
  if cfg.interval > 0 then do
    let n ← numSegments fl (cfg.dist a b) cfg.interval
    pure ((List.range' 1 (n - 1)).map fun k : Nat => cfg.interp a b (fl ((k : ℚ) / (n : ℚ))))
  else pure []

/-- path_processing.hpp:87-123: the direct shortcut; `none` if it is rejected. -/
def direct (fl : ℚ → ℚ) (cfg : Cfg C) (a b : C) : Res (Option (List C)) :=
  if cfg.valid a b then do
    let mid ← inserted fl cfg a b
    let shortcut := [a] ++ mid ++ [b]
    if shortcut.length ≤ 2 ∨ cfg.check = false then pure (some shortcut)
    else if percentFree fl cfg.valid shortcut = 1 then pure (some shortcut)
    else pure none
  else pure none

/-- The iterator range `[begin() + i, begin() + j)`, `i ≤ j ≤ size`. (path_processing.hpp:169-180, 253-268) -/
def slice (l : List C) (i j : Nat) : List C := (l.drop i).take (j - i)

/-- path_processing.hpp:147-184: joining what was found for the two halves. -/
def combine (path : List C) (s m e : Nat) (first second : List C) : List C :=
  if first.length > 0 ∧ second.length > 0 then first ++ second.drop 1
  else if first.length > 0 then first ++ slice path (m + 1) (e + 1)
  else if second.length > 0 then slice path s m ++ second
  else []

/-- path_processing.hpp:64-189 `AttemptShortcut`; the empty list means failure. -/
def attempt (fl : ℚ → ℚ) (cfg : Cfg C) (path : List C) : (steps s e : Nat) → Res (List C)
  | steps, s, e =>
    if s ≥ e then .throw .invalidArgument
    else do
      let a ← atRaw path s
      let b ← atRaw path e
      let d ← direct fl cfg a b
      match d with
      | some shortcut => pure shortcut
      | none =>
        match steps with
        | 0 => pure []
        | steps' + 1 =>
          if e - s ≥ 2 then do
            let m := s + (e - s) / 2
            let first ← attempt fl cfg path steps' s m
            let second ← attempt fl cfg path steps' m e
            pure (combine path s m e first second)
          else pure []

/-- math.cpp:384-392 `math::Interpolate`. -/
def interpolate (fl : ℚ → ℚ) (p1 p2 ratio : ℚ) : Res ℚ := do
  let r ← clampValue ratio 0 1
  pure (fl (fl (p1 * fl (1 - r)) + fl (p2 * r)))

/-- path_processing.hpp:219-231: the two ends of the next attempt, from the two values drawn. `std::vector` guarantees that its
size fits `int64_t`; the first line stands for that. -/
def window (fl : ℚ → ℚ) (fraction : ℚ) (u : ℚ × ℚ) (length : Nat) : Res (Int × Int) := do
  let size ← i64.cast length
  let base ← randomIndex fl i64 u.1 size
  let off ← interpolate fl (-fraction) fraction u.2
  let step ← i64.cast ⌊fl (fl (size : ℚ) * off)⌋
  let idx ← i64.arith (base + step)
  let safe ← clampValue idx 0 (size - 1)
  pure (base, safe)

/-- What a smoothing run reports: the path, the number of shortcut attempts and the number of failed ones. (path_processing.hpp:209-212, 276) -/
structure Report (C : Type) where
  path : List C
  attempts : Nat
  failed : Nat

/-- path_processing.hpp:213-275: the loop, with at most the given number of iterations left. `draws k` are the two values drawn
in iteration `k`. -/
def loop (fl : ℚ → ℚ) (cfg : Cfg C) (maxFailed steps : Nat) (fraction : ℚ) (draws : Nat → ℚ × ℚ) :
    Nat → Nat → Report C → Res (Report C)
  | 0, _, r => .ok r
  | n + 1, k, r =>
    if r.failed < maxFailed ∧ r.path.length > 2 then do
      let w ← window fl fraction (draws k) r.path.length
      let s := (min w.1 w.2).toNat
      let e := (max w.1 w.2).toNat
      if e ≤ s + 1 then loop fl cfg maxFailed steps fraction draws n (k + 1) r
      else do
        let shortcut ← attempt fl cfg r.path steps s e
        if shortcut.length > 0 then
          loop fl cfg maxFailed steps fraction draws n (k + 1)
            ⟨slice r.path 0 s ++ shortcut ++ slice r.path (e + 1) r.path.length, r.attempts + 1, r.failed⟩
        else loop fl cfg maxFailed steps fraction draws n (k + 1) ⟨r.path, r.attempts + 1, r.failed + 1⟩
    else .ok r

/-- path_processing.hpp:191-277 `ShortcutSmoothPath`. -/
def smooth (fl : ℚ → ℚ) (cfg : Cfg C) (maxIterations maxFailed steps : Nat) (fraction : ℚ) (draws : Nat → ℚ × ℚ) (path : List C) :
    Res (Report C) :=
  loop fl cfg maxFailed steps fraction draws maxIterations 0 ⟨path, 0, 0⟩

/-- path_processing.hpp:303-334: the states added for one segment of the path. -/
def segment (fl : ℚ → ℚ) (dist : C → C → ℚ) (interp : C → C → ℚ → C) (d : ℚ) (a b : C) : Res (List C) := do
  let n ← numSegments fl (dist a b) d
  if n = 0 then pure []
  else if n = 1 then pure [b]
  else pure ((List.range' 1 n).map fun k : Nat => interp a b (fl ((k : ℚ) / (n : ℚ))))

/-- path_processing.hpp:301-335: the loop over the segments, from the state `a` on. -/
def resampleFrom (fl : ℚ → ℚ) (dist : C → C → ℚ) (interp : C → C → ℚ → C) (d : ℚ) : C → List C → List C → Res (List C)
  | _, [], acc => .ok acc
  | a, b :: l, acc => do
    let s ← segment fl dist interp d a b
    resampleFrom fl dist interp d b l (acc ++ s)

/-- path_processing.hpp:279-337 `ResamplePath`. -/
def resample (fl : ℚ → ℚ) (dist : C → C → ℚ) (interp : C → C → ℚ → C) (d : ℚ) (path : List C) : Res (List C) :=
  match path with
  | [] => .ok []
  | [a] => .ok [a]
  | a :: b :: l => if d ≤ 0 then .throw .invalidArgument else resampleFrom fl dist interp d a (b :: l) [a]

end CRU.Path
