import Verif.Totp.Limits
import Verif.Totp.Eval
/-
  C81, C82: the construction of a trajectory (time_optimal_trajectory_parametrization.cpp:510-579, 608-983), in exact arithmetic.

  Loops need not end. Every loop is given a number of turns, and a computation is `none` while some loop has not ended within its number; the
  program ends if the computation is not `none` for some (large) number. Limits of other sizes than the waypoints (accesses out of range) and
  allocation failures are left out. Positions and velocities are numbers: for non-negative velocity limits all of them are
  (`Limits`: the accelerations and the velocity limit are numbers); where the code takes over a value that is not, `Ext.real` gives 0.
-/
namespace CRU.Totp
open Ext

variable {n : Nat}

/-- The value of a `double` that is a number. -/
noncomputable def Ext.real : Ext → ℝ
  | .fin x => x
  | _ => 0

/-- time_optimal_trajectory_parametrization.cpp:510: `eps`. -/
noncomputable def eps : ℝ := 1 / 1000000

/-- The state of a computation: still running, or its outcome. -/
abbrev Run (α : Type) := Option (Res α)

/-- Sequencing. -/
def Run.then {α β : Type} (r : Run α) (f : α → Run β) : Run β :=
  match r with
  | none => none
  | some (.ok a) => f a
  | some (.throw e) => some (.throw e)
  | some .ub => some .ub

/-- time_optimal_trajectory_parametrization.cpp:347-354: what the construction reads. -/
structure Setup (n : Nat) where
  path : Path n
  vmax : Fin n → ℝ
  amax : Fin n → ℝ
  dt : ℝ

/-- time_optimal_trajectory_parametrization.cpp:985-1005 `GetMinMaxPathAcceleration`; a tangent that is NaN limits nothing. -/
noncomputable def Setup.acc (e : Setup n) (pos : ℝ) (vel : Ext) (max : Bool) : Ext :=
  match e.path.tangent pos with
  | some t => minMaxAcc e.amax t (e.path.curvature pos) vel max
  | none => .fin (factor max * dblMax)

/-- time_optimal_trajectory_parametrization.cpp:1007-1012 `GetMinMaxPhaseSlope`. -/
noncomputable def Setup.slope (e : Setup n) (pos : ℝ) (vel : Ext) (max : Bool) : Ext := div (e.acc pos vel max) vel

/-- time_optimal_trajectory_parametrization.cpp:1014-1049 `GetAccelerationMaxPathVelocity`. -/
noncomputable def Setup.accVel (e : Setup n) (pos : ℝ) : Ext :=
  match e.path.tangent pos with
  | some t => accMaxVel e.amax t (e.path.curvature pos)
  | none => .pinf

/-- time_optimal_trajectory_parametrization.cpp:1052-1062 `GetVelocityMaxPathVelocity`. -/
noncomputable def Setup.velVel (e : Setup n) (pos : ℝ) : Ext :=
  match e.path.tangent pos with
  | some t => velMaxVel e.vmax t
  | none => .fin dblMax

/-- time_optimal_trajectory_parametrization.cpp:1064-1068 `GetAccelerationMaxPathVelocityDeriv`. -/
noncomputable def Setup.accVelDeriv (e : Setup n) (pos : ℝ) : Ext :=
  div ((e.accVel (pos + eps)).sub (e.accVel (pos - eps))) (.fin (2 * eps))

/-- time_optimal_trajectory_parametrization.cpp:1070-1089 `GetVelocityMaxPathVelocityDeriv`. -/
noncomputable def Setup.velVelDeriv [NeZero n] (e : Setup n) (pos : ℝ) : Ext :=
  match e.path.tangent pos with
  | some t => velMaxVelDeriv e.vmax t (e.path.curvature pos)
  | none => .nan

/-! ### Integrating forward -/

open Classical in
/-- time_optimal_trajectory_parametrization.cpp:862-884: bisection for the place where the maximum velocity is exceeded; `before`, its
velocity, and `after`. -/
noncomputable def bisectForward [NeZero n] (e : Setup n) : Nat → ℝ → ℝ → ℝ → ℝ → Option (ℝ × ℝ × ℝ)
  | 0, _, _, _, _ => none
  | k + 1, before, beforeVel, after, afterVel =>
    if eps < after - before then
      let mid := (1 / 2 : ℝ) * (before + after)
      let mv0 := (1 / 2 : ℝ) * (beforeVel + afterVel)
      let mv := if (e.velVel mid).lt (.fin mv0) ∧ (e.slope before (e.velVel before) false).le (e.velVelDeriv before)
        then (e.velVel mid).real else mv0
      if (e.accVel mid).lt (.fin mv) ∨ (e.velVel mid).lt (.fin mv) then bisectForward e k before beforeVel mid mv
      else bisectForward e k mid mv after afterVel
    else some (before, beforeVel, after)

/-- The variables of the loop; `rev` is the trajectory, the last step first. (time_optimal_trajectory_parametrization.cpp:802-912) -/
structure Fwd where
  rev : List Step
  pos : ℝ
  vel : ℝ
  acc : ℝ
  discs : List (ℝ × Bool)

open Classical in
/-- time_optimal_trajectory_parametrization.cpp:820-832: the next place and velocity. -/
noncomputable def Fwd.next (s : Fwd) (dt : ℝ) (discs : List (ℝ × Bool)) : Step :=
  let vel := s.vel + dt * s.acc
  let pos := s.pos + dt * (1 / 2) * (s.vel + vel)
  match discs with
  | [] => ⟨pos, vel⟩
  | d :: _ => if d.1 < pos then ⟨d.1, s.vel + (d.1 - s.pos) * (vel - s.vel) / (pos - s.pos)⟩ else ⟨pos, vel⟩

open Classical in
/-- time_optimal_trajectory_parametrization.cpp:814-819: skip the switching points that are behind, or no discontinuities. -/
noncomputable def Fwd.remaining (s : Fwd) : List (ℝ × Bool) := s.discs.dropWhile (fun x => decide (x.1 ≤ s.pos ∨ x.2 = false))

open Classical in
/-- time_optimal_trajectory_parametrization.cpp:843-849: reduce the velocity to the limit where the limit can be followed. -/
noncomputable def Setup.clip [NeZero n] (e : Setup n) (oldPos : ℝ) (c : Step) : ℝ :=
  if (e.velVel c.pos).lt (.fin c.vel) ∧ (e.slope oldPos (e.velVel oldPos) false).le (e.velVelDeriv oldPos)
    then (e.velVel c.pos).real else c.vel

open Classical in
/-- time_optimal_trajectory_parametrization.cpp:886-910: whether to stop after the bisection. The next discontinuity is read although there may be
none. -/
noncomputable def Setup.stop [NeZero n] (e : Setup n) (discs : List (ℝ × Bool)) (before beforeVel after : ℝ) : Res Bool :=
  if (e.accVel after).lt (e.velVel after) then
    match discs with
    | [] => .ub
    | d :: _ => .ok (decide (d.1 < after) || decide ((e.accVelDeriv before).lt (e.slope before (.fin beforeVel) true)))
  else .ok (decide ((e.velVelDeriv before).lt (e.slope before (.fin beforeVel) false)))

open Classical in
/-- time_optimal_trajectory_parametrization.cpp:802-913 `IntegrateForward`, the loop: the trajectory, and whether the end of the path was
reached. -/
noncomputable def forward [NeZero n] (e : Setup n) (N : Nat) : Nat → Fwd → Run (List Step × Bool)
  | 0, _ => none
  | k + 1, s =>
    let discs := s.remaining
    let c := s.next e.dt discs
    if e.path.length < c.pos then some (.ok (c :: s.rev, true))
    else if c.vel < 0 then some (.throw .runtimeError)
    else
      let vel := e.clip s.pos c
      let acc := (e.acc c.pos (.fin vel) true).real
      if (e.accVel c.pos).lt (.fin vel) ∨ (e.velVel c.pos).lt (.fin vel) then
        match s.rev with
        | [] => some .ub
        | b :: _ =>
          match bisectForward e N b.pos b.vel c.pos vel with
          | none => none
          | some r => Run.then (some (e.stop discs r.1 r.2.1 r.2.2)) fun stop =>
              if stop then some (.ok (⟨r.1, r.2.1⟩ :: s.rev, false))
              else forward e N k ⟨⟨r.1, r.2.1⟩ :: s.rev, c.pos, vel, acc, discs⟩
      else forward e N k ⟨⟨c.pos, vel⟩ :: s.rev, c.pos, vel, acc, discs⟩

/-- time_optimal_trajectory_parametrization.cpp:802-811: the start of `IntegrateForward`; the trajectory has a last step. -/
noncomputable def integrateForward [NeZero n] (e : Setup n) (N : Nat) (rev : List Step) (acceleration : ℝ) : Run (List Step × Bool) :=
  match rev with
  | [] => some .ub
  | b :: _ => forward e N N ⟨rev, b.pos, b.vel, acceleration, e.path.switching⟩

/-! ### Integrating backward -/

/-- The variables of the loop: `s2`, `s1` and `below` are the steps of the trajectory from `start2` down, `traj` is the new part, its first step
first. (time_optimal_trajectory_parametrization.cpp:915-983) -/
structure Bwd where
  s2 : Step
  s1 : Step
  below : List Step
  traj : List Step
  pos : ℝ
  vel : ℝ
  acc : ℝ
  slope : Ext

/-- time_optimal_trajectory_parametrization.cpp:958-959: the slope of the trajectory. -/
noncomputable def Bwd.startSlope (s : Bwd) : Ext := div (.fin (s.s2.vel - s.s1.vel)) (.fin (s.s2.pos - s.s1.pos))

/-- time_optimal_trajectory_parametrization.cpp:960-963: where the two lines intersect. -/
noncomputable def Bwd.crossing (s : Bwd) : Ext :=
  div (((Ext.fin (s.s1.vel - s.vel)).add (mul s.slope (.fin s.pos))).sub (mul s.startSlope (.fin s.s1.pos))) (s.slope.sub s.startSlope)

open Classical in
/-- time_optimal_trajectory_parametrization.cpp:964-979: if they intersect within both segments, the new trajectory (its last step first). -/
noncomputable def Bwd.check (s : Bwd) : Res (Option (List Step)) :=
  match s.traj with
  | [] => .ub
  | f :: _ =>
    if (Ext.fin (max s.s1.pos s.pos - eps)).le s.crossing ∧ s.crossing.le (.fin (eps + min s.s2.pos f.pos)) then
      .ok (some (s.traj.reverse ++
        ⟨s.crossing.real, ((Ext.fin s.s1.vel).add (mul s.startSlope (s.crossing.sub (.fin s.s1.pos)))).real⟩ :: s.s1 :: s.below))
    else .ok none

/-- time_optimal_trajectory_parametrization.cpp:937-946: one step backward. -/
noncomputable def Bwd.push (s : Bwd) (e : Setup n) : Bwd :=
  let vel := s.vel - e.dt * s.acc
  let pos := s.pos - e.dt * (1 / 2) * (vel + s.vel)
  { s with traj := ⟨s.pos, s.vel⟩ :: s.traj, pos := pos, vel := vel, acc := (e.acc pos (.fin vel) false).real,
           slope := div (.fin (s.vel - vel)) (.fin (s.pos - pos)) }

open Classical in
/-- time_optimal_trajectory_parametrization.cpp:933-982: the loop of `IntegrateBackward`. -/
noncomputable def backward (e : Setup n) : Nat → Bwd → Run (List Step)
  | 0, _ => none
  | k + 1, s =>
    if s.below ≠ [] ∨ 0 ≤ s.pos then
      if s.s1.pos ≤ s.pos then
        let s' := s.push e
        if s'.vel < 0 then some (.throw .runtimeError)
        else Run.then (some s'.check) fun r =>
          match r with
          | some rev => some (.ok rev)
          | none => backward e k s'
      else
        match s.below with
        | [] => some .ub
        | b :: bs =>
          let s' : Bwd := { s with s2 := s.s1, s1 := b, below := bs }
          Run.then (some s'.check) fun r =>
          match r with
          | some rev => some (.ok rev)
          | none => backward e k s'
    else some (.throw .runtimeError)

open Classical in
/-- time_optimal_trajectory_parametrization.cpp:915-932: the start of `IntegrateBackward`; the trajectory has at least two steps. -/
noncomputable def integrateBackward (e : Setup n) (N : Nat) (rev : List Step) (pos vel acc : ℝ) : Run (List Step) :=
  match rev with
  | s2 :: s1 :: below => if pos < s1.pos then some (.throw .invalidArgument) else backward e N ⟨s2, s1, below, [], pos, vel, acc, .fin 0⟩
  | _ => some .ub

/-! ### Switching points -/

/-- A switching point with the accelerations before and after it. (time_optimal_trajectory_parametrization.cpp:608-800) -/
structure Switch where
  pos : ℝ
  vel : Ext
  before : Ext
  after : Ext

open Classical in
/-- time_optimal_trajectory_parametrization.cpp:677-737 `GetNextAccelerationSwitchingPoint`: whether the end of the path is reached, and otherwise
the point. -/
noncomputable def nextAccSwitch (e : Setup n) : Nat → ℝ → Option (Option Switch)
  | 0, _ => none
  | k + 1, pos =>
    let p := e.path.nextSwitchingPoint pos
    if e.path.length - eps < p.1 then some none
    else if p.2 then
      let bv := e.accVel (p.1 - eps)
      let av := e.accVel (p.1 + eps)
      let v := stdMin bv av
      if (av.lt bv ∨ (e.accVelDeriv (p.1 - 2 * eps)).lt (e.slope (p.1 - eps) v false)) ∧
          (bv.lt av ∨ (e.slope (p.1 + eps) v true).lt (e.accVelDeriv (p.1 + 2 * eps))) then
        some (some ⟨p.1, v, e.acc (p.1 - eps) v false, e.acc (p.1 + eps) v true⟩)
      else nextAccSwitch e k p.1
    else if (e.accVelDeriv (p.1 - eps)).lt (.fin 0) ∧ (Ext.fin 0).lt (e.accVelDeriv (p.1 + eps)) then
      some (some ⟨p.1, e.accVel p.1, .fin 0, .fin 0⟩)
    else nextAccSwitch e k p.1

open Classical in
/-- time_optimal_trajectory_parametrization.cpp:743-767: the first loop of `GetNextVelocitySwitchingPoint`, in steps of 0.001. -/
noncomputable def velScan [NeZero n] (e : Setup n) : Nat → ℝ → Bool → Option ℝ
  | 0, _, _ => none
  | k + 1, pos0, start0 =>
    let pos := pos0 + 1 / 1000
    let start := start0 || decide ((e.velVelDeriv pos).le (e.slope pos (e.velVel pos) false))
    if (start = false ∨ (e.velVelDeriv pos).lt (e.slope pos (e.velVel pos) false)) ∧ pos < e.path.length then velScan e k pos start
    else some pos

open Classical in
/-- time_optimal_trajectory_parametrization.cpp:772-789: the second loop of `GetNextVelocitySwitchingPoint`. -/
noncomputable def velBisect [NeZero n] (e : Setup n) : Nat → ℝ → ℝ → Option (ℝ × ℝ)
  | 0, _, _ => none
  | k + 1, before, after =>
    if 1 / 1000000 < after - before then
      let mid := (before + after) / 2
      if (e.velVelDeriv mid).lt (e.slope mid (e.velVel mid) false) then velBisect e k mid after else velBisect e k before mid
    else some (before, after)

open Classical in
/-- time_optimal_trajectory_parametrization.cpp:739-799 `GetNextVelocitySwitchingPoint`. -/
noncomputable def nextVelSwitch [NeZero n] (e : Setup n) (N : Nat) (pos : ℝ) : Option (Option Switch) :=
  match velScan e N (pos - 1 / 1000) false with
  | none => none
  | some p =>
    if e.path.length ≤ p then some none
    else match velBisect e N (p - 1 / 1000) p with
      | none => none
      | some r => some (some ⟨r.2, e.velVel r.2, e.acc r.1 (e.velVel r.1) false, e.acc r.2 (e.velVel r.2) true⟩)

open Classical in
/-- time_optimal_trajectory_parametrization.cpp:613-630: the first loop of `GetNextSwitchingPoint`: whether the end was reached, and the last
point (at first the position itself). -/
noncomputable def accSwitchLoop (e : Setup n) (N : Nat) : Nat → Switch → Option (Bool × Switch)
  | 0, _ => none
  | k + 1, s =>
    match nextAccSwitch e N s.pos with
    | none => none
    | some none => some (true, s)
    | some (some s') => if (e.velVel s'.pos).lt s'.vel then accSwitchLoop e N k s' else some (false, s')

open Classical in
/-- time_optimal_trajectory_parametrization.cpp:632-652: the second loop of `GetNextSwitchingPoint`. -/
noncomputable def velSwitchLoop [NeZero n] (e : Setup n) (N : Nat) (accPos : ℝ) : Nat → Switch → Option (Bool × Switch)
  | 0, _ => none
  | k + 1, s =>
    match nextVelSwitch e N s.pos with
    | none => none
    | some none => some (true, s)
    | some (some s') =>
      if s'.pos ≤ accPos ∧ ((e.accVel (s'.pos - eps)).lt s'.vel ∨ (e.accVel (s'.pos + eps)).lt s'.vel) then velSwitchLoop e N accPos k s'
      else some (false, s')

open Classical in
/-- time_optimal_trajectory_parametrization.cpp:608-675 `GetNextSwitchingPoint`: `none` if the end of the path is reached. -/
noncomputable def nextSwitch [NeZero n] (e : Setup n) (N : Nat) (pos : ℝ) : Option (Option Switch) :=
  match accSwitchLoop e N N ⟨pos, .fin 0, .fin 0, .fin 0⟩ with
  | none => none
  | some a =>
    match velSwitchLoop e N a.2.pos N ⟨pos, .fin 0, .fin 0, .fin 0⟩ with
    | none => none
    | some v =>
      if a.1 = true ∧ v.1 = true then some none
      else if a.1 = false ∧ (v.1 = true ∨ a.2.pos ≤ v.2.pos) then some (some a.2)
      else some (some v.2)

/-! ### The constructor -/

/-- time_optimal_trajectory_parametrization.cpp:548-563: the main loop. -/
noncomputable def mainLoop [NeZero n] (e : Setup n) (N : Nat) : Nat → List Step → ℝ → Run (List Step)
  | 0, _, _ => none
  | k + 1, rev, acc =>
    Run.then (integrateForward e N rev acc) fun r =>
      if r.2 then some (.ok r.1)
      else
        match r.1 with
        | [] => some .ub
        | b :: _ =>
          match nextSwitch e N b.pos with
          | none => none
          | some none => some (.ok r.1)
          | some (some s) => Run.then (integrateBackward e N r.1 s.pos s.vel.real s.before.real) fun rev' => mainLoop e N k rev' s.after.real

/-- time_optimal_trajectory_parametrization.cpp:546-566: the steps, in order. -/
noncomputable def buildSteps [NeZero n] (e : Setup n) (N : Nat) : Run (List Step) :=
  Run.then (mainLoop e N N [⟨0, 0⟩] (e.acc 0 (.fin 0) true).real) fun rev =>
    Run.then (integrateBackward e N rev e.path.length 0 (e.acc e.path.length (.fin 0) false).real) fun rev' => some (.ok rev'.reverse)

/-- All entries are finite. -/
def AllFin (v : Fin n → Ext) : Prop := ∀ i, ∃ x, v i = .fin x

open Classical in
/-- time_optimal_trajectory_parametrization.cpp:512-579 the constructors of `Trajectory`, 1150-1161, 1183-1192 `ParametrizePathTOTP`: the path and
the steps with their times. -/
noncomputable def parametrize [NeZero n] (N : Nat) (waypoints : List (V n)) (vmax amax : Fin n → Ext) (maxDeviation timestep : Ext) :
    Run (Path n × List Timed) :=
  Run.then (some (Path.make waypoints maxDeviation)) fun p =>
    if AllFin vmax ∧ AllFin amax ∧ ∃ x, timestep = .fin x then
      Run.then (buildSteps ⟨p, fun i => (vmax i).real, fun i => (amax i).real, timestep.real⟩ N) fun steps => some (.ok (p, timing steps))
    else some (.throw .invalidArgument)

end CRU.Totp
