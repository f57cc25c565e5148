import Verif.Totp.Arc
import Verif.Totp.Ext
import Verif.Math.Interpolate
import Mathlib.Data.List.DropRight
/-
  C77: paths of straight lines and circular blends (time_optimal_trajectory_parametrization.cpp:59-126, 227-259, 361-508), in exact
  arithmetic. The allocation of segments and their destruction, copies of paths (which copy every segment) and waypoints of different sizes
  (refused by assertions of Eigen) are left out.
-/
namespace CRU.Totp
open Real CRU.Math

variable {n : Nat}

/-! ### Model -/

/-- time_optimal_trajectory_parametrization.cpp:86-126 `LinearPathSegment`, 128-225 `CircularPathSegment`. -/
inductive Seg (n : Nat) where
  | lin (start end_ : V n)
  | arc (a : Arc n)

/-- time_optimal_trajectory_parametrization.cpp:83, 92: the length of a segment. -/
noncomputable def Seg.length : Seg n → ℝ
  | .lin a b => ‖b - a‖
  | .arc a => a.length

open Classical in
/-- time_optimal_trajectory_parametrization.cpp:94-98 (with `InterpolateXd`, math.cpp, exactly), 173-177: `GetConfig`. For a line without
length the ratio is NaN at 0 (`none`), and infinite, hence clamped, elsewhere. -/
noncomputable def Seg.config : Seg n → ℝ → Option (V n)
  | .lin a b, s =>
    if ‖b - a‖ = 0 then (if s = 0 then none else if s < 0 then some a else some b)
    else some (a + clamp01 (s / ‖b - a‖) • (b - a))
  | .arc a, s => some (a.config s)

open Classical in
/-- time_optimal_trajectory_parametrization.cpp:100-104, 179-183: `GetTangent`; `none` for NaN. -/
noncomputable def Seg.tangent : Seg n → ℝ → Option (V n)
  | .lin a b, _ => if ‖b - a‖ = 0 then none else some (‖b - a‖⁻¹ • (b - a))
  | .arc a, s => some (a.tangent s)

/-- time_optimal_trajectory_parametrization.cpp:106-110, 185-189: `GetCurvature`. -/
noncomputable def Seg.curvature : Seg n → ℝ → V n
  | .lin _ _, _ => 0
  | .arc a, s => a.curvature s

/-- time_optimal_trajectory_parametrization.cpp:112-115, 191-212: `GetSwitchingPoints`. -/
noncomputable def Seg.switchingPoints : Seg n → List ℝ
  | .lin _ _ => []
  | .arc a => a.switchingPoints

/-- time_optimal_trajectory_parametrization.cpp:385-388: the blend of a corner, between the middles of its legs. -/
noncomputable def cornerBlend (c1 c2 c3 : V n) (dev : ℝ) : Arc n :=
  Arc.make ((1 / 2 : ℝ) • (c1 + c2)) c2 ((1 / 2 : ℝ) • (c2 + c3)) dev

open Classical in
/-- time_optimal_trajectory_parametrization.cpp:389-394: the line before a blend. -/
noncomputable def lineTo (start end_ : V n) : List (Seg n) :=
  if 1 / 1000000 < ‖end_ - start‖ then [.lin start end_] else []

open Classical in
/-- time_optimal_trajectory_parametrization.cpp:379-405: the segments from `start` on, `c1` being the waypoint before. -/
noncomputable def buildSegments (dev : ℝ) : V n → V n → List (V n) → List (Seg n)
  | _, _, [] => []
  | _, start, [c2] => [.lin start c2]
  | c1, start, c2 :: c3 :: rest =>
    if 0 < dev then
      lineTo start ((cornerBlend c1 c2 c3 dev).config 0) ++
        .arc (cornerBlend c1 c2 c3 dev) ::
          buildSegments dev c2 ((cornerBlend c1 c2 c3 dev).config (cornerBlend c1 c2 c3 dev).length) (c3 :: rest)
    else .lin start c2 :: buildSegments dev c2 c2 (c3 :: rest)

/-- time_optimal_trajectory_parametrization.cpp:254-258: the fields of a path; every segment with its position. -/
structure Path (n : Nat) where
  length : ℝ
  switching : List (ℝ × Bool)
  segments : List (ℝ × Seg n)

open Classical in
/-- time_optimal_trajectory_parametrization.cpp:411-426: one turn of the loop. -/
noncomputable def addSegment (p : Path n) (g : Seg n) : Path n where
  length := p.length + g.length
  switching := (p.switching ++ g.switchingPoints.map (fun q => (p.length + q, false))).rdropWhile
    (fun x => decide (p.length + g.length ≤ x.1)) ++ [(p.length + g.length, true)]
  segments := p.segments ++ [(p.length, g)]

/-- time_optimal_trajectory_parametrization.cpp:406-428. -/
noncomputable def assemble (gs : List (Seg n)) : Path n :=
  let p := gs.foldl addSegment ⟨0, [], []⟩
  { p with switching := p.switching.dropLast }

/-- time_optimal_trajectory_parametrization.cpp:362-429 `Path::Path`. -/
noncomputable def Path.make (waypoints : List (V n)) (maxDeviation : Ext) : Res (Path n) :=
  match waypoints, maxDeviation with
  | c1 :: c2 :: rest, .fin dev => .ok (assemble (buildSegments dev c1 c1 (c2 :: rest)))
  | _, _ => .throw .invalidArgument

open Classical in
/-- time_optimal_trajectory_parametrization.cpp:450-462 `GetPathSegment`: the segment, with its position, for `s`. -/
noncomputable def locate : ℝ × Seg n → List (ℝ × Seg n) → ℝ → ℝ × Seg n
  | cur, [], _ => cur
  | cur, next :: rest, s => if next.1 ≤ s then locate next rest s else cur

/-- time_optimal_trajectory_parametrization.cpp:464-469 `GetConfig`; a path without segments does not exist (`begin` would be
dereferenced). -/
noncomputable def Path.config (p : Path n) (s : ℝ) : Option (V n) :=
  match p.segments with
  | [] => none
  | g :: gs => (locate g gs s).2.config (s - (locate g gs s).1)

/-- time_optimal_trajectory_parametrization.cpp:471-476 `GetTangent`. -/
noncomputable def Path.tangent (p : Path n) (s : ℝ) : Option (V n) :=
  match p.segments with
  | [] => none
  | g :: gs => (locate g gs s).2.tangent (s - (locate g gs s).1)

/-- time_optimal_trajectory_parametrization.cpp:478-483 `GetCurvature`. -/
noncomputable def Path.curvature (p : Path n) (s : ℝ) : V n :=
  match p.segments with
  | [] => 0
  | g :: gs => (locate g gs s).2.curvature (s - (locate g gs s).1)

open Classical in
/-- time_optimal_trajectory_parametrization.cpp:485-503 `GetNextSwitchingPoint`. -/
noncomputable def Path.nextSwitchingPoint (p : Path n) (s : ℝ) : ℝ × Bool :=
  match p.switching.dropWhile (fun x => decide (x.1 ≤ s)) with
  | [] => (p.length, true)
  | x :: _ => x

/-! ### Specification -/

/-- The points of the polyline through the waypoints. -/
def OnPolyline : List (V n) → V n → Prop
  | a :: b :: rest, z => z ∈ segment ℝ a b ∨ OnPolyline (b :: rest) z
  | _, _ => False

/-- The length of the polyline. -/
noncomputable def polylineLength : List (V n) → ℝ
  | a :: b :: rest => dist a b + polylineLength (b :: rest)
  | _ => 0

/-- No waypoint where the path turns straight back, and no two consecutive waypoints at most 2e-6 apart. -/
def NoReversal : List (V n) → Prop
  | a :: b :: c :: rest => 2 / 1000000 < dist a b ∧ normalized (c - b) ≠ -normalized (b - a) ∧ NoReversal (b :: c :: rest)
  | [a, b] => 2 / 1000000 < dist a b
  | _ => True

/-- What is needed of the waypoints: without blends, that the last two differ; with blends, `NoReversal`. -/
def Regular (dev : ℝ) (waypoints : List (V n)) : Prop :=
  (0 < dev → NoReversal waypoints) ∧ ∀ pre a b, waypoints = pre ++ [a, b] → a ≠ b

/-! ### Proofs: the path as a list of segments -/

/-- The configuration `s` along a list of segments. -/
noncomputable def along {β : Type} (f : Seg n → ℝ → β) (dflt : β) : List (Seg n) → ℝ → β
  | [], _ => dflt
  | [g], s => f g s
  | g :: h :: rest, s => open Classical in if g.length ≤ s then along f dflt (h :: rest) (s - g.length) else f g s

noncomputable def totalLength (gs : List (Seg n)) : ℝ := (gs.map Seg.length).sum

/-- The segments with their positions. -/
noncomputable def placed : ℝ → List (Seg n) → List (ℝ × Seg n)
  | _, [] => []
  | b, g :: gs => (b, g) :: placed (b + g.length) gs

theorem foldl_segments (gs : List (Seg n)) (p : Path n) :
    (gs.foldl addSegment p).segments = p.segments ++ placed p.length gs ∧ (gs.foldl addSegment p).length = p.length + totalLength gs := by
  induction gs generalizing p with
  | nil => simp [placed, totalLength]
  | cons g gs ih =>
    rw [List.foldl_cons]
    obtain ⟨h1, h2⟩ := ih (addSegment p g)
    rw [h1, h2]
    simp only [addSegment, placed, totalLength, List.map_cons, List.sum_cons]
    constructor
    · simp
    · ring

theorem assemble_segments (gs : List (Seg n)) : (assemble gs).segments = placed 0 gs ∧ (assemble gs).length = totalLength gs := by
  unfold assemble
  obtain ⟨h1, h2⟩ := foldl_segments gs ⟨0, [], []⟩
  simp only at h1 h2 ⊢
  rw [h1, h2]
  simp

theorem locate_along {β : Type} (f : Seg n → ℝ → β) (dflt : β) (g : Seg n) (gs : List (Seg n)) (b s : ℝ) :
    f (locate (b, g) (placed (b + g.length) gs) s).2 (s - (locate (b, g) (placed (b + g.length) gs) s).1) =
      along f dflt (g :: gs) (s - b) := by
  induction gs generalizing b g with
  | nil => simp [placed, locate, along]
  | cons h gs ih =>
    simp only [placed, locate, along]
    by_cases hc : b + g.length ≤ s
    · rw [if_pos hc, if_pos (by linarith), ih]
      congr 1
      ring
    · rw [if_neg hc, if_neg (by intro h; apply hc; linarith)]

theorem assemble_config (gs : List (Seg n)) (s : ℝ) : (assemble gs).config s = along Seg.config none gs s := by
  unfold Path.config
  rw [(assemble_segments gs).1]
  cases gs with
  | nil => rfl
  | cons g gs =>
    have := locate_along Seg.config none g gs 0 s
    rw [sub_zero] at this
    exact this

theorem assemble_tangent (gs : List (Seg n)) (s : ℝ) : (assemble gs).tangent s = along Seg.tangent none gs s := by
  unfold Path.tangent
  rw [(assemble_segments gs).1]
  cases gs with
  | nil => rfl
  | cons g gs =>
    have := locate_along Seg.tangent none g gs 0 s
    rw [sub_zero] at this
    exact this

theorem assemble_curvature (gs : List (Seg n)) (s : ℝ) : (assemble gs).curvature s = along Seg.curvature 0 gs s := by
  unfold Path.curvature
  rw [(assemble_segments gs).1]
  cases gs with
  | nil => rfl
  | cons g gs =>
    have := locate_along Seg.curvature 0 g gs 0 s
    rw [sub_zero] at this
    exact this

theorem Seg.length_nonneg_lin (a b : V n) : 0 ≤ (Seg.lin a b).length := norm_nonneg _

theorem along_cons {β : Type} (f : Seg n → ℝ → β) (dflt : β) (g : Seg n) {gs : List (Seg n)} (hne : gs ≠ []) (s : ℝ) :
    (g.length ≤ s → along f dflt (g :: gs) s = along f dflt gs (s - g.length)) ∧ (s < g.length → along f dflt (g :: gs) s = f g s) := by
  cases gs with
  | nil => exact absurd rfl hne
  | cons h gs =>
    constructor
    · intro hc
      rw [along, if_pos hc]
    · intro hc
      rw [along, if_neg (not_le.mpr hc)]

end CRU.Totp
