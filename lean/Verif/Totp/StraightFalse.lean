import Verif.Totp.Straight
/-
  C81, C82: trajectories along one straight line that exceed the velocity limit, or go back in time.
-/
namespace CRU.Totp
open Ext

/-- One joint moves from 0 to `L`, with acceleration at most 1 and timestep 1. -/
noncomputable def oneJoint (L vm : ℝ) : Setup 1 := ⟨assemble (buildSegments 0 (pt 0) (pt 0) [pt L]), fun _ => vm, fun _ => 1, 1⟩

theorem pt_apply (x : ℝ) (i : Fin 1) : pt x i = x := by
  obtain rfl : i = 0 := Subsingleton.elim _ _
  simp [pt]

theorem oneJoint_norm {L : ℝ} (hL : 0 < L) : ‖pt L - pt 0‖ = L := by
  rw [← dist_eq_norm, pt_dist, sub_zero, abs_of_pos hL]

theorem oneJoint_dir {L : ℝ} (hL : 0 < L) : ‖pt L - pt 0‖⁻¹ • (pt L - pt 0) = pt 1 := by
  rw [oneJoint_norm hL]
  ext i
  show L⁻¹ * (pt L i - pt 0 i) = pt 1 i
  rw [pt_apply, pt_apply, pt_apply, sub_zero, inv_mul_cancel₀ hL.ne']

theorem oneJoint_tangent {L vm : ℝ} (hL : 0 < L) (s : ℝ) : (oneJoint L vm).path.tangent s = some (pt 1) := by
  unfold oneJoint
  rw [assemble_tangent]
  simp only [buildSegments, along, Seg.tangent]
  rw [if_neg (by rw [oneJoint_norm hL]; exact hL.ne'), oneJoint_dir hL]

theorem oneJoint_length {L vm : ℝ} (hL : 0 < L) : (oneJoint L vm).path.length = L := by
  unfold oneJoint
  rw [(assemble_segments _).2]
  simp [buildSegments, totalLength, Seg.length, oneJoint_norm hL]

theorem oneJoint_switching {L vm : ℝ} : (oneJoint L vm).path.switching = [] := by
  unfold oneJoint assemble
  simp [buildSegments, addSegment, Seg.switchingPoints]

theorem dblMax_one : 1 ≤ dblMax := le_trans (by norm_num) dblMax_big

theorem oneJoint_flat {L vm : ℝ} (hL : 0 < L) (hv : 0 < vm) (hvm : vm < dblMax) : ∃ a0, Flat (oneJoint L vm) (fun _ => 1) (fun _ => vm) a0 := by
  obtain ⟨a0, hf⟩ := flatCore (e := oneJoint L vm) (fun _ => hv) (fun _ => one_pos) (by intro i; simpa [oneJoint] using hvm)
    (by rw [oneJoint_length hL]; exact hL) (fun _ => pt 1) (fun s _ => oneJoint_tangent hL s)
    (fun _ _ => by rw [← dist_zero_right, show (0 : V 1) = pt 0 by ext i; simp [pt], pt_dist]; simp)
    (fun s _ => by unfold oneJoint; rw [assemble_curvature]; rfl)
  have h1 : lineAcc (oneJoint L vm).amax (pt 1) = 1 := by
    apply le_antisymm
    · have := ((le_lineAcc (oneJoint L vm).amax (pt 1) _).mp (le_refl _)).2 0 (by rw [pt_apply]; norm_num)
      rw [pt_apply] at this
      simpa [oneJoint] using this
    · rw [le_lineAcc]
      refine ⟨dblMax_one, fun i _ => ?_⟩
      rw [pt_apply]
      simp [oneJoint]
  have h2 : lineVel (oneJoint L vm).vmax (pt 1) = vm := by
    apply le_antisymm
    · have := ((le_lineVel (oneJoint L vm).vmax (pt 1) (fun _ => hv.le) _).mp (le_refl _)).2 0 (by rw [pt_apply]; norm_num)
      rw [pt_apply] at this
      simpa [oneJoint] using this
    · refine (le_lineVel (oneJoint L vm).vmax (pt 1) (fun _ => hv.le) _).mpr ?_
      refine ⟨hvm.le, fun i _ => ?_⟩
      rw [pt_apply]
      simp [oneJoint]
  rw [h1, h2] at hf
  exact ⟨a0, hf, one_pos⟩

theorem oneJoint_parametrize {L vm : ℝ} {N : Nat} {steps : List Step} (h : buildSteps (oneJoint L vm) N = some (.ok steps)) :
    parametrize N [pt 0, pt L] (fun _ => .fin vm) (fun _ => .fin 1) (.fin 0) (.fin 1) = some (.ok ((oneJoint L vm).path, timing steps)) := by
  rw [parametrize_ok (p := (oneJoint L vm).path) rfl (fun _ => vm) (fun _ => 1) 1]
  show Run.then (buildSteps (oneJoint L vm) N) _ = _
  rw [h]
  rfl

/-- One turn forward. -/
theorem oneJoint_turn {L vm a0 : ℝ} (h : Flat (oneJoint L vm) (fun _ => 1) (fun _ => vm) a0) (hL : 0 < L) (N k : Nat) (rev : List Step) (p w : ℝ) (hp : 0 ≤ p)
    (hw : 0 ≤ w) :
    forward (oneJoint L vm) N (k + 1) ⟨rev, p, w, 1, []⟩ =
      if L < p + 1 / 2 + w then some (.ok (⟨p + 1 / 2 + w, w + 1⟩ :: rev, true))
      else forward (oneJoint L vm) N k ⟨⟨p + 1 / 2 + w, min (w + 1) vm⟩ :: rev, p + 1 / 2 + w, min (w + 1) vm, 1, []⟩ := by
  have hn : Fwd.next ⟨rev, p, w, 1, []⟩ (oneJoint L vm).dt (Fwd.remaining ⟨rev, p, w, 1, []⟩) = ⟨p + 1 / 2 + w, w + 1⟩ := by
    show (⟨p + 1 * (1 / 2) * (w + (w + 1 * 1)), w + 1 * 1⟩ : Step) = _
    congr 1 <;> ring
  have hr : Fwd.remaining ⟨rev, p, w, 1, []⟩ = [] := rfl
  rw [h.forward_turn N k _ hp (by rw [hn]; dsimp only; linarith), hn, hr, oneJoint_length hL]
  dsimp only
  by_cases hc : L < p + 1 / 2 + w
  · rw [if_pos hc, if_pos hc]
  · rw [if_neg hc, if_neg hc, if_neg (by linarith)]

theorem oneJoint_forward {L vm a0 : ℝ} (h : Flat (oneJoint L vm) (fun _ => 1) (fun _ => vm) a0) (N : Nat) {out : List Step}
    (hf : forward (oneJoint L vm) (N + 1) (N + 1) ⟨[⟨0, 0⟩], 0, 0, 1, []⟩ = some (.ok (out, true))) :
    mainLoop (oneJoint L vm) (N + 1) (N + 1) [⟨0, 0⟩] ((oneJoint L vm).acc 0 (.fin 0) true).real = some (.ok out) := by
  rw [mainLoop, h.acc_max 0 (le_refl 0)]
  have : integrateForward (oneJoint L vm) (N + 1) [⟨0, 0⟩] (Ext.fin 1).real = some (.ok (out, true)) := by
    unfold integrateForward
    dsimp only
    rw [oneJoint_switching]
    exact hf
  rw [this]
  rfl

theorem oneJoint_push {L vm a0 : ℝ} (h : Flat (oneJoint L vm) (fun _ => 1) (fun _ => vm) a0) (s2 s1 : Step) (below traj : List Step) (p w : ℝ) (sl : Ext)
    (hw : 0 ≤ w) :
    (Bwd.push ⟨s2, s1, below, traj, p, w, -1, sl⟩ (oneJoint L vm)).vel = w + 1 ∧
    (Bwd.push ⟨s2, s1, below, traj, p, w, -1, sl⟩ (oneJoint L vm)).pos = p - 1 / 2 - w ∧
    (Bwd.push ⟨s2, s1, below, traj, p, w, -1, sl⟩ (oneJoint L vm)).slope = .fin (-1 / (1 / 2 + w)) ∧
    (0 ≤ p - 1 / 2 - w → (Bwd.push ⟨s2, s1, below, traj, p, w, -1, sl⟩ (oneJoint L vm)).acc = -1) := by
  have e1 : (Bwd.push ⟨s2, s1, below, traj, p, w, -1, sl⟩ (oneJoint L vm)).vel = w + 1 := by
    show w - 1 * -1 = w + 1; ring
  have e2 : (Bwd.push ⟨s2, s1, below, traj, p, w, -1, sl⟩ (oneJoint L vm)).pos = p - 1 / 2 - w := by
    show p - 1 * (1 / 2) * ((w - 1 * -1) + w) = _; ring
  refine ⟨e1, e2, ?_, ?_⟩
  · show div (.fin (w - (Bwd.push ⟨s2, s1, below, traj, p, w, -1, sl⟩ (oneJoint L vm)).vel))
      (.fin (p - (Bwd.push ⟨s2, s1, below, traj, p, w, -1, sl⟩ (oneJoint L vm)).pos)) = _
    rw [e1, e2, div_fin (by linarith)]
    congr 1
    rw [show w - (w + 1) = -1 by ring, show p - (p - 1 / 2 - w) = 1 / 2 + w by ring]
  · intro hp
    show ((oneJoint L vm).acc (Bwd.push ⟨s2, s1, below, traj, p, w, -1, sl⟩ (oneJoint L vm)).pos
      (.fin (Bwd.push ⟨s2, s1, below, traj, p, w, -1, sl⟩ (oneJoint L vm)).vel) false).real = -1
    rw [e2, h.acc_min _ hp]
    rfl

theorem push_eq {L vm a0 : ℝ} (h : Flat (oneJoint L vm) (fun _ => 1) (fun _ => vm) a0) (s2 s1 : Step) (below traj : List Step) (p w : ℝ) (sl : Ext)
    (hw : 0 ≤ w) : ∃ acc, (0 ≤ p - 1 / 2 - w → acc = -1) ∧ Bwd.push ⟨s2, s1, below, traj, p, w, -1, sl⟩ (oneJoint L vm) =
      ⟨s2, s1, below, ⟨p, w⟩ :: traj, p - 1 / 2 - w, w + 1, acc, .fin (-1 / (1 / 2 + w))⟩ := by
  obtain ⟨h1, h2, h3, h4⟩ := oneJoint_push h s2 s1 below traj p w sl hw
  refine ⟨(Bwd.push ⟨s2, s1, below, traj, p, w, -1, sl⟩ (oneJoint L vm)).acc, h4, ?_⟩
  rw [← h1, ← h2, ← h3]
  rfl

open Classical in
/-- The test for a crossing, for numbers. -/
theorem check_eq (s2 s1 : Step) (below : List Step) (f : Step) (ts : List Step) (p w acc sl : ℝ) (h1 : s2.pos - s1.pos ≠ 0)
    (h2 : sl - (s2.vel - s1.vel) / (s2.pos - s1.pos) ≠ 0) (x : ℝ)
    (hx : x = (s1.vel - w + sl * p - (s2.vel - s1.vel) / (s2.pos - s1.pos) * s1.pos) / (sl - (s2.vel - s1.vel) / (s2.pos - s1.pos))) :
    Bwd.check ⟨s2, s1, below, f :: ts, p, w, acc, .fin sl⟩ =
      if max s1.pos p - eps ≤ x ∧ x ≤ eps + min s2.pos f.pos then
        .ok (some ((f :: ts).reverse ++ ⟨x, s1.vel + (s2.vel - s1.vel) / (s2.pos - s1.pos) * (x - s1.pos)⟩ :: s1 :: below))
      else .ok none := by
  have hss : Bwd.startSlope ⟨s2, s1, below, f :: ts, p, w, acc, .fin sl⟩ = .fin ((s2.vel - s1.vel) / (s2.pos - s1.pos)) := by
    unfold Bwd.startSlope; rw [div_fin h1]
  have hcr : Bwd.crossing ⟨s2, s1, below, f :: ts, p, w, acc, .fin sl⟩ = .fin x := by
    unfold Bwd.crossing
    rw [hss]
    simp only [mul_fin, add_fin, sub_fin]
    rw [div_fin h2, hx]
  unfold Bwd.check
  dsimp only
  rw [hcr, hss]
  simp only [le_fin, mul_fin, add_fin, sub_fin]
  rfl

theorem oneJoint_build {L vm a0 : ℝ} (h : Flat (oneJoint L vm) (fun _ => 1) (fun _ => vm) a0) (hL : 0 < L) (N : Nat) {o b : Step} {rest out : List Step}
    (hf : forward (oneJoint L vm) (N + 1) (N + 1) ⟨[⟨0, 0⟩], 0, 0, 1, []⟩ = some (.ok (o :: b :: rest, true)))
    (hb : b.pos ≤ L) (hback : backward (oneJoint L vm) (N + 1) ⟨o, b, rest, [], L, 0, -1, .fin 0⟩ = some (.ok out)) :
    buildSteps (oneJoint L vm) (N + 1) = some (.ok out.reverse) := by
  unfold buildSteps
  rw [oneJoint_forward h N hf]
  show Run.then (integrateBackward (oneJoint L vm) (N + 1) (o :: b :: rest) _ _ _) _ = _
  have : integrateBackward (oneJoint L vm) (N + 1) (o :: b :: rest) (oneJoint L vm).path.length 0
      ((oneJoint L vm).acc (oneJoint L vm).path.length (.fin 0) false).real = some (.ok out) := by
    unfold integrateBackward
    dsimp only
    rw [oneJoint_length hL, if_neg (not_lt.mpr hb), h.acc_min _ hL.le]
    exact hback
  rw [this]
  rfl

open Classical in
/-- One turn backward, from a place not before the start of the stretch. -/
theorem oneJoint_back {L vm a0 : ℝ} (h : Flat (oneJoint L vm) (fun _ => 1) (fun _ => vm) a0) (k : Nat) (s2 s1 : Step) (below traj : List Step)
    (p w : ℝ) (sl : Ext) (hp : 0 ≤ p) (hw : 0 ≤ w) (hs : s1.pos ≤ p) (h1 : s2.pos - s1.pos ≠ 0)
    (h2 : -1 / (1 / 2 + w) - (s2.vel - s1.vel) / (s2.pos - s1.pos) ≠ 0) (x : ℝ)
    (hx : x = (s1.vel - (w + 1) + -1 / (1 / 2 + w) * (p - 1 / 2 - w) - (s2.vel - s1.vel) / (s2.pos - s1.pos) * s1.pos) /
      (-1 / (1 / 2 + w) - (s2.vel - s1.vel) / (s2.pos - s1.pos))) : ∃ acc, (0 ≤ p - 1 / 2 - w → acc = -1) ∧
    backward (oneJoint L vm) (k + 1) ⟨s2, s1, below, traj, p, w, -1, sl⟩ =
      if max s1.pos (p - 1 / 2 - w) - eps ≤ x ∧ x ≤ eps + min s2.pos p then
        some (.ok ((⟨p, w⟩ :: traj).reverse ++ ⟨x, s1.vel + (s2.vel - s1.vel) / (s2.pos - s1.pos) * (x - s1.pos)⟩ :: s1 :: below))
      else backward (oneJoint L vm) k ⟨s2, s1, below, ⟨p, w⟩ :: traj, p - 1 / 2 - w, w + 1, acc, .fin (-1 / (1 / 2 + w))⟩ := by
  obtain ⟨acc, hacc, he⟩ := push_eq h s2 s1 below traj p w sl hw
  refine ⟨acc, hacc, ?_⟩
  rw [backward, if_pos (Or.inr hp), if_pos hs, he]
  dsimp only
  rw [if_neg (by linarith), check_eq s2 s1 below ⟨p, w⟩ traj (p - 1 / 2 - w) (w + 1) acc _ h1 h2 x hx]
  split_ifs <;> rfl

/-- The steps from 0 to 19/10 with velocity at most 1. -/
theorem overshoot_steps : buildSteps (oneJoint (19 / 10) 1) 5 =
    some (.ok [⟨0, 0⟩, ⟨1 / 2, 1⟩, ⟨19 / 20, 13 / 10⟩, ⟨7 / 5, 1⟩, ⟨19 / 10, 0⟩]) := by
  obtain ⟨a0, h⟩ := oneJoint_flat (L := 19 / 10) (vm := 1) (by norm_num) one_pos (lt_of_lt_of_le (by norm_num) dblMax_big)
  have hf : forward (oneJoint (19 / 10) 1) (4 + 1) (4 + 1) ⟨[⟨0, 0⟩], 0, 0, 1, []⟩ = some (.ok ([⟨2, 2⟩, ⟨1 / 2, 1⟩, ⟨0, 0⟩], true)) := by
    rw [oneJoint_turn h (by norm_num) _ _ _ _ _ (by norm_num) (by norm_num), if_neg (by norm_num)]
    rw [oneJoint_turn h (by norm_num) _ _ _ _ _ (by norm_num) (by norm_num), if_pos (by norm_num)]
    norm_num
  have hb : backward (oneJoint (19 / 10) 1) (4 + 1) ⟨⟨2, 2⟩, ⟨1 / 2, 1⟩, [⟨0, 0⟩], [], 19 / 10, 0, -1, .fin 0⟩ =
      some (.ok [⟨19 / 10, 0⟩, ⟨7 / 5, 1⟩, ⟨19 / 20, 13 / 10⟩, ⟨1 / 2, 1⟩, ⟨0, 0⟩]) := by
    obtain ⟨acc, hacc, hb1⟩ := oneJoint_back h 4 ⟨2, 2⟩ ⟨1 / 2, 1⟩ [⟨0, 0⟩] [] (19 / 10) 0 (.fin 0) (by norm_num) (by norm_num) (by norm_num)
      (by norm_num) (by norm_num) _ rfl
    rw [hb1, if_neg (by norm_num [eps]), hacc (by norm_num)]
    obtain ⟨acc', -, hb2⟩ := oneJoint_back h 3 ⟨2, 2⟩ ⟨1 / 2, 1⟩ [⟨0, 0⟩] [⟨19 / 10, 0⟩] (19 / 10 - 1 / 2 - 0) (0 + 1) (.fin (-1 / (1 / 2 + 0)))
      (by norm_num) (by norm_num) (by norm_num) (by norm_num) (by norm_num) _ rfl
    rw [hb2, if_pos (by norm_num [eps])]
    norm_num
  rw [oneJoint_build h (by norm_num) 4 hf (by norm_num) hb]
  rfl

/-- C82 is false for the velocity limits themselves: the last step forward, which goes beyond the end of the path, is not reduced to the velocity limit, and
the trajectory may be joined on it. Moving one joint from 0 to 1.9 with velocity and acceleration at most 1 and timestep 1, the velocity is 1.3 after
32/23 seconds, in the middle. -/
theorem C82_velocity_limit_false : ∃ p ts, parametrize 5 [pt 0, pt (19 / 10)] (fun _ => .fin 1) (fun _ => .fin 1) (.fin 0) (.fin 1) = some (.ok (p, ts)) ∧
    Answer ts (.fin (32 / 23)) (.fin (19 / 20), .fin (13 / 10)) ∧ p.tangent (19 / 20) = some (pt 1) := by
  refine ⟨_, _, oneJoint_parametrize overshoot_steps, ?_, oneJoint_tangent (by norm_num) _⟩
  have e : timing [⟨0, 0⟩, ⟨1 / 2, 1⟩, ⟨19 / 20, 13 / 10⟩, ⟨7 / 5, 1⟩, ⟨19 / 10, 0⟩] =
      [⟨⟨0, 0⟩, .fin 0⟩, ⟨⟨1 / 2, 1⟩, .fin 1⟩, ⟨⟨19 / 20, 13 / 10⟩, .fin (32 / 23)⟩, ⟨⟨7 / 5, 1⟩, .fin (41 / 23)⟩, ⟨⟨19 / 10, 0⟩, .fin (64 / 23)⟩] := by
    simp only [timing, timingLoop, nextTime]
    rw [div_fin (by norm_num), div_fin (by norm_num), div_fin (by norm_num), div_fin (by norm_num), add_fin, add_fin, add_fin, add_fin]
    norm_num
  rw [e]
  refine ⟨2, _, _, .inr ⟨?_, by simp, ?_, ?_⟩, rfl, rfl, ?_⟩
  · intro x hx
    simp at hx
    subst hx
    show ¬ (64 / 23 : ℝ) ≤ 32 / 23
    norm_num
  · intro x hx
    simp at hx
    subst hx
    show ¬ (41 / 23 : ℝ) ≤ 32 / 23
    norm_num
  · intro j x hj hx
    match j, hj with
    | 0, _ => simp at hx; subst hx; show (0 : ℝ) ≤ 32 / 23; norm_num
    | 1, _ => simp at hx; subst hx; show (1 : ℝ) ≤ 32 / 23; norm_num
    | 2, _ => simp at hx; subst hx; exact le_refl (32 / 23 : ℝ)
  · unfold evalBetween
    simp only [sub_fin, mul_fin]
    rw [div_fin (by norm_num)]
    simp only [add_fin, mul_fin]
    norm_num

/-- A length for which the two parts of the trajectory meet a little before a step. -/
noncomputable def backLength : ℝ := 4 - 8 / 10000000

/-- The steps from 0 to `backLength` with velocity at most 3. -/
theorem backward_steps : buildSteps (oneJoint backLength 3) 5 =
    some (.ok [⟨0, 0⟩, ⟨1 / 2, 1⟩, ⟨2, 2⟩, ⟨2 - 5 / 10000000, 2 - 2 / 10000000⟩, ⟨backLength - 1 / 2, 1⟩, ⟨backLength, 0⟩]) := by
  obtain ⟨a0, h⟩ := oneJoint_flat (L := backLength) (vm := 3) (by norm_num [backLength]) (by norm_num) (lt_of_lt_of_le (by norm_num) dblMax_big)
  have hL : 0 < backLength := by norm_num [backLength]
  have hf : forward (oneJoint backLength 3) (4 + 1) (4 + 1) ⟨[⟨0, 0⟩], 0, 0, 1, []⟩ = some (.ok ([⟨9 / 2, 3⟩, ⟨2, 2⟩, ⟨1 / 2, 1⟩, ⟨0, 0⟩], true)) := by
    rw [oneJoint_turn h hL _ _ _ _ _ (by norm_num) (by norm_num), if_neg (by norm_num [backLength])]
    rw [oneJoint_turn h hL _ _ _ _ _ (by norm_num) (by norm_num), if_neg (by norm_num [backLength])]
    rw [oneJoint_turn h hL _ _ _ _ _ (by norm_num) (by norm_num), if_pos (by norm_num [backLength])]
    norm_num
  have hb : backward (oneJoint backLength 3) (4 + 1) ⟨⟨9 / 2, 3⟩, ⟨2, 2⟩, [⟨1 / 2, 1⟩, ⟨0, 0⟩], [], backLength, 0, -1, .fin 0⟩ =
      some (.ok [⟨backLength, 0⟩, ⟨backLength - 1 / 2, 1⟩, ⟨2 - 5 / 10000000, 2 - 2 / 10000000⟩, ⟨2, 2⟩, ⟨1 / 2, 1⟩, ⟨0, 0⟩]) := by
    obtain ⟨acc, hacc, hb1⟩ := oneJoint_back h 4 ⟨9 / 2, 3⟩ ⟨2, 2⟩ [⟨1 / 2, 1⟩, ⟨0, 0⟩] [] backLength 0 (.fin 0) (by norm_num [backLength]) (by norm_num)
      (by norm_num [backLength]) (by norm_num) (by norm_num) _ rfl
    rw [hb1, if_neg (by norm_num [eps, backLength]), hacc (by norm_num [backLength])]
    obtain ⟨acc', -, hb2⟩ := oneJoint_back h 3 ⟨9 / 2, 3⟩ ⟨2, 2⟩ [⟨1 / 2, 1⟩, ⟨0, 0⟩] [⟨backLength, 0⟩] (backLength - 1 / 2 - 0) (0 + 1)
      (.fin (-1 / (1 / 2 + 0))) (by norm_num [backLength]) (by norm_num) (by norm_num [backLength]) (by norm_num) (by norm_num) _ rfl
    rw [hb2, if_pos (by norm_num [eps, backLength])]
    norm_num [backLength]
  rw [oneJoint_build h hL 4 hf (by norm_num [backLength]) hb]
  rfl

/-- C81 is false for increasing positions and times: the two parts of a trajectory are also joined where their lines meet up to 1e-6 before both begin.
Moving one joint from 0 to 4 - 8e-7 with velocity at most 3, acceleration at most 1 and timestep 1, the fourth step is before the third, in
position and in time. -/
theorem C81_monotone_false : ∃ p ts a b ta tb, parametrize 5 [pt 0, pt backLength] (fun _ => .fin 3) (fun _ => .fin 1) (.fin 0) (.fin 1) = some (.ok (p, ts)) ∧
    Consecutive ts a b ∧ b.pos < a.pos ∧ a.time = .fin ta ∧ b.time = .fin tb ∧ tb < ta := by
  have hc : Consecutive (timing [⟨0, 0⟩, ⟨1 / 2, 1⟩, ⟨2, 2⟩, ⟨2 - 5 / 10000000, 2 - 2 / 10000000⟩, ⟨backLength - 1 / 2, 1⟩, ⟨backLength, 0⟩])
      ⟨⟨2, 2⟩, .fin 2⟩ ⟨⟨2 - 5 / 10000000, 2 - 2 / 10000000⟩, .fin (2 + -(5 / 10000000) / ((2 - 2 / 10000000 + 2) / 2))⟩ := by
    refine ⟨[⟨⟨0, 0⟩, .fin 0⟩, ⟨⟨1 / 2, 1⟩, .fin 1⟩], timingLoop ⟨⟨2 - 5 / 10000000, 2 - 2 / 10000000⟩, .fin (2 + -(5 / 10000000) / ((2 - 2 / 10000000 + 2) / 2))⟩
      [⟨backLength - 1 / 2, 1⟩, ⟨backLength, 0⟩], ?_⟩
    have t1 : nextTime ⟨⟨0, 0⟩, .fin 0⟩ ⟨1 / 2, 1⟩ = .fin 1 := by
      simp only [nextTime]; rw [div_fin (by norm_num), add_fin]; norm_num
    have t2 : nextTime ⟨⟨1 / 2, 1⟩, .fin 1⟩ ⟨2, 2⟩ = .fin 2 := by
      simp only [nextTime]; rw [div_fin (by norm_num), add_fin]; norm_num
    have t3 : nextTime ⟨⟨2, 2⟩, .fin 2⟩ ⟨2 - 5 / 10000000, 2 - 2 / 10000000⟩ = .fin (2 + -(5 / 10000000) / ((2 - 2 / 10000000 + 2) / 2)) := by
      simp only [nextTime]; rw [div_fin (by norm_num), add_fin]; norm_num
    simp only [timing]
    rw [timingLoop, t1, timingLoop, t2, timingLoop, t3]
    rfl
  exact ⟨_, _, _, _, _, _, oneJoint_parametrize backward_steps, hc, by norm_num, rfl, rfl, by norm_num⟩

/-- Non-vacuity of `C82_straight_line_partial`, and the duration in the case above. -/
example : ∃ path steps N T, (∀ M, N ≤ M → parametrize M [pt 0, pt (19 / 10)] (fun _ => .fin 1) (fun _ => .fin 1) (.fin 0) (.fin 1) = some (.ok (path, timing steps))) ∧
    0 < T ∧ Answer (timing steps) (.fin T) (.fin path.length, .fin 0) := by
  obtain ⟨path, steps, N, T, h1, h2, -, -, -, -, -, h3, -⟩ := C82_straight_line_partial (pt 0) (pt (19 / 10))
    (by intro h; have := congrArg (fun w : V 1 => w 0) h; simp [pt_apply] at this; norm_num at this) 0 (fun _ => 1) (fun _ => 1) (by simp) (by simp)
    (by intro i; have := dblMax_big; norm_num at this ⊢; linarith) 1 one_pos
  exact ⟨path, steps, N, T, h1, h2, h3⟩

end CRU.Totp
