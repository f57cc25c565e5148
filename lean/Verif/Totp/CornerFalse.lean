import Verif.Totp.StraightFalse
/-
  C82: at a corner of a path without blends the joints change their velocity at once.
-/
namespace CRU.Totp
open Ext

/-- The corner, velocity at most 10, acceleration at most 1, timestep 2. -/
noncomputable def cornerRun : Setup 2 := ⟨assemble (buildSegments 0 !₂[0, 0] !₂[0, 0] [!₂[1, 0], !₂[1, 1]]), fun _ => 10, fun _ => 1, 2⟩

theorem cornerRun_segments : buildSegments (n := 2) 0 !₂[0, 0] !₂[0, 0] [!₂[1, 0], !₂[1, 1]] = [.lin !₂[0, 0] !₂[1, 0], .lin !₂[1, 0] !₂[1, 1]] := by
  simp [buildSegments]

theorem corner_leg1 : (!₂[1, 0] : V 2) - !₂[0, 0] = !₂[1, 0] := by ext i; fin_cases i <;> simp
theorem corner_leg2 : (!₂[1, 1] : V 2) - !₂[1, 0] = !₂[0, 1] := by ext i; fin_cases i <;> simp
theorem corner_unit1 : ‖(!₂[1, 0] : V 2)‖ = 1 := by rw [EuclideanSpace.norm_eq]; simp [Fin.sum_univ_two]
theorem corner_unit2 : ‖(!₂[0, 1] : V 2)‖ = 1 := by rw [EuclideanSpace.norm_eq]; simp [Fin.sum_univ_two]

theorem corner_length1 : (Seg.lin (!₂[0, 0] : V 2) !₂[1, 0]).length = 1 := by show ‖(!₂[1, 0] : V 2) - !₂[0, 0]‖ = 1; rw [corner_leg1, corner_unit1]
theorem corner_length2 : (Seg.lin (!₂[1, 0] : V 2) !₂[1, 1]).length = 1 := by show ‖(!₂[1, 1] : V 2) - !₂[1, 0]‖ = 1; rw [corner_leg2, corner_unit2]

open Classical in
/-- The direction of the path. -/
noncomputable def cornerDir (s : ℝ) : V 2 := if 1 ≤ s then !₂[0, 1] else !₂[1, 0]

theorem cornerRun_tangent (s : ℝ) : cornerRun.path.tangent s = some (cornerDir s) := by
  unfold cornerRun cornerDir
  dsimp only
  rw [assemble_tangent, cornerRun_segments]
  simp only [along, corner_length1]
  split_ifs with h
  · simp only [Seg.tangent]
    rw [corner_leg2, corner_unit2, if_neg one_ne_zero, inv_one, one_smul]
  · simp only [Seg.tangent]
    rw [corner_leg1, corner_unit1, if_neg one_ne_zero, inv_one, one_smul]

theorem cornerDir_unit (s : ℝ) : ‖cornerDir s‖ = 1 := by
  unfold cornerDir
  split_ifs
  · exact corner_unit2
  · exact corner_unit1

theorem cornerRun_length : cornerRun.path.length = 2 := by
  unfold cornerRun
  dsimp only
  rw [(assemble_segments _).2, cornerRun_segments]
  simp only [totalLength, List.map_cons, List.map_nil, List.sum_cons, List.sum_nil, corner_length1, corner_length2]
  norm_num

theorem cornerRun_switching : cornerRun.path.switching = [(1, true)] := by
  unfold cornerRun
  dsimp only
  unfold assemble
  rw [cornerRun_segments]
  simp only [List.foldl_cons, List.foldl_nil, addSegment, corner_length1, corner_length2, Seg.switchingPoints, List.map_nil, List.append_nil,
    List.rdropWhile_nil, List.nil_append]
  rw [List.rdropWhile_singleton, if_neg (by norm_num)]
  norm_num

theorem cornerDir_coord (s : ℝ) : ∃ j, |cornerDir s j| = 1 ∧ ∀ i, cornerDir s i ≠ 0 → |cornerDir s i| = 1 := by
  unfold cornerDir
  split_ifs
  · refine ⟨1, by simp, fun i => ?_⟩
    fin_cases i <;> simp
  · refine ⟨0, by simp, fun i => ?_⟩
    fin_cases i <;> simp

theorem cornerRun_flat : ∃ a0, Flat cornerRun (fun _ => 1) (fun _ => 10) a0 := by
  obtain ⟨a0, hf⟩ := flatCore (e := cornerRun) (fun _ => by norm_num [cornerRun]) (fun _ => by norm_num [cornerRun])
    (by intro i; have := dblMax_big; simp only [cornerRun]; norm_num at this ⊢; linarith)
    (by rw [cornerRun_length]; norm_num) cornerDir (fun s _ => cornerRun_tangent s) (fun s _ => cornerDir_unit s)
    (fun s _ => by
      unfold cornerRun
      dsimp only
      rw [assemble_curvature, cornerRun_segments]
      simp only [along]
      split_ifs <;> rfl)
  have hbig := dblMax_big
  have h1 : ∀ s, lineAcc cornerRun.amax (cornerDir s) = 1 := by
    intro s
    obtain ⟨j, hj, hall⟩ := cornerDir_coord s
    have hj0 : cornerDir s j ≠ 0 := by intro hc; rw [hc] at hj; simp at hj
    apply le_antisymm
    · have := ((le_lineAcc cornerRun.amax (cornerDir s) _).mp (le_refl _)).2 j hj0
      rw [hj] at this
      simpa [cornerRun] using this
    · rw [le_lineAcc]
      refine ⟨dblMax_one, fun i hi => ?_⟩
      rw [hall i hi]
      simp [cornerRun]
  have h2 : ∀ s, lineVel cornerRun.vmax (cornerDir s) = 10 := by
    intro s
    obtain ⟨j, hj, hall⟩ := cornerDir_coord s
    have hj0 : cornerDir s j ≠ 0 := by intro hc; rw [hc] at hj; simp at hj
    have hv : ∀ i, 0 ≤ cornerRun.vmax i := fun i => by norm_num [cornerRun]
    apply le_antisymm
    · have := ((le_lineVel cornerRun.vmax (cornerDir s) hv _).mp (le_refl _)).2 j hj0
      rw [hj] at this
      simpa [cornerRun] using this
    · refine (le_lineVel cornerRun.vmax (cornerDir s) hv _).mpr ⟨le_trans (by norm_num) hbig, fun i hi => ?_⟩
      rw [hall i hi]
      simp [cornerRun]
  simp only [h1, h2] at hf
  exact ⟨a0, hf, by norm_num [cornerRun]⟩

open Classical in
theorem cornerRun_forward {a0 : ℝ} (h : Flat cornerRun (fun _ => 1) (fun _ => 10) a0) (N : Nat) :
    forward cornerRun N 2 ⟨[⟨0, 0⟩], 0, 0, 1, [(1, true)]⟩ = some (.ok ([⟨5, 3⟩, ⟨1, 1⟩, ⟨0, 0⟩], true)) := by
  have r1 : Fwd.remaining ⟨[⟨0, 0⟩], 0, 0, 1, [(1, true)]⟩ = [(1, true)] := by
    unfold Fwd.remaining
    dsimp only
    rw [List.dropWhile_cons_of_neg (by simp)]
  have n1 : Fwd.next ⟨[⟨0, 0⟩], 0, 0, 1, [(1, true)]⟩ cornerRun.dt [(1, true)] = ⟨1, 1⟩ := by
    unfold Fwd.next
    simp only [cornerRun]
    norm_num
  have r2 : Fwd.remaining ⟨[⟨1, 1⟩, ⟨0, 0⟩], 1, 1, 1, [(1, true)]⟩ = [] := by
    unfold Fwd.remaining
    simp
  have n2 : Fwd.next ⟨[⟨1, 1⟩, ⟨0, 0⟩], 1, 1, 1, [(1, true)]⟩ cornerRun.dt [] = ⟨5, 3⟩ := by
    unfold Fwd.next
    simp only [cornerRun]
    norm_num
  rw [h.forward_turn N 1 _ (le_refl 0) (by rw [r1, n1]; norm_num), r1, n1, cornerRun_length]
  dsimp only
  rw [if_neg (by norm_num), if_neg (by norm_num), min_eq_left (by norm_num)]
  rw [h.forward_turn N 0 _ (by norm_num) (by rw [r2, n2]; norm_num), r2, n2, cornerRun_length]
  dsimp only
  rw [if_pos (by norm_num)]

open Classical in
theorem cornerRun_steps : buildSteps cornerRun 2 = some (.ok [⟨0, 0⟩, ⟨1, 1⟩, ⟨1, 1⟩, ⟨2, 0⟩]) := by
  obtain ⟨a0, h⟩ := cornerRun_flat
  have hm : mainLoop cornerRun 2 2 [⟨0, 0⟩] (cornerRun.acc 0 (.fin 0) true).real = some (.ok [⟨5, 3⟩, ⟨1, 1⟩, ⟨0, 0⟩]) := by
    rw [mainLoop, h.acc_max 0 (le_refl 0)]
    have : integrateForward cornerRun 2 [⟨0, 0⟩] (Ext.fin 1).real = some (.ok ([⟨5, 3⟩, ⟨1, 1⟩, ⟨0, 0⟩], true)) := by
      unfold integrateForward
      dsimp only
      rw [cornerRun_switching]
      exact cornerRun_forward h 2
    rw [this]
    rfl
  have hp : ∀ b : Bwd, b = ⟨⟨5, 3⟩, ⟨1, 1⟩, [⟨0, 0⟩], [], 2, 0, -1, .fin 0⟩ → ∃ acc, b.push cornerRun =
      ⟨⟨5, 3⟩, ⟨1, 1⟩, [⟨0, 0⟩], [⟨2, 0⟩], 0, 2, acc, .fin (-1)⟩ := by
    intro b hb
    have e1 : (b.push cornerRun).vel = 2 := by
      subst hb
      show (0 : ℝ) - 2 * -1 = 2; norm_num
    have e2 : (b.push cornerRun).pos = 0 := by
      subst hb
      show (2 : ℝ) - 2 * (1 / 2) * ((0 - 2 * -1) + 0) = 0; norm_num
    have e3 : (b.push cornerRun).slope = .fin (-1) := by
      show div (.fin (b.vel - (b.push cornerRun).vel)) (.fin (b.pos - (b.push cornerRun).pos)) = _
      rw [e1, e2, hb, div_fin (by norm_num)]
      norm_num
    refine ⟨(b.push cornerRun).acc, ?_⟩
    have : b.push cornerRun = ⟨b.s2, b.s1, b.below, ⟨b.pos, b.vel⟩ :: b.traj, (b.push cornerRun).pos, (b.push cornerRun).vel,
      (b.push cornerRun).acc, (b.push cornerRun).slope⟩ := rfl
    rw [e1, e2, e3] at this
    rw [this]
    subst hb
    rfl
  have hb : integrateBackward cornerRun 2 [⟨5, 3⟩, ⟨1, 1⟩, ⟨0, 0⟩] cornerRun.path.length 0 (cornerRun.acc cornerRun.path.length (.fin 0) false).real =
      some (.ok [⟨2, 0⟩, ⟨1, 1⟩, ⟨1, 1⟩, ⟨0, 0⟩]) := by
    unfold integrateBackward
    dsimp only
    rw [cornerRun_length, if_neg (by norm_num), h.acc_min _ (by norm_num)]
    show backward cornerRun 2 ⟨⟨5, 3⟩, ⟨1, 1⟩, [⟨0, 0⟩], [], 2, 0, -1, .fin 0⟩ = _
    obtain ⟨acc, he⟩ := hp _ rfl
    rw [backward, if_pos (Or.inr (by norm_num)), if_pos (by norm_num), he]
    dsimp only
    rw [if_neg (by norm_num), check_eq ⟨5, 3⟩ ⟨1, 1⟩ [⟨0, 0⟩] ⟨2, 0⟩ [] 0 2 acc (-1) (by norm_num) (by norm_num) 1 (by norm_num),
      if_pos (by norm_num [eps])]
    norm_num
    rfl
  unfold buildSteps
  rw [hm]
  show Run.then (integrateBackward cornerRun 2 [⟨5, 3⟩, ⟨1, 1⟩, ⟨0, 0⟩] _ _ _) _ = _
  rw [hb]
  rfl

/-- C82 is false for the accelerations at the corners of a path without blends (a maximum deviation of 0, the default): the trajectory does not
stop there. Along (0, 0), (1, 0), (1, 1) with velocity at most 10, acceleration at most 1 and timestep 2, the second joint does not move before time 2,
and its velocity is 1 at time 2: no bound on its acceleration holds. -/
theorem C82_corner_false : ∃ p ts, parametrize 2 cornerPath (fun _ => .fin 10) (fun _ => .fin 1) (.fin 0) (.fin 2) = some (.ok (p, ts)) ∧
    (∀ t, 0 ≤ t → t < 2 → ∃ S W : ℝ, ∃ dir : V 2, Answer ts (.fin t) (.fin S, .fin W) ∧ p.tangent S = some dir ∧ W * dir 1 = 0) ∧
    ∃ S W : ℝ, ∃ dir : V 2, Answer ts (.fin 2) (.fin S, .fin W) ∧ p.tangent S = some dir ∧ W * dir 1 = 1 := by
  refine ⟨cornerRun.path, timing [⟨0, 0⟩, ⟨1, 1⟩, ⟨1, 1⟩, ⟨2, 0⟩], ?_, ?_, ?_⟩
  · unfold cornerPath
    rw [parametrize_ok (p := cornerRun.path) rfl (fun _ => 10) (fun _ => 1) 2]
    show Run.then (buildSteps cornerRun 2) _ = _
    rw [cornerRun_steps]
    rfl
  all_goals
    have e : timing [⟨0, 0⟩, ⟨1, 1⟩, ⟨1, 1⟩, ⟨2, 0⟩] = [⟨⟨0, 0⟩, .fin 0⟩, ⟨⟨1, 1⟩, .fin 2⟩, ⟨⟨1, 1⟩, .fin 2⟩, ⟨⟨2, 0⟩, .fin 4⟩] := by
      simp only [timing, timingLoop, nextTime]
      rw [div_fin (by norm_num), div_fin (by norm_num), div_fin (by norm_num), add_fin, add_fin, add_fin]
      norm_num
    rw [e]
  · intro t h0 h2
    refine ⟨t ^ 2 / 4, t / 2, !₂[1, 0], ⟨0, _, _, .inr ⟨?_, by simp, ?_, ?_⟩, rfl, rfl, ?_⟩, ?_, by simp⟩
    · intro x hx
      simp at hx
      subst hx
      show ¬ (4 : ℝ) ≤ t
      linarith
    · intro x hx
      simp at hx
      subst hx
      show ¬ (2 : ℝ) ≤ t
      linarith
    · intro j x hj hx
      obtain rfl : j = 0 := by omega
      simp at hx; subst hx
      exact h0
    · unfold evalBetween
      simp only [sub_fin, mul_fin]
      rw [div_fin (by norm_num)]
      simp only [add_fin, mul_fin]
      refine Prod.ext ?_ ?_
      · show Ext.fin _ = Ext.fin _
        congr 1
        ring
      · show Ext.fin _ = Ext.fin _
        congr 1
        ring
    · rw [cornerRun_tangent, cornerDir, if_neg (by nlinarith)]
  · refine ⟨1, 1, !₂[0, 1], ⟨2, _, _, .inr ⟨?_, by simp, ?_, ?_⟩, rfl, rfl, ?_⟩, ?_, by simp⟩
    · intro x hx
      simp at hx
      subst hx
      show ¬ (4 : ℝ) ≤ 2
      norm_num
    · intro x hx
      simp at hx
      subst hx
      show ¬ (4 : ℝ) ≤ 2
      norm_num
    · intro j x hj hx
      match j, hj with
      | 0, _ => simp at hx; subst hx; show (0 : ℝ) ≤ 2; norm_num
      | 1, _ => simp at hx; subst hx; exact le_refl (2 : ℝ)
      | 2, _ => simp at hx; subst hx; exact le_refl (2 : ℝ)
    · unfold evalBetween
      simp only [sub_fin, mul_fin]
      rw [div_fin (by norm_num)]
      simp only [add_fin, mul_fin]
      norm_num
    · rw [cornerRun_tangent, cornerDir, if_pos (le_refl _)]

end CRU.Totp
