import Verif.Totp.Build
/-
  C81, C82: the construction on paths without curvature. Proofs.
-/
namespace CRU.Totp
open Ext

variable {n : Nat} [NeZero n]

/-- Everything the construction asks about a path without curvature: at place `s` the accelerations are between `-a s` and `a s`, the velocity at
most `v s`. -/
structure FlatCore (e : Setup n) (a v : ℝ → ℝ) (a0 : ℝ) : Prop where
  len : 0 < e.path.length
  a0_pos : 0 < a0
  acc_max : ∀ s, 0 ≤ s → ∀ vel : ℝ, e.acc s (.fin vel) true = .fin (a s)
  acc_min : ∀ s, 0 ≤ s → ∀ vel : ℝ, e.acc s (.fin vel) false = .fin (-(a s))
  vel : ∀ s, 0 ≤ s → e.velVel s = .fin (v s)
  a_ge : ∀ s, 0 ≤ s → a0 ≤ a s
  v_pos : ∀ s, 0 ≤ s → 0 < v s
  accVel : ∀ s, 0 ≤ s → e.accVel s = .pinf
  deriv : ∀ s, 0 ≤ s → e.velVelDeriv s = .fin 0

/-- The timestep is positive, too. -/
structure Flat (e : Setup n) (a v : ℝ → ℝ) (a0 : ℝ) : Prop extends FlatCore e a v a0 where
  dt : 0 < e.dt

variable {e : Setup n} {a v : ℝ → ℝ} {a0 : ℝ}

theorem FlatCore.a_pos (h : FlatCore e a v a0) {s : ℝ} (hs : 0 ≤ s) : 0 < a s := lt_of_lt_of_le h.a0_pos (h.a_ge s hs)

theorem FlatCore.clip (h : FlatCore e a v a0) {old : ℝ} (hold : 0 ≤ old) {c : Step} (hc : 0 ≤ c.pos) : e.clip old c = min c.vel (v c.pos) := by
  unfold Setup.clip
  have h1 : (e.slope old (e.velVel old) false).le (e.velVelDeriv old) := by
    rw [h.deriv old hold]
    unfold Setup.slope
    rw [h.vel old hold, h.acc_min old hold, div_fin (h.v_pos old hold).ne', le_fin]
    exact div_nonpos_of_nonpos_of_nonneg (by linarith [h.a_pos hold]) (h.v_pos old hold).le
  rw [h.vel c.pos hc, lt_fin]
  split_ifs with hh
  · rw [min_eq_right hh.1.le]; rfl
  · rw [min_eq_left]
    by_contra hcon
    exact hh ⟨not_le.mp hcon, h1⟩

open Classical in
/-- One turn of the forward integration. -/
theorem FlatCore.forward_turn (h : FlatCore e a v a0) (N k : Nat) (s : Fwd) (hpos : 0 ≤ s.pos) (hc : 0 ≤ (s.next e.dt s.remaining).pos) :
    forward e N (k + 1) s =
      if e.path.length < (s.next e.dt s.remaining).pos then some (.ok (s.next e.dt s.remaining :: s.rev, true))
      else if (s.next e.dt s.remaining).vel < 0 then some (.throw .runtimeError)
      else forward e N k ⟨⟨(s.next e.dt s.remaining).pos, min (s.next e.dt s.remaining).vel (v (s.next e.dt s.remaining).pos)⟩ :: s.rev,
        (s.next e.dt s.remaining).pos, min (s.next e.dt s.remaining).vel (v (s.next e.dt s.remaining).pos), a (s.next e.dt s.remaining).pos,
        s.remaining⟩ := by
  rw [forward]
  dsimp only
  generalize hcc : s.next e.dt s.remaining = c at *
  rw [h.clip hpos hc]
  split_ifs with h1 h2 h3
  · rfl
  · rfl
  · exfalso
    rw [h.accVel _ hc, h.vel _ hc, lt_fin] at h3
    rcases h3 with h3 | h3
    · exact h3
    · exact absurd h3 (not_lt.mpr (min_le_right _ _))
  · rw [h.acc_max _ hc]
    rfl

/-- What one turn does: how the step `c` is related to the step `s` before. -/
structure Ahead (a v : ℝ → ℝ) (dt : ℝ) (s c : Step) : Prop where
  pos : s.pos < c.pos
  nonneg : 0 ≤ s.vel
  vel : 0 < c.vel
  vel_le : c.vel ≤ s.vel + dt * a s.pos
  energy : c.vel ^ 2 - s.vel ^ 2 ≤ 2 * a s.pos * (c.pos - s.pos)
  limit : min s.vel (v c.pos) ≤ c.vel

theorem next_spec (s : Fwd) {dt : ℝ} (hdt : 0 < dt) (hvel : 0 ≤ s.vel) (hacc : 0 < s.acc) (v : ℝ → ℝ) (ha : s.acc = a s.pos) :
    Ahead a v dt ⟨s.pos, s.vel⟩ (s.next dt s.remaining) ∧
      (s.pos + dt * (1 / 2) * (dt * s.acc) ≤ (s.next dt s.remaining).pos ∨
        ∃ d ds, s.remaining = d :: ds ∧ (s.next dt s.remaining).pos = d.1) := by
  have hda : 0 < dt * s.acc := mul_pos hdt hacc
  have hpos : s.pos < s.pos + dt * (1 / 2) * (s.vel + (s.vel + dt * s.acc)) := by
    have : 0 < dt * (1 / 2) * (s.vel + (s.vel + dt * s.acc)) := by positivity
    linarith
  have hplain : Ahead a v dt ⟨s.pos, s.vel⟩ ⟨s.pos + dt * (1 / 2) * (s.vel + (s.vel + dt * s.acc)), s.vel + dt * s.acc⟩ := by
    refine ⟨hpos, hvel, by dsimp only; linarith, by dsimp only; rw [ha], ?_, min_le_of_left_le (by dsimp only; linarith)⟩
    dsimp only
    rw [← ha]
    apply le_of_eq
    ring
  have hplus : s.pos + dt * (1 / 2) * (dt * s.acc) ≤ s.pos + dt * (1 / 2) * (s.vel + (s.vel + dt * s.acc)) := by
    have : 0 ≤ dt * (1 / 2) * (s.vel + s.vel) := by positivity
    linarith [this, show dt * (1 / 2) * (s.vel + (s.vel + dt * s.acc)) = dt * (1 / 2) * (dt * s.acc) + dt * (1 / 2) * (s.vel + s.vel) by ring]
  unfold Fwd.next
  dsimp only
  cases hr : s.remaining with
  | nil => exact ⟨hplain, .inl hplus⟩
  | cons d ds =>
    dsimp only
    have hd : s.pos < d.1 := by
      have := List.head?_dropWhile_not (p := fun x : ℝ × Bool => open Classical in decide (x.1 ≤ s.pos ∨ x.2 = false)) s.discs
      unfold Fwd.remaining at hr
      rw [hr] at this
      simp only [List.head?_cons, decide_eq_false_iff_not, not_or, not_le] at this
      exact this.1
    split_ifs with hc
    · refine ⟨?_, .inr ⟨d, ds, rfl, rfl⟩⟩
      set P := s.pos + dt * (1 / 2) * (s.vel + (s.vel + dt * s.acc)) with hP
      have hPp : 0 < P - s.pos := by linarith
      have e1 : s.vel + dt * s.acc - s.vel = dt * s.acc := by ring
      have hx0 : 0 < (d.1 - s.pos) / (P - s.pos) := div_pos (by linarith) hPp
      have hx1 : (d.1 - s.pos) / (P - s.pos) ≤ 1 := by rw [div_le_one hPp]; linarith
      have e2 : (d.1 - s.pos) * (s.vel + dt * s.acc - s.vel) / (P - s.pos) = (d.1 - s.pos) / (P - s.pos) * (dt * s.acc) := by
        rw [e1]; ring
      have e3 : d.1 - s.pos = (d.1 - s.pos) / (P - s.pos) * (P - s.pos) := by field_simp
      have e4 : P - s.pos = dt * (1 / 2) * (s.vel + (s.vel + dt * s.acc)) := by rw [hP]; ring
      refine ⟨hd, hvel, ?_, ?_, ?_, ?_⟩
      · dsimp only; rw [e2]; have := mul_pos hx0 hda; linarith
      · dsimp only; rw [e2, ← ha]; nlinarith
      · dsimp only
        rw [e2, ← ha]
        generalize (d.1 - s.pos) / (P - s.pos) = x at *
        rw [e3, e4]
        nlinarith [mul_nonneg hx0.le (sub_nonneg.mpr hx1), mul_pos hda hda]
      · dsimp only; rw [e2]; refine min_le_of_left_le ?_; have := mul_pos hx0 hda; linarith
    · exact ⟨hplain, .inl hplus⟩

/-- The steps so far, the last first: from rest at the start, each ahead of the one before, within the velocity limit. -/
structure Track (e : Setup n) (a v : ℝ → ℝ) (rev : List Step) : Prop where
  chain : rev.IsChain (fun c s => Ahead a v e.dt s c)
  first : rev.getLast? = some ⟨0, 0⟩
  limit : ∀ x ∈ rev, x.vel ≤ v x.pos
  nonneg : ∀ x ∈ rev, 0 ≤ x.pos

theorem ahead_clip (h : Flat e a v a0) {s c : Step} (hc0 : 0 ≤ c.pos) (hc : Ahead a v e.dt s c) : Ahead a v e.dt s ⟨c.pos, min c.vel (v c.pos)⟩ := by
  have hv := h.v_pos c.pos hc0
  have hm : 0 < min c.vel (v c.pos) := lt_min hc.vel hv
  have hml : min c.vel (v c.pos) ≤ c.vel := min_le_left _ _
  refine ⟨hc.pos, hc.nonneg, hm, le_trans hml hc.vel_le, ?_, ?_⟩
  · refine le_trans ?_ hc.energy
    dsimp only
    have := pow_le_pow_left₀ hm.le hml 2
    linarith
  · dsimp only
    exact le_min hc.limit (min_le_right _ _)

open Classical in
/-- The forward integration ends, beyond the end of the path. -/
theorem Flat.forward_total (h : Flat e a v a0) (N : Nat) : ∀ (m : Nat) (s : Fwd) (k : Nat), s.remaining.length + k ≤ m →
    e.path.length - s.pos < k * (e.dt * (1 / 2) * (e.dt * a0)) → 0 ≤ s.pos → s.pos ≤ e.path.length → 0 ≤ s.vel → s.acc = a s.pos →
    (∃ rest, s.rev = ⟨s.pos, s.vel⟩ :: rest) → Track e a v s.rev → ∀ K, m < K →
    ∃ o b rest, forward e N K s = some (.ok (o :: b :: rest, true)) ∧ e.path.length < o.pos ∧ b.pos ≤ e.path.length ∧
      Ahead a v e.dt b o ∧ Track e a v (b :: rest) := by
  intro m
  induction m with
  | zero =>
    intro s k hk hlt h0 h1 h2 h3 h4 h5 K hK
    obtain rfl : k = 0 := by omega
    simp at hlt
    linarith
  | succ m ih =>
    intro s k hk hlt h0 h1 h2 h3 h4 h5 K hK
    obtain ⟨K, rfl⟩ : ∃ K', K = K' + 1 := ⟨K - 1, by omega⟩
    have hap := h.a_pos h0
    obtain ⟨hn, hadv⟩ := next_spec s h.dt h2 (by rw [h3]; exact hap) v h3
    have hc0 : 0 ≤ (s.next e.dt s.remaining).pos := le_trans h0 hn.pos.le
    rw [h.forward_turn N K s h0 hc0]
    generalize hcc : s.next e.dt s.remaining = c at *
    obtain ⟨rest, hrest⟩ := h4
    rw [hrest] at h5 ⊢
    by_cases hL : e.path.length < c.pos
    · rw [if_pos hL]
      exact ⟨c, _, rest, rfl, hL, h1, hn, h5⟩
    · rw [if_neg hL, if_neg (not_lt.mpr hn.vel.le)]
      push Not at hL
      have hn' := ahead_clip h hc0 hn
      have hT : Track e a v (⟨c.pos, min c.vel (v c.pos)⟩ :: ⟨s.pos, s.vel⟩ :: rest) := by
        refine ⟨List.isChain_cons_cons.mpr ⟨hn', h5.chain⟩, by rw [List.getLast?_cons_cons]; exact h5.first, ?_, ?_⟩
        · intro x hx
          rcases List.mem_cons.mp hx with rfl | hx
          · exact min_le_right _ _
          · exact h5.limit x hx
        · intro x hx
          rcases List.mem_cons.mp hx with rfl | hx
          · exact hc0
          · exact h5.nonneg x hx
      rcases hadv with hadv | ⟨d, ds, hd1, hd2⟩
      · -- a full step
        cases k with
        | zero => simp at hlt; linarith
        | succ k =>
          refine ih ⟨_, c.pos, min c.vel (v c.pos), a c.pos, s.remaining⟩ k ?_ ?_ hc0 hL hn'.vel.le rfl ⟨_, rfl⟩ hT K (by omega)
          · have : (Fwd.remaining ⟨⟨c.pos, min c.vel (v c.pos)⟩ :: ⟨s.pos, s.vel⟩ :: rest, c.pos, min c.vel (v c.pos), a c.pos, s.remaining⟩).length ≤ s.remaining.length :=
              List.length_dropWhile_le _ _
            omega
          · push_cast at hlt
            have h6 : e.dt * (1 / 2) * (e.dt * a0) ≤ e.dt * (1 / 2) * (e.dt * s.acc) := by
              have := h.a_ge s.pos h0
              have hdt := h.dt
              rw [h3]
              gcongr
            dsimp only
            linarith
      · -- up to a discontinuity
        refine ih ⟨_, c.pos, min c.vel (v c.pos), a c.pos, s.remaining⟩ k ?_ ?_ hc0 hL hn'.vel.le rfl ⟨_, rfl⟩ hT K (by omega)
        · have : (Fwd.remaining ⟨⟨c.pos, min c.vel (v c.pos)⟩ :: ⟨s.pos, s.vel⟩ :: rest, c.pos, min c.vel (v c.pos), a c.pos, s.remaining⟩).length < s.remaining.length := by
            unfold Fwd.remaining
            dsimp only
            rw [show s.discs.dropWhile (fun x => decide (x.1 ≤ s.pos ∨ x.2 = false)) = d :: ds from hd1]
            rw [List.dropWhile_cons_of_pos (by simp [hd2])]
            have := List.length_dropWhile_le (fun x : ℝ × Bool => decide (x.1 ≤ c.pos ∨ x.2 = false)) ds
            rw [List.length_cons]
            omega
          omega
        · have := hn.pos
          dsimp only at this ⊢
          linarith

end CRU.Totp
