import Verif.Totp.Construct
/-
  C81: whatever the path, a trajectory that is made starts at rest at the start of the path and ends at rest at its end.
-/
namespace CRU.Totp
open Ext

variable {n : Nat}

/-! ### Proofs -/

theorem Run.then_ok {α β : Type} {r : Run α} {f : α → Run β} {b : β} (h : r.then f = some (.ok b)) : ∃ a, r = some (.ok a) ∧ f a = some (.ok b) := by
  cases r with
  | none => simp [Run.then] at h
  | some x =>
    cases x with
    | ok a => exact ⟨a, rfl, h⟩
    | throw e => simp [Run.then] at h
    | ub => simp [Run.then] at h

/-- The last element stays when elements are put in front. -/
theorem getLast?_cons_of {α : Type} {x : α} {l : List α} {y : α} (h : l.getLast? = some y) : (x :: l).getLast? = some y := by
  cases l with
  | nil => simp at h
  | cons z zs => rw [List.getLast?_cons_cons]; exact h

open Classical in
theorem forward_first [NeZero n] (e : Setup n) (N : Nat) {x : Step} : ∀ (k : Nat) (s : Fwd) (r : List Step × Bool), s.rev.getLast? = some x →
    forward e N k s = some (.ok r) → r.1.getLast? = some x ∧ 2 ≤ r.1.length
  | 0, _, _, _, h => by simp [forward] at h
  | k + 1, s, r, hs, h => by
    have ih := forward_first e N (x := x) k
    unfold forward at h
    dsimp only at h
    have hlen : 1 ≤ s.rev.length := by
      cases hr : s.rev with
      | nil => rw [hr] at hs; simp at hs
      | cons b bs => simp
    split_ifs at h with h1 h2 h3
    · simp only [Option.some.injEq, Res.ok.injEq] at h
      rw [← h]
      exact ⟨getLast?_cons_of hs, by simp; omega⟩
    · simp at h
    · split at h
      · simp at h
      · split at h
        · simp at h
        · obtain ⟨st, -, h4⟩ := Run.then_ok h
          split_ifs at h4 with h5
          · simp only [Option.some.injEq, Res.ok.injEq] at h4
            rw [← h4]
            exact ⟨getLast?_cons_of hs, by simp; omega⟩
          · exact ih _ _ (getLast?_cons_of hs) h4
    · exact ih _ _ (getLast?_cons_of hs) h

theorem integrateForward_first [NeZero n] (e : Setup n) (N : Nat) {x : Step} {rev : List Step} {a : ℝ} {r : List Step × Bool}
    (hs : rev.getLast? = some x) (h : integrateForward e N rev a = some (.ok r)) : r.1.getLast? = some x ∧ 2 ≤ r.1.length := by
  unfold integrateForward at h
  cases rev with
  | nil => simp at hs
  | cons b bs => exact forward_first e N N ⟨b :: bs, b.pos, b.vel, a, e.path.switching⟩ r hs h

theorem check_ends {s : Bwd} {out : List Step} (h : s.check = .ok (some out)) :
    ∃ i, out = s.traj.reverse ++ i :: s.s1 :: s.below ∧ s.traj ≠ [] := by
  unfold Bwd.check at h
  split at h
  · simp at h
  · rename_i f ts ht
    split_ifs at h
    · simp only [Res.ok.injEq, Option.some.injEq] at h
      exact ⟨_, h.symm, by rw [ht]; simp⟩
    · simp at h

open Classical in
theorem backward_ends (e : Setup n) {x y : Step} : ∀ (k : Nat) (s : Bwd) (out : List Step), (s.s1 :: s.below).getLast? = some x →
    (s.traj.getLast? = some y ∨ (s.traj = [] ∧ y = ⟨s.pos, s.vel⟩ ∧ s.s1.pos ≤ s.pos)) → backward e k s = some (.ok out) →
    out.getLast? = some x ∧ out.head? = some y ∧ 2 ≤ out.length
  | 0, _, _, _, _, h => by simp [backward] at h
  | k + 1, s, out, hx, hy, h => by
    have ih := backward_ends e (x := x) (y := y) k
    have hfin : ∀ s' : Bwd, (s'.s1 :: s'.below).getLast? = some x → s'.traj.getLast? = some y → ∀ o, s'.check = .ok (some o) →
        o.getLast? = some x ∧ o.head? = some y ∧ 2 ≤ o.length := by
      intro s' h1 h2 o h3
      obtain ⟨i, rfl, hne⟩ := check_ends h3
      refine ⟨?_, ?_, ?_⟩
      · rw [List.getLast?_append_of_ne_nil _ (by simp), List.getLast?_cons_cons]; exact h1
      · rw [List.head?_append_of_ne_nil _ (by simpa using hne), List.head?_reverse]; exact h2
      · simp; omega
    unfold backward at h
    dsimp only at h
    split_ifs at h with h1 h2 h3
    · simp at h
    · -- a step backward
      have hy' : (s.push e).traj.getLast? = some y := by
        show (⟨s.pos, s.vel⟩ :: s.traj : List Step).getLast? = some y
        rcases hy with hy | ⟨hy, rfl, -⟩
        · exact getLast?_cons_of hy
        · rw [hy]; rfl
      obtain ⟨r, hr, h4⟩ := Run.then_ok h
      cases r with
      | none => exact ih (s.push e) _ hx (.inl hy') h4
      | some o =>
        simp only [Option.some.injEq, Res.ok.injEq] at h4
        subst h4
        exact hfin (s.push e) hx hy' _ (by simpa using hr)
    · have hy' : s.traj.getLast? = some y := by
        rcases hy with hy | ⟨-, -, hy⟩
        · exact hy
        · exact absurd hy h2
      split at h
      · simp at h
      · rename_i b bs hb
        have hx' : (b :: bs).getLast? = some x := by rw [hb, List.getLast?_cons_cons] at hx; exact hx
        obtain ⟨r, hr, h4⟩ := Run.then_ok h
        cases r with
        | none => exact ih { s with s2 := s.s1, s1 := b, below := bs } _ hx' (.inl hy') h4
        | some o =>
          simp only [Option.some.injEq, Res.ok.injEq] at h4
          subst h4
          exact hfin { s with s2 := s.s1, s1 := b, below := bs } hx' hy' _ (by simpa using hr)
    · simp at h

open Classical in
theorem integrateBackward_ends (e : Setup n) (N : Nat) {x : Step} {rev out : List Step} {pos vel acc : ℝ} (hx : rev.getLast? = some x)
    (h : integrateBackward e N rev pos vel acc = some (.ok out)) : out.getLast? = some x ∧ out.head? = some ⟨pos, vel⟩ ∧ 2 ≤ out.length := by
  unfold integrateBackward at h
  split at h
  · rename_i s2 s1 below
    split_ifs at h with hc
    · simp at h
    rw [List.getLast?_cons_cons] at hx
    exact backward_ends e N ⟨s2, s1, below, [], pos, vel, acc, .fin 0⟩ out hx (.inr ⟨rfl, rfl, not_lt.mp hc⟩) h
  · simp at h

theorem mainLoop_first [NeZero n] (e : Setup n) (N : Nat) {x : Step} : ∀ (k : Nat) (rev : List Step) (a : ℝ) (out : List Step),
    rev.getLast? = some x → mainLoop e N k rev a = some (.ok out) → out.getLast? = some x
  | 0, _, _, _, _, h => by simp [mainLoop] at h
  | k + 1, rev, a, out, hs, h => by
    have ih := mainLoop_first e N (x := x) k
    unfold mainLoop at h
    obtain ⟨r, hr, h1⟩ := Run.then_ok h
    have hf := (integrateForward_first e N hs hr).1
    split_ifs at h1 with h2
    · simp only [Option.some.injEq, Res.ok.injEq] at h1
      rw [← h1]; exact hf
    · split at h1
      · simp at h1
      · rename_i b bs hb
        split at h1
        · simp at h1
        · simp only [Option.some.injEq, Res.ok.injEq] at h1
          rw [← h1]; exact hf
        · obtain ⟨rev', hr', h3⟩ := Run.then_ok h1
          exact ih _ _ _ (integrateBackward_ends e N hf hr').1 h3

/-! ### Theorem -/

open Classical in
/-- C81 (every path, with blends or without, and all limits and timesteps). If a trajectory is made, it is one along the path through the waypoints, from rest at
the start of the path to rest at its end. -/
theorem C81_rest_to_rest [NeZero n] (ws : List (V n)) (vmax amax : Fin n → Ext) (dev dt : Ext) (N : Nat) (p : Path n) (ts : List Timed)
    (h : parametrize N ws vmax amax dev dt = some (.ok (p, ts))) :
    Path.make ws dev = .ok p ∧ ∃ steps, ts = timing steps ∧ 2 ≤ steps.length ∧ steps.head? = some ⟨0, 0⟩ ∧ steps.getLast? = some ⟨p.length, 0⟩ := by
  unfold parametrize at h
  obtain ⟨p', hp, h1⟩ := Run.then_ok h
  split_ifs at h1 with hc
  swap
  · simp at h1
  obtain ⟨steps, hs, h2⟩ := Run.then_ok h1
  simp only [Option.some.injEq, Res.ok.injEq, Prod.mk.injEq] at h2
  obtain ⟨rfl, rfl⟩ := h2
  refine ⟨by simpa using hp, steps, rfl, ?_⟩
  unfold buildSteps at hs
  obtain ⟨rev, hr, h3⟩ := Run.then_ok hs
  obtain ⟨rev', hr', h4⟩ := Run.then_ok h3
  simp only [Option.some.injEq, Res.ok.injEq] at h4
  subst h4
  have hf := mainLoop_first _ _ _ _ _ _ (x := ⟨0, 0⟩) rfl hr
  obtain ⟨e1, e2, e3⟩ := integrateBackward_ends _ _ hf hr'
  refine ⟨by simpa using e3, ?_, ?_⟩
  · rw [List.head?_reverse]; exact e1
  · rw [List.getLast?_reverse]; exact e2

/-- Non-vacuity: the trajectory round the corner without blend. -/
example : ∃ N p ts, parametrize N cornerPath (fun _ => .fin 1) (fun _ => .fin 1) (.fin 0) (.fin (1 / 1000)) = some (.ok (p, ts)) ∧
    ∃ steps, ts = timing steps ∧ steps.getLast? = some ⟨p.length, 0⟩ := by
  obtain ⟨p, steps, N, -, h1, -, -, -, -, -⟩ := C81_polyline_partial cornerPath 0 (le_refl 0) cornerPath_regular (by simp [cornerPath]) (fun _ => 1)
    (fun _ => 1) (by simp) (by simp) (by intro i; have := dblMax_big; norm_num at this ⊢; linarith) (1 / 1000) (by norm_num)
  obtain ⟨-, steps', h2, -, -, h3⟩ := C81_rest_to_rest cornerPath _ _ _ _ N p _ (h1 N (le_refl _))
  exact ⟨N, p, _, h1 N (le_refl _), steps', h2, h3⟩

end CRU.Totp
