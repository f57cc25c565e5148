import Verif.Totp.BlendFalse
/-
  C82: integrating forward keeps under the limit curves, on every path.
-/
namespace CRU.Totp
open Ext

variable {n : Nat}

open Classical in
/-- On or under both limit curves at its place. -/
def Under (e : Setup n) (s : Step) : Prop := ¬ (e.accVel s.pos).lt (.fin s.vel) ∧ ¬ (e.velVel s.pos).lt (.fin s.vel)

open Classical in
/-- **C82, the bisection** at the place where a limit curve is crossed: it begins with a place `b` under the curves and a place `a` over them,
    and ends with two places at most `eps` apart, the first under the curves, the second over them. -/
theorem C82_bisection [NeZero n] (e : Setup n) : ∀ (k : Nat) (b bv a av : ℝ) (r : ℝ × ℝ × ℝ), b ≤ a →
    bisectForward e k b bv a av = some r → Under e ⟨b, bv⟩ → ¬ Under e ⟨a, av⟩ →
    Under e ⟨r.1, r.2.1⟩ ∧ r.2.2 - r.1 ≤ eps ∧ b ≤ r.1 ∧ r.1 ≤ r.2.2 ∧ r.2.2 ≤ a ∧ ∃ v, ¬ Under e ⟨r.2.2, v⟩ := by
  intro k
  induction k with
  | zero => intro b bv a av r _ h; simp [bisectForward] at h
  | succ k ih =>
    intro b bv a av r hab h hu ho
    rw [bisectForward] at h
    split at h
    · rename_i hlt
      have e1 : b ≤ 1 / 2 * (b + a) := by linarith
      have e2 : 1 / 2 * (b + a) ≤ a := by linarith
      dsimp only at h
      generalize (if (e.velVel (1 / 2 * (b + a))).lt (.fin (1 / 2 * (bv + av))) ∧ (e.slope b (e.velVel b) false).le (e.velVelDeriv b)
        then (e.velVel (1 / 2 * (b + a))).real else 1 / 2 * (bv + av)) = mv at h
      split at h
      · rename_i hover
        have := ih _ _ _ _ r e1 h hu (by
          rintro ⟨h1, h2⟩
          rcases hover with h' | h'
          · exact h1 h'
          · exact h2 h')
        exact ⟨this.1, this.2.1, this.2.2.1, this.2.2.2.1, by linarith [this.2.2.2.2.1], this.2.2.2.2.2⟩
      · rename_i hover
        have hov : Under e ⟨1 / 2 * (b + a), mv⟩ := ⟨fun h' => hover (Or.inl h'), fun h' => hover (Or.inr h')⟩
        have := ih _ _ _ _ r e2 h hov ho
        exact ⟨this.1, this.2.1, by linarith [this.2.2.1], this.2.2.2⟩
    · rename_i hlt
      obtain rfl := Option.some.inj h
      exact ⟨hu, by simpa using hlt, le_refl _, hab, le_refl _, av, ho⟩

/-- What the loop adds. -/
theorem forward_under [NeZero n] (e : Setup n) (N : Nat) : ∀ (k : Nat) (s : Fwd) (l : List Step) (ended : Bool),
    forward e N k s = some (.ok (l, ended)) → (∀ b, s.rev.head? = some b → Under e b) →
    ∃ added, l = added ++ s.rev ∧ (∀ t ∈ (if ended then added.tail else added), Under e t) := by
  intro k
  induction k with
  | zero => intro s l ended h; simp [forward] at h
  | succ k ih =>
    intro s l ended h hu
    rw [forward] at h
    dsimp only at h
    set c := s.next e.dt s.remaining with hcdef
    split at h
    · simp only [Option.some.injEq, Res.ok.injEq, Prod.mk.injEq] at h
      refine ⟨[c], by rw [← h.1]; rfl, ?_⟩
      rw [← h.2]; simp
    · split at h
      · simp at h
      · have fin : ∀ (t : Step) (acc pos vel : ℝ) (discs), Under e t →
            forward e N k ⟨t :: s.rev, pos, vel, acc, discs⟩ = some (.ok (l, ended)) →
            ∃ added, l = added ++ s.rev ∧ (∀ t ∈ (if ended then added.tail else added), Under e t) := by
          intro t acc pos vel discs ht h
          obtain ⟨added, e1, e2⟩ := ih _ l ended h (by intro b hb; simp at hb; subst hb; exact ht)
          refine ⟨added ++ [t], by rw [e1]; simp, ?_⟩
          intro x hx
          cases ended with
          | true =>
            simp only [if_true] at hx e2
            cases added with
            | nil => simp at hx
            | cons a l' =>
              simp only [List.cons_append, List.tail_cons, List.mem_append, List.mem_singleton] at hx
              rcases hx with hx | rfl
              · exact e2 x hx
              · exact ht
          | false =>
            simp only [Bool.false_eq_true, if_false, List.mem_append, List.mem_singleton] at hx e2
            rcases hx with hx | rfl
            · exact e2 x hx
            · exact ht
        split at h
        · rename_i hover
          split at h
          · simp at h
          · rename_i b rest hrev
            have hb : Under e b := hu b (by rw [hrev]; rfl)
            split at h
            · simp at h
            · rename_i r hr
              have hover' : ¬ Under e ⟨c.pos, e.clip s.pos c⟩ := by
                rintro ⟨h1, h2⟩
                rcases hover with h' | h'
                · exact h1 h'
                · exact h2 h'
              have hru : Under e ⟨r.1, r.2.1⟩ := by
                rcases le_total b.pos c.pos with hle | hle
                · exact (C82_bisection e N _ _ _ _ r hle hr hb hover').1
                · cases N with
                  | zero => simp [bisectForward] at hr
                  | succ N =>
                    rw [bisectForward, if_neg (by
                      have : (0 : ℝ) < eps := by norm_num [eps]
                      linarith)] at hr
                    obtain rfl := Option.some.inj hr
                    exact hb
              unfold Run.then at h
              split at h
              · simp at h
              · rename_i stop _
                dsimp only at h
                split at h
                · simp only [Option.some.injEq, Res.ok.injEq, Prod.mk.injEq] at h
                  refine ⟨[⟨r.1, r.2.1⟩], by rw [← h.1]; simp, ?_⟩
                  rw [← h.2]
                  intro t ht
                  simp at ht
                  subst ht; exact hru
                · obtain ⟨added, q1, q2⟩ := fin _ _ _ _ _ hru (by simpa [hrev] using h)
                  exact ⟨added, by simpa [hrev] using q1, q2⟩
              · simp at h
              · simp at h
        · rename_i hover
          exact fin _ _ _ _ _ ⟨fun h' => hover (Or.inl h'), fun h' => hover (Or.inr h')⟩ h

/-- **C82, integrating forward, every path.** Every step that integrating forward adds to a trajectory whose last step is on or under the
    two limit curves (the largest path velocity that the velocity limits and the acceleration limits allow at that place) is on or under
    them itself; only a step beyond the end of the path, which ends the integration, is not checked. -/
theorem C82_forward_under_limits [NeZero n] (e : Setup n) (N : Nat) (rev : List Step) (acceleration : ℝ) (l : List Step)
    (ended : Bool) (hu : ∀ b, rev.head? = some b → Under e b)
    (h : integrateForward e N rev acceleration = some (.ok (l, ended))) :
    ∃ added, l = added ++ rev ∧ ∀ t ∈ (if ended then added.tail else added), Under e t := by
  unfold integrateForward at h
  split at h
  · simp at h
  · rename_i b rest
    exact forward_under e N N _ l ended h hu

theorem bend_start_under : Under bend ⟨0, 0⟩ := by
  unfold Under
  rw [accVel_line (by norm_num), (vel_line (s := 0) (by norm_num)).1]
  simp [Ext.lt]

/-- A path with a blend: the step at the beginning of the blend, found by bisection, is under the limits. -/
example : ∃ N x l, 1 - x ≤ eps ∧ integrateForward bend N [⟨0, 0⟩] 1 = some (.ok (l, false)) ∧ l = [⟨x, 4 / 3 * x⟩, ⟨0, 0⟩] ∧
    Under bend ⟨x, 4 / 3 * x⟩ := by
  obtain ⟨x, -, -, hx, h⟩ := bend_forward (N := 21) (le_refl _)
  refine ⟨21, x, _, hx, h, rfl, ?_⟩
  obtain ⟨added, e1, e2⟩ := C82_forward_under_limits bend 21 [⟨0, 0⟩] 1 _ false
    (by intro b hb; simp at hb; subst hb; exact bend_start_under) h
  refine e2 _ ?_
  have : added = [⟨x, 4 / 3 * x⟩] := by
    have : [(⟨x, 4 / 3 * x⟩ : Step)] ++ [⟨0, 0⟩] = added ++ [⟨0, 0⟩] := by simpa using e1
    exact (List.append_cancel_right this).symm
  rw [this]; simp

end CRU.Totp
