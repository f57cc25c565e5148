import Verif.Totp.BlendFalse
/-
  C110: the search for the next switching point of a trajectory (time_optimal_trajectory_parametrization.cpp:608-800).
-/
namespace CRU.Totp
open Ext

variable {n : Nat}

/-! ### Specification -/

/-- At `x` the velocity limit falls faster than the trajectory could. -/
def Steep [NeZero n] (e : Setup n) (x : ℝ) : Prop := (e.velVelDeriv x).lt (e.slope x (e.velVel x) false)

/-- At `x` the velocity limit falls exactly as fast as the trajectory could. -/
def Touch [NeZero n] (e : Setup n) (x : ℝ) : Prop := (e.velVelDeriv x).le (e.slope x (e.velVel x) false) ∧ ¬ Steep e x

/-- The path reports the switching point `p` when asked somewhere from `pos` on; it is not within `eps` of the end. -/
def Reported (e : Setup n) (pos : ℝ) (p : ℝ × Bool) : Prop := (∃ x, pos ≤ x ∧ e.path.nextSwitchingPoint x = p) ∧ p.1 ≤ e.path.length - eps

/-- The limit that the accelerations put on the velocity has a minimum at `p`, or jumps there in a way that a trajectory can go through. -/
def AccKink (e : Setup n) (p : ℝ × Bool) : Prop :=
  if p.2 then
    ((e.accVel (p.1 + eps)).lt (e.accVel (p.1 - eps)) ∨
      (e.accVelDeriv (p.1 - 2 * eps)).lt (e.slope (p.1 - eps) (stdMin (e.accVel (p.1 - eps)) (e.accVel (p.1 + eps))) false)) ∧
    ((e.accVel (p.1 - eps)).lt (e.accVel (p.1 + eps)) ∨
      (e.slope (p.1 + eps) (stdMin (e.accVel (p.1 - eps)) (e.accVel (p.1 + eps))) true).lt (e.accVelDeriv (p.1 + 2 * eps)))
  else (e.accVelDeriv (p.1 - eps)).lt (.fin 0) ∧ (Ext.fin 0).lt (e.accVelDeriv (p.1 + eps))

/-- The velocity and the accelerations there. -/
noncomputable def accKinkAt (e : Setup n) (p : ℝ × Bool) : Switch :=
  if p.2 then
    ⟨p.1, stdMin (e.accVel (p.1 - eps)) (e.accVel (p.1 + eps)),
      e.acc (p.1 - eps) (stdMin (e.accVel (p.1 - eps)) (e.accVel (p.1 + eps))) false,
      e.acc (p.1 + eps) (stdMin (e.accVel (p.1 - eps)) (e.accVel (p.1 + eps))) true⟩
  else ⟨p.1, e.accVel p.1, .fin 0, .fin 0⟩

/-- A kink that is not over the velocity limit. -/
def AccPoint (e : Setup n) (p : ℝ × Bool) : Prop := AccKink e p ∧ ¬ (e.velVel p.1).lt (accKinkAt e p).vel

/-- At `x` the velocity limit falls at least as fast as the trajectory could. -/
def Slow [NeZero n] (e : Setup n) (x : ℝ) : Prop := (e.velVelDeriv x).le (e.slope x (e.velVel x) false)

/-- Of the places 0, 1, 2, ... thousandths after `pos`, the `i`-th is one where the velocity limit does not fall too fast, and at that place or at
one before it the limit fell at least as fast as the trajectory could. -/
def CrossesAt [NeZero n] (e : Setup n) (pos : ℝ) (i : Nat) : Prop := (∃ j ≤ i, Slow e (pos + j / 1000)) ∧ ¬ Steep e (pos + i / 1000)

/-- `s` is the velocity switching point that belongs to the first crossing after `pos`: within the thousandth before that crossing and 1/1024000
after a place where the limit falls too fast (if the limit did not just touch the slope at the crossing); the limit does not fall too fast at
`s`, which is on the limit, with the greatest deceleration before and the greatest acceleration after it. -/
def NextVel [NeZero n] (e : Setup n) (pos : ℝ) (s : Switch) : Prop := ∃ (i : Nat) (before : ℝ), CrossesAt e pos i ∧ pos + i / 1000 < e.path.length ∧
  (∀ j < i, ¬ CrossesAt e pos j) ∧ pos + i / 1000 - 1 / 1000 ≤ before ∧ s.pos ≤ pos + i / 1000 ∧ s.pos = before + 1 / 1024000 ∧
  (∃ c : Nat, s.pos = pos + i / 1000 - 1 / 1000 + c / 1024000) ∧
  ¬ Steep e s.pos ∧ (Steep e before ∨ Touch e (pos + i / 1000)) ∧
  s.vel = e.velVel s.pos ∧ s.before = e.acc before (e.velVel before) false ∧ s.after = e.acc s.pos (e.velVel s.pos) true

/-- There is no velocity switching point after `pos`. -/
def NoVel [NeZero n] (e : Setup n) (pos : ℝ) : Prop := ∀ i : Nat, pos + i / 1000 < e.path.length → ¬ CrossesAt e pos i

/-- The switching point is over the limit that the accelerations put on the velocity. -/
def OverAcc (e : Setup n) (s : Switch) : Prop := (e.accVel (s.pos - eps)).lt s.vel ∨ (e.accVel (s.pos + eps)).lt s.vel

/-- From `a` one gets to `b` by going from velocity switching point to velocity switching point, all of them over the limit that the
accelerations put on the velocity. -/
inductive Skipped [NeZero n] (e : Setup n) : ℝ → ℝ → Prop
  | refl (a : ℝ) : Skipped e a a
  | step {a b : ℝ} {s : Switch} : NextVel e a s → OverAcc e s → Skipped e s.pos b → Skipped e a b

/-! ### Switching points of the path -/

/-- Asked from a place before the answer, the path gives the same answer. -/
theorem next_between (p : Path n) {pos x : ℝ} (h : pos ≤ x) (hx : x < (p.nextSwitchingPoint pos).1 ∨ p.nextSwitchingPoint pos = (p.length, true)) :
    p.nextSwitchingPoint x = p.nextSwitchingPoint pos ∨ x ≥ (p.nextSwitchingPoint pos).1 := by
  by_cases hlt : x < (p.nextSwitchingPoint pos).1
  · left
    clear hx
    unfold Path.nextSwitchingPoint at hlt ⊢
    generalize p.switching = l at hlt ⊢
    induction l with
    | nil => rfl
    | cons y l ih =>
      rw [List.dropWhile_cons] at hlt ⊢
      rw [List.dropWhile_cons]
      by_cases hy : y.1 ≤ pos
      · rw [if_pos (by simpa using hy)] at hlt
        rw [if_pos (by simpa using hy.trans h), if_pos (by simpa using hy)]
        exact ih hlt
      · rw [if_neg (by simpa using hy)] at hlt
        rw [if_neg (by simpa using hlt), if_neg (by simpa using hy)]
  · exact Or.inr (not_lt.mp hlt)

theorem next_same (p : Path n) {pos x : ℝ} (h : pos ≤ x) (hx : x < (p.nextSwitchingPoint pos).1) : p.nextSwitchingPoint x = p.nextSwitchingPoint pos := by
  rcases next_between p h (Or.inl hx) with h | h
  · exact h
  · exact absurd hx (not_lt.mpr h)

/-- An answer before the end of the path is a listed point ahead. -/
theorem next_ahead (p : Path n) {pos : ℝ} (hlt : (p.nextSwitchingPoint pos).1 < p.length) :
    pos < (p.nextSwitchingPoint pos).1 ∧ p.nextSwitchingPoint pos ∈ p.switching := by
  unfold Path.nextSwitchingPoint at hlt ⊢
  split at hlt
  · exact absurd hlt (lt_irrefl _)
  · next x l heq =>
    have h1 : x ∈ p.switching.dropWhile (fun x => decide (x.1 ≤ pos)) := by rw [heq]; exact List.mem_cons_self
    have h2 := List.head_dropWhile_not (fun x : ℝ × Bool => decide (x.1 ≤ pos)) (l := p.switching) (by rw [heq]; simp)
    simp only [heq, List.head_cons, decide_eq_false_iff_not, not_le] at h2
    exact ⟨h2, (List.dropWhile_sublist _).subset h1⟩

/-- Number of listed points ahead. -/
noncomputable def ahead (p : Path n) (pos : ℝ) : Nat := open Classical in p.switching.countP (fun x => decide (pos < x.1))

theorem ahead_le (p : Path n) (pos : ℝ) : ahead p pos ≤ p.switching.length := List.countP_le_length

theorem ahead_next (p : Path n) {pos : ℝ} (hlt : (p.nextSwitchingPoint pos).1 < p.length) : ahead p (p.nextSwitchingPoint pos).1 < ahead p pos := by
  classical
  obtain ⟨h1, h2⟩ := next_ahead p hlt
  generalize p.nextSwitchingPoint pos = q at h1 h2
  unfold ahead
  generalize p.switching = l at h2
  induction l with
  | nil => cases h2
  | cons y l ih =>
    rw [List.countP_cons, List.countP_cons]
    have mono : l.countP (fun x => decide (q.1 < x.1)) ≤ l.countP (fun x => decide (pos < x.1)) :=
      List.countP_mono_left fun x _ hx => by simp only [decide_eq_true_eq] at hx ⊢; linarith
    rcases List.mem_cons.mp h2 with rfl | h2
    · simp only [lt_irrefl, decide_false, Bool.false_eq_true, if_false, decide_eq_true_eq, h1, if_true]
      omega
    · have := ih h2
      have h3 : (if decide (q.1 < y.1) = true then 1 else 0) ≤ (if decide (pos < y.1) = true then 1 else 0) := by
        split_ifs with a b b
        · exact le_refl _
        · simp only [decide_eq_true_eq] at a b; exact absurd (h1.trans a) b
        · exact Nat.zero_le _
        · exact le_refl _
      omega

theorem ahead_mono (p : Path n) {a b : ℝ} (h : a ≤ b) : ahead p b ≤ ahead p a := by
  classical
  exact List.countP_mono_left fun x _ hx => by simp only [decide_eq_true_eq] at hx ⊢; linarith

theorem eps_pos' : 0 < eps := by unfold eps; norm_num

/-! ### Acceleration switching points -/

open Classical in
theorem nextAcc_step (e : Setup n) (k : Nat) (pos : ℝ) : nextAccSwitch e (k + 1) pos =
    if e.path.length - eps < (e.path.nextSwitchingPoint pos).1 then some none
    else if AccKink e (e.path.nextSwitchingPoint pos) then some (some (accKinkAt e (e.path.nextSwitchingPoint pos)))
    else nextAccSwitch e k (e.path.nextSwitchingPoint pos).1 := by
  rw [nextAccSwitch]
  dsimp only
  by_cases h1 : e.path.length - eps < (e.path.nextSwitchingPoint pos).1
  · rw [if_pos h1, if_pos h1]
  · rw [if_neg h1, if_neg h1]
    unfold AccKink accKinkAt
    by_cases h2 : (e.path.nextSwitchingPoint pos).2 = true
    · simp only [h2, if_true]
    · simp only [h2, if_false, Bool.false_eq_true]

/-- The next kink: it is reported, and no other kink is reported before it. -/
theorem nextAcc_spec (e : Setup n) : ∀ (k : Nat) (pos : ℝ),
    (∀ s, nextAccSwitch e k pos = some (some s) → ∃ p, Reported e pos p ∧ AccKink e p ∧ s = accKinkAt e p ∧ pos < p.1 ∧
      ∀ q, Reported e pos q → AccKink e q → p.1 ≤ q.1) ∧
    (nextAccSwitch e k pos = some none → ∀ q, Reported e pos q → ¬ AccKink e q)
  | 0, pos => ⟨by simp [nextAccSwitch], by simp [nextAccSwitch]⟩
  | k + 1, pos => by
    classical
    have ih := nextAcc_spec e k
    rw [nextAcc_step]
    -- what is reported from `pos` on is the next point, or reported from there on
    have split : ∀ q, Reported e pos q → q = e.path.nextSwitchingPoint pos ∨ ((e.path.nextSwitchingPoint pos).1 < q.1 ∧ Reported e (e.path.nextSwitchingPoint pos).1 q) := by
      rintro q ⟨⟨x, hx, hq⟩, hl⟩
      by_cases hlt : x < (e.path.nextSwitchingPoint pos).1
      · exact Or.inl (by rw [← hq, next_same _ hx hlt])
      · refine Or.inr ⟨?_, ⟨x, not_lt.mp hlt, hq⟩, hl⟩
        have : x < q.1 := by
          rw [← hq]
          refine (next_ahead _ ?_).1
          rw [hq]
          have := eps_pos'
          linarith
        linarith [not_lt.mp hlt]
    by_cases h1 : e.path.length - eps < (e.path.nextSwitchingPoint pos).1
    · rw [if_pos h1]
      refine ⟨by simp, fun _ q hq => ?_⟩
      exfalso
      rcases split q hq with rfl | ⟨h2, -⟩
      · exact absurd hq.2 (not_le.mpr h1)
      · have := hq.2
        linarith
    · rw [if_neg h1]
      have hlt : (e.path.nextSwitchingPoint pos).1 < e.path.length := by
        have := eps_pos'
        linarith [not_lt.mp h1]
      have hrep : Reported e pos (e.path.nextSwitchingPoint pos) := ⟨⟨pos, le_refl _, rfl⟩, not_lt.mp h1⟩
      by_cases h2 : AccKink e (e.path.nextSwitchingPoint pos)
      · rw [if_pos h2]
        refine ⟨?_, by simp⟩
        intro s hs
        simp only [Option.some.injEq] at hs
        refine ⟨_, hrep, h2, hs.symm, (next_ahead _ hlt).1, ?_⟩
        intro q hq _
        rcases split q hq with rfl | ⟨h3, -⟩
        · exact le_refl _
        · exact le_of_lt h3
      · rw [if_neg h2]
        obtain ⟨i1, i2⟩ := ih (e.path.nextSwitchingPoint pos).1
        refine ⟨?_, ?_⟩
        · intro s hs
          obtain ⟨p, h3, h4, h5, h6, h7⟩ := i1 s hs
          have hpos := (next_ahead _ hlt).1
          refine ⟨p, ⟨?_, h3.2⟩, h4, h5, hpos.trans h6, ?_⟩
          · obtain ⟨x, hx, hq⟩ := h3.1
            exact ⟨x, by linarith, hq⟩
          · intro q hq hk
            rcases split q hq with rfl | ⟨h8, h9⟩
            · exact absurd hk h2
            · exact h7 q h9 hk
        · intro hs q hq
          rcases split q hq with rfl | ⟨h8, h9⟩
          · exact h2
          · exact i2 hs q h9

/-- The search ends. -/
theorem nextAcc_ends (e : Setup n) : ∀ (k : Nat) (pos : ℝ), ahead e.path pos < k → nextAccSwitch e k pos ≠ none
  | 0, pos, h => by omega
  | k + 1, pos, h => by
    classical
    rw [nextAcc_step]
    split_ifs with h1 h2
    · simp
    · simp
    · have hlt : (e.path.nextSwitchingPoint pos).1 < e.path.length := by
        have := eps_pos'
        linarith [not_lt.mp h1]
      exact nextAcc_ends e k _ (by have := ahead_next e.path hlt; omega)

theorem accKinkAt_pos (e : Setup n) (p : ℝ × Bool) : (accKinkAt e p).pos = p.1 := by
  unfold accKinkAt
  split <;> rfl

/-- The loop over the kinks: the first one that is not over the velocity limit. -/
theorem accLoop_spec (e : Setup n) (N : Nat) : ∀ (k : Nat) (s : Switch),
    (∀ t, accSwitchLoop e N k s = some (false, t) → ∃ p, Reported e s.pos p ∧ AccPoint e p ∧ t = accKinkAt e p ∧ s.pos < p.1 ∧
      ∀ q, Reported e s.pos q → AccPoint e q → p.1 ≤ q.1) ∧
    (∀ t, accSwitchLoop e N k s = some (true, t) → ∀ q, Reported e s.pos q → ¬ AccPoint e q)
  | 0, s => ⟨by simp [accSwitchLoop], by simp [accSwitchLoop]⟩
  | k + 1, s => by
    have ih := accLoop_spec e N k
    obtain ⟨a1, a2⟩ := nextAcc_spec e N s.pos
    rw [accSwitchLoop]
    cases hN : nextAccSwitch e N s.pos with
    | none => exact ⟨by simp, by simp⟩
    | some o =>
      cases o with
      | none => exact ⟨by simp, fun t _ q hq h => a2 hN q hq h.1⟩
      | some s' =>
        obtain ⟨p, h1, h2, h3, h4, h5⟩ := a1 s' hN
        have hp : s'.pos = p.1 := by rw [h3]; exact accKinkAt_pos e p
        dsimp only
        split_ifs with hc
        · obtain ⟨i1, i2⟩ := ih s'
          -- a point reported from `s.pos` on that is not over the limit is reported from the rejected kink on
          have later : ∀ q, Reported e s.pos q → AccPoint e q → Reported e s'.pos q := by
            rintro q hq hqa
            obtain ⟨x, hx, hxq⟩ := hq.1
            have hle := h5 q hq hqa.1
            by_cases hxp : p.1 ≤ x
            · exact ⟨⟨x, by rw [hp]; exact hxp, hxq⟩, hq.2⟩
            · exfalso
              -- then `q` is the kink itself or lies behind it
              obtain ⟨y, hy, hyp⟩ := h1.1
              have hlq : q.1 < e.path.length := by have := eps_pos'; linarith [hq.2]
              have hlp : p.1 < e.path.length := by have := eps_pos'; linarith [h1.2]
              have hxq1 : x < q.1 := by rw [← hxq] at hlq ⊢; exact (next_ahead _ hlq).1
              have hyp1 : y < p.1 := by rw [← hyp] at hlp ⊢; exact (next_ahead _ hlp).1
              have hqp : q = p := by
                rcases le_total x y with hxy | hxy
                · have := next_same e.path hxy (by rw [hxq]; linarith)
                  rw [← hxq, ← hyp, this]
                · have := next_same e.path hxy (by rw [hyp]; exact not_le.mp hxp)
                  rw [← hxq, ← hyp, this]
              subst hqp
              exact hqa.2 (by rw [← h3, ← hp]; exact hc)
          refine ⟨fun t ht => ?_, fun t ht q hq hqa => i2 t ht q (later q hq hqa) hqa⟩
          obtain ⟨p', j1, j2, j3, j4, j5⟩ := i1 t ht
          refine ⟨p', ⟨?_, j1.2⟩, j2, j3, by rw [hp] at j4; linarith, fun q hq hqa => j5 q (later q hq hqa) hqa⟩
          obtain ⟨x, hx, hxq⟩ := j1.1
          exact ⟨x, by rw [hp] at hx; linarith, hxq⟩
        · refine ⟨fun t ht => ?_, by simp⟩
          simp only [Option.some.injEq, Prod.mk.injEq, true_and] at ht
          subst ht
          exact ⟨p, h1, ⟨h2, by rw [← h3, ← hp]; exact hc⟩, h3, h4, fun q hq hqa => h5 q hq hqa.1⟩

theorem accLoop_ends (e : Setup n) {N : Nat} (hN : e.path.switching.length < N) : ∀ (k : Nat) (s : Switch), ahead e.path s.pos < k →
    accSwitchLoop e N k s ≠ none
  | 0, s, h => by omega
  | k + 1, s, h => by
    rw [accSwitchLoop]
    have h1 := nextAcc_ends e N s.pos (by have := ahead_le e.path s.pos; omega)
    cases hs : nextAccSwitch e N s.pos with
    | none => exact absurd hs h1
    | some o =>
      cases o with
      | none => simp
      | some s' =>
        obtain ⟨p, h2, h3, h4, h5, h6⟩ := (nextAcc_spec e N s.pos).1 s' hs
        dsimp only
        split_ifs
        · refine accLoop_ends e hN k s' ?_
          have hp : s'.pos = p.1 := by rw [h4]; exact accKinkAt_pos e p
          obtain ⟨x, hx, hxq⟩ := h2.1
          have hlp : p.1 < e.path.length := by have := eps_pos'; linarith [h2.2]
          have := ahead_next e.path (pos := x) (by rw [hxq]; exact hlp)
          rw [hxq] at this
          have h7 := ahead_mono e.path hx
          rw [hp]
          omega
        · simp

/-! ### Velocity switching points -/

theorem Ext.lt_le {a b : Ext} (h : a.lt b) : a.le b := by
  cases a <;> cases b <;> simp_all [Ext.lt, Ext.le, le_of_lt]

theorem steep_slow [NeZero n] {e : Setup n} {x : ℝ} (h : Steep e x) : Slow e x := Ext.lt_le h

open Classical in
theorem velScan_step [NeZero n] (e : Setup n) (k : Nat) (p : ℝ) (st : Bool) : velScan e (k + 1) p st =
    if (¬ (st = true ∨ Slow e (p + 1 / 1000)) ∨ Steep e (p + 1 / 1000)) ∧ p + 1 / 1000 < e.path.length then
      velScan e k (p + 1 / 1000) (st || decide (Slow e (p + 1 / 1000)))
    else some (p + 1 / 1000) := by
  rw [velScan]
  unfold Slow Steep
  congr 1
  cases st <;> simp

theorem velScan_spec [NeZero n] (e : Setup n) : ∀ (k : Nat) (p : ℝ) (st : Bool) (q : ℝ), velScan e k (p - 1 / 1000) st = some q →
    ∃ m : Nat, q = p + m / 1000 ∧ (∀ i < m, p + i / 1000 < e.path.length ∧
      (¬ (st = true ∨ ∃ j ≤ i, Slow e (p + j / 1000)) ∨ Steep e (p + i / 1000))) ∧
      (e.path.length ≤ q ∨ ((st = true ∨ ∃ j ≤ m, Slow e (p + j / 1000)) ∧ ¬ Steep e q))
  | 0, _, _, _, h => by simp [velScan] at h
  | k + 1, p, st, q, h => by
    classical
    rw [velScan_step, sub_add_cancel] at h
    split_ifs at h with hc
    · obtain ⟨m, h1, h2, h3⟩ := velScan_spec e k (p + 1 / 1000) (st || decide (Slow e p)) q (by rw [add_sub_cancel_right]; exact h)
      have cast : ∀ i : Nat, p + 1 / 1000 + (i : ℝ) / 1000 = p + ((i + 1 : Nat) : ℝ) / 1000 := by intro i; push_cast; ring
      have ex : ∀ i : Nat, ((st || decide (Slow e p)) = true ∨ ∃ j ≤ i, Slow e (p + 1 / 1000 + j / 1000)) ↔
          (st = true ∨ ∃ j ≤ i + 1, Slow e (p + j / 1000)) := by
        intro i
        simp only [Bool.or_eq_true, decide_eq_true_eq]
        constructor
        · rintro ((h | h) | ⟨j, hj, hs⟩)
          · exact Or.inl h
          · exact Or.inr ⟨0, by omega, by simpa using h⟩
          · exact Or.inr ⟨j + 1, by omega, by rw [← cast]; exact hs⟩
        · rintro (h | ⟨j, hj, hs⟩)
          · exact Or.inl (Or.inl h)
          · rcases j with _ | j
            · exact Or.inl (Or.inr (by simpa using hs))
            · exact Or.inr ⟨j, by omega, by rw [cast]; exact hs⟩
      refine ⟨m + 1, by rw [h1, cast], ?_, ?_⟩
      · intro i hi
        rcases i with _ | i
        · refine ⟨by simpa using hc.2, ?_⟩
          rcases hc.1 with h4 | h4
          · left
            rintro (h5 | ⟨j, hj, hs⟩)
            · exact h4 (Or.inl h5)
            · obtain rfl : j = 0 := by omega
              exact h4 (Or.inr (by simpa using hs))
          · right; simpa using h4
        · obtain ⟨h4, h5⟩ := h2 i (by omega)
          rw [cast] at h4 h5
          exact ⟨h4, by rw [ex] at h5; exact h5⟩
      · rw [ex] at h3; exact h3
    · simp only [Option.some.injEq] at h
      subst h
      refine ⟨0, by simp, by intro i hi; omega, ?_⟩
      by_cases hl : e.path.length ≤ p
      · exact Or.inl hl
      · right
        rw [not_and_or] at hc
        rcases hc with hc | hc
        · push Not at hc
          exact ⟨hc.1.imp id fun h => ⟨0, le_refl _, by simpa using h⟩, hc.2⟩
        · exact absurd (not_le.mp hl) hc

theorem velScan_ends [NeZero n] (e : Setup n) : ∀ (k : Nat) (p : ℝ) (st : Bool), e.path.length - p ≤ k / 1000 →
    velScan e (k + 1) (p - 1 / 1000) st ≠ none
  | 0, p, st, h => by
    classical
    rw [velScan_step, sub_add_cancel]
    split_ifs with hc
    · simp only [Nat.cast_zero, zero_div] at h
      linarith [hc.2]
    · simp
  | k + 1, p, st, h => by
    classical
    rw [velScan_step, sub_add_cancel]
    split_ifs with hc
    · have := velScan_ends e k (p + 1 / 1000) (st || decide (Slow e p)) (by push_cast at h; linarith)
      rwa [add_sub_cancel_right] at this
    · simp

theorem velBisect_spec [NeZero n] (e : Setup n) : ∀ (j k : Nat) (b a : ℝ), a - b = 2 ^ j * (1 / 1024000) → j ≤ 10 → j < k →
    ∃ r, velBisect e k b a = some r ∧ r.2 = r.1 + 1 / 1024000 ∧ b ≤ r.1 ∧ r.2 ≤ a ∧ (∃ i : Nat, r.2 = b + i * (1 / 1024000)) ∧
      (r.1 = b ∨ Steep e r.1) ∧ (¬ Steep e a → ¬ Steep e r.2)
  | 0, k + 1, b, a, h, _, _ => by
    refine ⟨(b, a), ?_, ?_⟩
    · rw [velBisect, if_neg (by rw [h]; norm_num)]
    · norm_num at h
      exact ⟨by dsimp only; linarith, le_refl _, le_refl _, ⟨1, by push_cast; linarith⟩, Or.inl rfl, id⟩
  | j + 1, k + 1, b, a, h, hj, hk => by
    have hp : (2 : ℝ) ≤ 2 ^ (j + 1) := by
      calc (2 : ℝ) = 2 ^ 1 := by norm_num
        _ ≤ 2 ^ (j + 1) := pow_le_pow_right₀ (by norm_num) (by omega)
    rw [velBisect, if_pos (by rw [h]; linarith)]
    rw [pow_succ] at h
    have hpj : (0 : ℝ) < 2 ^ j := by positivity
    dsimp only
    split_ifs with hs
    · obtain ⟨r, h1, h2, h3, h4, ⟨i, hi⟩, h5, h6⟩ := velBisect_spec e j k ((b + a) / 2) a (by linarith) (by omega) (by omega)
      refine ⟨r, h1, h2, by linarith, h4, ⟨i + 2 ^ j, by push_cast; linarith⟩, ?_, h6⟩
      rcases h5 with h5 | h5
      · exact Or.inr (by rw [h5]; exact hs)
      · exact Or.inr h5
    · obtain ⟨r, h1, h2, h3, h4, hi, h5, h6⟩ := velBisect_spec e j k b ((b + a) / 2) (by linarith) (by omega) (by omega)
      exact ⟨r, h1, h2, h3, by linarith, hi, h5, fun _ => h6 hs⟩

/-- The next velocity switching point. -/
theorem nextVel_spec [NeZero n] (e : Setup n) {N : Nat} (hN : 11 ≤ N) (pos : ℝ) :
    (∀ s, nextVelSwitch e N pos = some (some s) → NextVel e pos s) ∧ (nextVelSwitch e N pos = some none → NoVel e pos) := by
  unfold nextVelSwitch
  cases hq : velScan e N (pos - 1 / 1000) false with
  | none => exact ⟨by simp, by simp⟩
  | some q =>
    obtain ⟨m, h1, h2, h3⟩ := velScan_spec e N pos false q hq
    simp only [Bool.false_eq_true, false_or] at h2 h3
    have hno : ∀ i < m, ¬ CrossesAt e pos i := by
      rintro i hi ⟨h4, h5⟩
      rcases (h2 i hi).2 with h6 | h6
      · exact h6 h4
      · exact h5 h6
    dsimp only
    split_ifs with hl
    · refine ⟨by simp, fun _ i hi => ?_⟩
      refine hno i ?_
      by_contra hge
      have : (m : ℝ) ≤ i := by exact_mod_cast not_lt.mp hge
      rw [h1] at hl
      linarith
    · obtain ⟨r, r1, r2, r3, r4, ⟨c, hc⟩, r5, r6⟩ := velBisect_spec e 10 N (q - 1 / 1000) q (by norm_num) (le_refl _) (by omega)
      rw [r1]
      refine ⟨?_, by simp⟩
      intro s hs
      simp only [Option.some.injEq] at hs
      subst hs
      obtain ⟨h4, h5⟩ := h3.resolve_left hl
      refine ⟨m, r.1, ⟨h4, by rw [← h1]; exact h5⟩, by rw [← h1]; exact not_le.mp hl, hno, by rw [← h1]; exact r3, by rw [← h1]; exact r4, r2,
        ⟨c, by rw [← h1]; dsimp only; linarith⟩, r6 h5, ?_, rfl, rfl, rfl⟩
      rcases r5 with r5 | r5
      · rcases m with _ | m
        · obtain ⟨j, hj, hs⟩ := h4
          obtain rfl : j = 0 := by omega
          exact Or.inr ⟨hs, by rw [← h1]; exact h5⟩
        · have hm : q - 1 / 1000 = pos + (m : ℝ) / 1000 := by rw [h1]; push_cast; ring
          rcases (h2 m (by omega)).2 with h6 | h6
          · obtain ⟨j, hj, hs⟩ := h4
            have : j = m + 1 := by
              by_contra hne
              exact h6 ⟨j, by omega, hs⟩
            subst this
            exact Or.inr ⟨hs, by rw [← h1]; exact h5⟩
          · exact Or.inl (by rw [r5, hm]; exact h6)
      · exact Or.inl r5

/-- If the limit does not touch the slope where the search begins, the velocity switching point is ahead, on the grid. -/
theorem NextVel.ahead [NeZero n] {e : Setup n} {pos : ℝ} {s : Switch} (h : NextVel e pos s) (ht : ¬ Touch e pos) :
    ∃ i : Nat, s.pos = pos + (i + 1) / 1024000 := by
  obtain ⟨m, b, ⟨⟨j, hj, hs⟩, h5⟩, -, -, h3, -, h2, ⟨c, hc⟩, -⟩ := h
  rcases m with _ | m
  · exfalso
    obtain rfl : j = 0 := by omega
    simp only [Nat.cast_zero, zero_div, add_zero] at hs h5
    exact ht ⟨hs, h5⟩
  · have hpos : 0 < c := by
      rcases Nat.eq_zero_or_pos c with rfl | h
      · exfalso
        simp only [Nat.cast_zero, zero_div, add_zero] at hc
        linarith
      · exact h
    obtain ⟨d, rfl⟩ : ∃ d, c = d + 1 := ⟨c - 1, by omega⟩
    exact ⟨d + 1024 * m, by rw [hc]; push_cast; ring⟩

theorem nextVel_ends [NeZero n] (e : Setup n) {N : Nat} (hN : 11 ≤ N) (pos : ℝ) (hl : e.path.length - pos ≤ (N - 1) / 1000) :
    nextVelSwitch e N pos ≠ none := by
  obtain ⟨M, rfl⟩ : ∃ M, N = M + 1 := ⟨N - 1, by omega⟩
  have h1 := velScan_ends e M pos false (by push_cast at hl; simpa using hl)
  unfold nextVelSwitch
  cases hq : velScan e (M + 1) (pos - 1 / 1000) false with
  | none => exact absurd hq h1
  | some q =>
    dsimp only
    split_ifs
    · simp
    · obtain ⟨r, r1, -⟩ := velBisect_spec e 10 (M + 1) (q - 1 / 1000) q (by norm_num) (le_refl _) (by omega)
      rw [r1]
      simp

/-- The loop over the velocity switching points. -/
theorem velLoop_spec [NeZero n] (e : Setup n) {N : Nat} (hN : 11 ≤ N) (ap : ℝ) : ∀ (k : Nat) (s : Switch) (b : Bool) (t : Switch),
    velSwitchLoop e N ap k s = some (b, t) →
    (b = true → ∃ x, Skipped e s.pos x ∧ NoVel e x) ∧
    (b = false → ∃ x, Skipped e s.pos x ∧ NextVel e x t ∧ (t.pos ≤ ap → ¬ OverAcc e t))
  | 0, _, _, _, h => by simp [velSwitchLoop] at h
  | k + 1, s, b, t, h => by
    obtain ⟨n1, n2⟩ := nextVel_spec e hN s.pos
    rw [velSwitchLoop] at h
    cases hv : nextVelSwitch e N s.pos with
    | none => rw [hv] at h; simp at h
    | some o =>
      rw [hv] at h
      cases o with
      | none =>
        simp only [Option.some.injEq, Prod.mk.injEq] at h
        obtain ⟨rfl, rfl⟩ := h
        exact ⟨fun _ => ⟨_, .refl _, n2 hv⟩, by simp⟩
      | some s' =>
        have hn := n1 s' hv
        dsimp only at h
        split_ifs at h with hc
        · obtain ⟨i1, i2⟩ := velLoop_spec e hN ap k s' b t h
          refine ⟨fun hb => ?_, fun hb => ?_⟩
          · obtain ⟨x, h1, h2⟩ := i1 hb
            exact ⟨x, .step hn hc.2 h1, h2⟩
          · obtain ⟨x, h1, h2⟩ := i2 hb
            exact ⟨x, .step hn hc.2 h1, h2⟩
        · simp only [Option.some.injEq, Prod.mk.injEq] at h
          obtain ⟨rfl, rfl⟩ := h
          exact ⟨by simp, fun _ => ⟨_, .refl _, hn, fun h1 h2 => hc ⟨h1, h2⟩⟩⟩

/-- On the grid of places that the search can come to, the velocity limit never falls exactly as fast as the trajectory could. -/
def NoTouch [NeZero n] (e : Setup n) (pos : ℝ) : Prop := ∀ i : Nat, pos + i / 1024000 < e.path.length → ¬ Touch e (pos + i / 1024000)

theorem NextVel.before_end [NeZero n] {e : Setup n} {pos : ℝ} {s : Switch} (h : NextVel e pos s) : s.pos < e.path.length := by
  obtain ⟨i, b, -, h1, -, -, h2, -⟩ := h
  linarith

theorem velLoop_ends [NeZero n] (e : Setup n) {N : Nat} (hN : 11 ≤ N) (ap : ℝ) {pos : ℝ} (ht : NoTouch e pos) (hl : e.path.length - pos ≤ (N - 1) / 1000)
    (k : Nat) : ∀ (s : Switch) (i : Nat), s.pos = pos + i / 1024000 → e.path.length - s.pos ≤ k / 1024000 →
    velSwitchLoop e N ap (k + 1) s ≠ none := by
  induction k with
  | zero =>
    intro s i hs hk
    rw [velSwitchLoop]
    have hi : (0 : ℝ) ≤ i / 1024000 := by positivity
    have h1 := nextVel_ends e hN s.pos (by linarith)
    cases hv : nextVelSwitch e N s.pos with
    | none => exact absurd hv h1
    | some o =>
      cases o with
      | none => simp
      | some s' =>
        exfalso
        obtain ⟨j, b, -, h4, -⟩ := (nextVel_spec e hN s.pos).1 s' hv
        have : (0 : ℝ) ≤ j / 1000 := by positivity
        simp only [Nat.cast_zero, zero_div] at hk
        linarith
  | succ k ih =>
    intro s i hs hk
    rw [velSwitchLoop]
    have hi : (0 : ℝ) ≤ i / 1024000 := by positivity
    have h1 := nextVel_ends e hN s.pos (by linarith)
    cases hv : nextVelSwitch e N s.pos with
    | none => exact absurd hv h1
    | some o =>
      cases o with
      | none => simp
      | some s' =>
        dsimp only
        split_ifs
        · have h2 := (nextVel_spec e hN s.pos).1 s' hv
          have htouch : ¬ Touch e s.pos := by
            rw [hs]
            refine ht i ?_
            rw [← hs]
            obtain ⟨j, b, -, h4, -⟩ := h2
            have : (0 : ℝ) ≤ j / 1000 := by positivity
            linarith
          obtain ⟨j, hj⟩ := h2.ahead htouch
          have hjn : (0 : ℝ) ≤ j := by positivity
          refine ih s' (i + j + 1) (by rw [hj, hs]; push_cast; ring) ?_
          push_cast at hk
          linarith
        · simp

/-! ### C110 -/

/-- The next switching point: it is the first acceleration switching point ahead that is not over the velocity limit, unless there is a velocity
switching point strictly before it that is not over the acceleration limit; velocity switching points are only passed over if they are over that
limit. If the search finds nothing, there is no acceleration switching point that is not over the velocity limit, and no velocity switching point
after the ones passed over. -/
theorem C110_next_switching_point [NeZero n] (e : Setup n) {N : Nat} (hN : 11 ≤ N) (pos : ℝ) :
    (∀ s, nextSwitch e N pos = some (some s) →
      (∃ p, Reported e pos p ∧ AccPoint e p ∧ s = accKinkAt e p ∧ pos < s.pos ∧ (∀ q, Reported e pos q → AccPoint e q → s.pos ≤ q.1) ∧
        ∃ x, Skipped e pos x ∧ (NoVel e x ∨ ∃ t, NextVel e x t ∧ s.pos ≤ t.pos)) ∨
      (∃ x, Skipped e pos x ∧ NextVel e x s ∧ ∀ q, Reported e pos q → AccPoint e q → s.pos < q.1 ∧ ¬ OverAcc e s)) ∧
    (nextSwitch e N pos = some none → (∀ q, Reported e pos q → ¬ AccPoint e q) ∧ ∃ x, Skipped e pos x ∧ NoVel e x) := by
  unfold nextSwitch
  obtain ⟨a1, a2⟩ := accLoop_spec e N N ⟨pos, .fin 0, .fin 0, .fin 0⟩
  cases ha : accSwitchLoop e N N ⟨pos, .fin 0, .fin 0, .fin 0⟩ with
  | none => exact ⟨by simp, by simp⟩
  | some a =>
    obtain ⟨aEnd, a⟩ := a
    dsimp only
    cases hv : velSwitchLoop e N a.pos N ⟨pos, .fin 0, .fin 0, .fin 0⟩ with
    | none => exact ⟨by simp, by simp⟩
    | some v =>
      obtain ⟨vEnd, v⟩ := v
      obtain ⟨v1, v2⟩ := velLoop_spec e hN a.pos N _ vEnd v hv
      dsimp only at v1 v2 a1 a2 ⊢
      split_ifs with h1 h2
      · refine ⟨by simp, fun _ => ?_⟩
        rw [h1.1] at ha
        exact ⟨a2 a ha, v1 h1.2⟩
      · refine ⟨fun s hs => Or.inl ?_, by simp⟩
        simp only [Option.some.injEq] at hs
        subst hs
        rw [h2.1] at ha
        obtain ⟨p, p1, p2, p3, p4, p5⟩ := a1 a ha
        have hp : a.pos = p.1 := by rw [p3]; exact accKinkAt_pos e p
        refine ⟨p, p1, p2, p3, by rw [hp]; exact p4, by rw [hp]; exact p5, ?_⟩
        rcases h2.2 with h3 | h3
        · obtain ⟨x, x1, x2⟩ := v1 h3
          exact ⟨x, x1, Or.inl x2⟩
        · cases vEnd with
          | true =>
            obtain ⟨x, x1, x2⟩ := v1 rfl
            exact ⟨x, x1, Or.inl x2⟩
          | false =>
            obtain ⟨x, x1, x2, -⟩ := v2 rfl
            exact ⟨x, x1, Or.inr ⟨v, x2, h3⟩⟩
      · refine ⟨fun s hs => Or.inr ?_, by simp⟩
        simp only [Option.some.injEq] at hs
        subst hs
        cases aEnd with
        | true =>
          cases vEnd with
          | true => exact absurd ⟨rfl, rfl⟩ h1
          | false =>
            obtain ⟨x, x1, x2, -⟩ := v2 rfl
            exact ⟨x, x1, x2, fun q hq hqa => absurd hqa (a2 a ha q hq)⟩
        | false =>
          cases vEnd with
          | true => exact absurd ⟨rfl, Or.inl rfl⟩ h2
          | false =>
            obtain ⟨x, x1, x2, x3⟩ := v2 rfl
            have hlt : v.pos < a.pos := by
              by_contra hc
              exact h2 ⟨rfl, Or.inr (not_lt.mp hc)⟩
            obtain ⟨p, p1, p2, p3, p4, p5⟩ := a1 a ha
            have hp : a.pos = p.1 := by rw [p3]; exact accKinkAt_pos e p
            exact ⟨x, x1, x2, fun q hq hqa => ⟨by have := p5 q hq hqa; linarith, x3 hlt.le⟩⟩

/-- The search ends, whatever the position, if the velocity limit does not fall exactly as fast as the trajectory could at a place that the search
comes to. -/
theorem C110_search_ends [NeZero n] (e : Setup n) {pos : ℝ} (ht : NoTouch e pos) : ∃ M, ∀ N, M ≤ N → nextSwitch e N pos ≠ none := by
  obtain ⟨A, hA⟩ := exists_nat_ge ((e.path.length - pos) * 1024000)
  refine ⟨max (max 12 (A + 1)) (e.path.switching.length + 2), fun N hN => ?_⟩
  have h12 : 12 ≤ N := by omega
  have hAN : A + 1 ≤ N := by omega
  have hS : e.path.switching.length + 2 ≤ N := by omega
  have ha := accLoop_ends e (N := N) (by omega) N ⟨pos, .fin 0, .fin 0, .fin 0⟩ (by have := ahead_le e.path pos; dsimp only; omega)
  unfold nextSwitch
  cases hx : accSwitchLoop e N N ⟨pos, .fin 0, .fin 0, .fin 0⟩ with
  | none => exact absurd hx ha
  | some a =>
    obtain ⟨M, rfl⟩ : ∃ M, N = M + 1 := ⟨N - 1, by omega⟩
    have hM : (A : ℝ) ≤ M := by exact_mod_cast (by omega : A ≤ M)
    have hM0 : (0 : ℝ) ≤ M := by positivity
    have hv := velLoop_ends e (N := M + 1) (by omega) a.2.pos ht (by
      push_cast
      rcases le_total (e.path.length - pos) 0 with h | h
      · have : (0 : ℝ) ≤ (M + 1 - 1) / 1000 := by rw [add_sub_cancel_right]; positivity
        linarith
      · rw [add_sub_cancel_right]
        linarith) M ⟨pos, .fin 0, .fin 0, .fin 0⟩ 0 (by simp) (by dsimp only; linarith)
    dsimp only
    cases hy : velSwitchLoop e (M + 1) a.2.pos (M + 1) ⟨pos, .fin 0, .fin 0, .fin 0⟩ with
    | none => exact absurd hy hv
    | some v =>
      dsimp only
      split_ifs <;> simp

theorem NoTouch.shift [NeZero n] {e : Setup n} {pos : ℝ} (h : NoTouch e pos) (j : Nat) : NoTouch e (pos + j / 1024000) := by
  intro i hi
  have := h (j + i)
  rw [show pos + (j : ℝ) / 1024000 + (i : ℝ) / 1024000 = pos + ((j + i : Nat) : ℝ) / 1024000 by push_cast; ring] at hi ⊢
  exact this hi

theorem NextVel.start_before_end [NeZero n] {e : Setup n} {pos : ℝ} {s : Switch} (h : NextVel e pos s) : pos < e.path.length := by
  obtain ⟨j, b, -, h4, -⟩ := h
  have : (0 : ℝ) ≤ j / 1000 := by positivity
  linarith

theorem NoTouch.here [NeZero n] {e : Setup n} {pos : ℝ} (h : NoTouch e pos) (hl : pos < e.path.length) : ¬ Touch e pos := by
  have := h 0
  simp only [Nat.cast_zero, zero_div, add_zero] at this
  exact this hl

theorem Skipped.ahead [NeZero n] {e : Setup n} {a b : ℝ} (h : Skipped e a b) (ht : NoTouch e a) : a ≤ b ∧ NoTouch e b := by
  induction h with
  | refl a => exact ⟨le_refl _, ht⟩
  | @step a b s h1 h2 h3 ih =>
    obtain ⟨i, hi⟩ := h1.ahead (ht.here h1.start_before_end)
    have h4 : NoTouch e s.pos := by
      rw [hi, show a + ((i : ℝ) + 1) / 1024000 = a + ((i + 1 : Nat) : ℝ) / 1024000 by push_cast; ring]
      exact ht.shift (i + 1)
    obtain ⟨h5, h6⟩ := ih h4
    have : (0 : ℝ) ≤ (i + 1) / 1024000 := by positivity
    exact ⟨by linarith, h6⟩

/-- The next switching point is strictly ahead, and before the end of the path (under the same condition). -/
theorem C110_next_is_ahead [NeZero n] (e : Setup n) {N : Nat} (hN : 11 ≤ N) {pos : ℝ} (ht : NoTouch e pos) {s : Switch}
    (h : nextSwitch e N pos = some (some s)) : pos < s.pos ∧ s.pos < e.path.length := by
  rcases (C110_next_switching_point e hN pos).1 s h with ⟨p, h1, h2, h3, h4, -⟩ | ⟨x, h1, h2, -⟩
  · refine ⟨h4, ?_⟩
    rw [h3, accKinkAt_pos]
    have := eps_pos'
    linarith [h1.2]
  · obtain ⟨h3, h4⟩ := h1.ahead ht
    obtain ⟨i, hi⟩ := h2.ahead (h4.here h2.start_before_end)
    have : (0 : ℝ) < (i + 1) / 1024000 := by positivity
    exact ⟨by linarith, h2.before_end⟩

/-- Without that condition it is not: if at the place where the search begins the velocity limit falls exactly as fast as the trajectory could,
the velocity switching point found is at that place or up to 0.001 before it. -/
theorem C110_ahead_false [NeZero n] (e : Setup n) {N : Nat} (hN : 11 ≤ N) {pos : ℝ} (hl : pos < e.path.length) (ht : Touch e pos) :
    ∃ s, nextVelSwitch e N pos = some (some s) ∧ s.pos ≤ pos := by
  obtain ⟨h1, h2⟩ := nextVel_spec e hN pos
  have hc : CrossesAt e pos 0 := ⟨⟨0, le_refl _, by simpa [Slow] using ht.1⟩, by simpa using ht.2⟩
  have hscan : velScan e N (pos - 1 / 1000) false = some pos := by
    classical
    obtain ⟨M, rfl⟩ : ∃ M, N = M + 1 := ⟨N - 1, by omega⟩
    rw [velScan_step, sub_add_cancel, if_neg]
    rintro ⟨h3 | h3, -⟩
    · exact h3 (Or.inr ht.1)
    · exact ht.2 h3
  obtain ⟨r, r1, -⟩ := velBisect_spec e 10 N (pos - 1 / 1000) pos (by norm_num) (le_refl _) (by omega)
  have hr : nextVelSwitch e N pos = some (some ⟨r.2, e.velVel r.2, e.acc r.1 (e.velVel r.1) false, e.acc r.2 (e.velVel r.2) true⟩) := by
    unfold nextVelSwitch
    rw [hscan]
    dsimp only
    rw [if_neg (not_le.mpr hl), r1]
  refine ⟨_, hr, ?_⟩
  obtain ⟨i, b, -, -, h3, -, h4, -⟩ := h1 _ hr
  rcases i with _ | i
  · simpa using h4
  · exact absurd hc (h3 0 (by omega))

/-! ### A bend -/

open Real

theorem bend_third : bend.path.tangent (1 + π / 3) = some !₂[1 / 2, √3 / 2] ∧ bend.path.curvature (1 + π / 3) = !₂[-(√3 / 2), 1 / 2] := by
  have hp := Real.pi_pos
  have := bend_curve (f := π / 3) (by linarith) (by linarith)
  rwa [cos_pi_div_three, sin_pi_div_three] at this

theorem bend_after {s : ℝ} (hs : 1 + π / 2 ≤ s) : bend.path.tangent s = some !₂[0, 1] ∧ bend.path.curvature s = 0 := by
  have hp := Real.pi_pos
  unfold bend
  rw [assemble_tangent, assemble_curvature, bend_segments]
  rw [(along_cons Seg.tangent none _ (by simp) s).1 (by rw [bend_len0]; linarith), (along_cons Seg.curvature 0 _ (by simp) s).1 (by rw [bend_len0]; linarith)]
  rw [(along_cons Seg.tangent none _ (by simp) _).1 (by rw [bend_len0, bend_len1]; linarith), (along_cons Seg.curvature 0 _ (by simp) _).1 (by rw [bend_len0, bend_len1]; linarith)]
  have h := bend_len2
  simp only [Seg.length] at h
  simp only [along, Seg.tangent, Seg.curvature]
  rw [if_neg (by rw [h]; norm_num), h]
  refine ⟨?_, trivial⟩
  congr 1
  ext j; fin_cases j <;> simp <;> norm_num

open Classical in
theorem vel_second {t c : Fin 2 → ℝ} (h1 : 1 / 2 ≤ t 1) (h0 : 0 ≤ t 0) (h2 : t 0 < t 1) :
    velMaxVel (fun _ => 10) t = .fin (10 / t 1) ∧ velMaxVelDeriv (fun _ => 10) t c = .fin (-(10 * c 1) / (t 1 * t 1)) := by
  have hd := dblMax_ten
  have hp : 0 < t 1 := by linarith
  have e1 : div (.fin 10) (.fin |t 1|) = .fin (10 / t 1) := by rw [abs_of_pos hp, div_fin hp.ne']
  have hle : 10 / t 1 ≤ 20 := by rw [div_le_iff₀ hp]; linarith
  have hbig : (20 : ℝ) < dblMax := lt_of_lt_of_le (by norm_num) dblMax_big
  have e0 : lt (.fin (10 / t 1)) (div (.fin 10) (.fin |t 0|)) := by
    rw [abs_of_nonneg h0]
    rcases h0.eq_or_lt with hz | hz
    · rw [← hz]; simp [div, lt]
    · rw [div_fin hz.ne', lt_fin]
      exact div_lt_div_of_pos_left (by norm_num) hz h2
  have e2 : lt (.fin (10 / t 1)) (.fin dblMax) := by rw [lt_fin]; linarith
  constructor
  · unfold velMaxVel
    rw [two_joints, velLoop, velLoop, velLoop, e1]
    unfold stdMin
    by_cases a : lt (div (.fin 10) (.fin |t 0|)) (.fin dblMax)
    · rw [if_pos a, if_pos e0]
    · rw [if_neg a, if_pos e2]
  · unfold velMaxVelDeriv
    dsimp only
    rw [two_joints, activeLoop, activeLoop, activeLoop, e1]
    have hk : (if lt (.fin (10 / t 1)) (if lt (div (.fin 10) (.fin |t 0|)) (.fin dblMax) then (div (.fin 10) (.fin |t 0|), (0 : Fin 2)) else (.fin dblMax, 0)).1 then
        (Ext.fin (10 / t 1), 1) else (if lt (div (.fin 10) (.fin |t 0|)) (.fin dblMax) then (div (.fin 10) (.fin |t 0|), (0 : Fin 2)) else (.fin dblMax, 0))).2 = 1 := by
      rw [if_pos]
      split_ifs
      · exact e0
      · exact e2
    rw [hk, abs_of_pos hp, div_fin (by positivity)]

theorem bend_steep : Steep bend (1 + π / 3) := by
  obtain ⟨t1, t2⟩ := bend_third
  have h3 : (1 : ℝ) < √3 := by rw [Real.lt_sqrt (by norm_num)]; norm_num
  have hs3 : √3 * √3 = 3 := Real.mul_self_sqrt (by norm_num)
  obtain ⟨e1, e2⟩ := vel_second (t := (!₂[1 / 2, √3 / 2] : V 2)) (c := (!₂[-(√3 / 2), 1 / 2] : V 2)) (by simp; linarith) (by simp) (by simp; linarith)
  simp only [PiLp.toLp_apply, Matrix.cons_val_zero, Matrix.cons_val_one] at e1 e2
  unfold Steep Setup.velVelDeriv Setup.velVel Setup.slope Setup.acc
  rw [t1, t2]
  dsimp only
  rw [show bend.vmax = fun _ => 10 from rfl, e1, e2, acc_two (by simp) (by simp)]
  have hv : 0 < 10 / (√3 / 2) := by positivity
  rw [div_fin hv.ne', lt_fin]
  have hneg : -(10 * (1 / 2)) / (√3 / 2 * (√3 / 2)) < 0 := by
    apply div_neg_of_neg_of_pos (by norm_num) (by positivity)
  refine hneg.trans (div_pos ?_ hv)
  simp only [PiLp.toLp_apply, Matrix.cons_val_zero, Matrix.cons_val_one, bend, factor, Bool.false_eq_true, if_false]
  have hj : 1 / |(1 / 2 : ℝ)| - -1 * -(√3 / 2) * (10 / (√3 / 2)) * (10 / (√3 / 2)) / (1 / 2) < 0 := by
    rw [abs_of_pos (by norm_num)]
    have : -1 * -(√3 / 2) * (10 / (√3 / 2)) * (10 / (√3 / 2)) / (1 / 2) = 20 * (20 / √3) := by
      field_simp
      ring
    rw [this]
    have : 10 ≤ 20 / √3 := by
      rw [le_div_iff₀ (by linarith)]
      nlinarith
    norm_num
    linarith
  have hm := min_le_right dblMax (1 / |(1 / 2 : ℝ)| - -1 * -(√3 / 2) * (10 / (√3 / 2)) * (10 / (√3 / 2)) / (1 / 2))
  refine mul_pos_of_neg_of_neg (by norm_num) (lt_of_le_of_lt (min_le_left _ _) (lt_of_le_of_lt hm hj))

theorem bend_not_steep {s : ℝ} (hs : 1 + π / 2 ≤ s) : ¬ Slow bend s := by
  obtain ⟨t1, t2⟩ := bend_after hs
  obtain ⟨e1, e2⟩ := vel_second (t := (!₂[0, 1] : V 2)) (c := (0 : V 2)) (by simp; norm_num) (by simp) (by simp)
  simp only [PiLp.toLp_apply, Matrix.cons_val_zero, Matrix.cons_val_one] at e1 e2
  unfold Slow Setup.velVelDeriv Setup.velVel Setup.slope Setup.acc
  rw [t1, t2]
  dsimp only
  rw [show bend.vmax = fun _ => 10 from rfl, e1, e2]
  unfold minMaxAcc
  rw [two_joints, accLoop, if_neg (by simp), accLoop, if_pos (by simp), accLoop, jointAcc_fin (by simp), stdMin_fin, mul_fin, div_fin (by norm_num), le_fin]
  have := dblMax_one
  simp [bend, factor]
  rw [min_eq_right this]
  norm_num

/-- On the bend the search from a third of the way round finds a velocity switching point. -/
example : ∃ s, nextVelSwitch bend 3000 (1 + π / 3) = some (some s) ∧ NextVel bend (1 + π / 3) s := by
  have hp := Real.pi_gt_three
  have hp4 := Real.pi_lt_d2
  obtain ⟨h1, h2⟩ := nextVel_spec bend (N := 3000) (by norm_num) (1 + π / 3)
  have h3 := nextVel_ends bend (N := 3000) (by norm_num) (1 + π / 3) (by rw [bend_length]; norm_num; linarith)
  cases h : nextVelSwitch bend 3000 (1 + π / 3) with
  | none => exact absurd h h3
  | some o =>
    cases o with
    | none =>
      refine absurd ⟨⟨0, by omega, ?_⟩, ?_⟩ (h2 h 600 (by rw [bend_length]; norm_num; linarith))
      · simpa using steep_slow bend_steep
      · intro hst
        refine bend_not_steep ?_ (steep_slow hst)
        norm_num
        linarith
    | some s => exact ⟨s, rfl, h1 s h⟩

/-- From before the bend, the search finds the acceleration switching point at its beginning. -/
example : ∃ s, nextSwitch bend 5000 0 = some (some s) ∧ s.pos = 1 ∧ ∃ p, Reported bend 0 p ∧ AccPoint bend p ∧ s = accKinkAt bend p := by
  have hn := bend_nextSwitch (le_refl 5000) (le_refl (0 : ℝ)) one_pos
  refine ⟨_, hn, rfl, ?_⟩
  rcases (C110_next_switching_point bend (N := 5000) (by norm_num) 0).1 _ hn with ⟨p, h1, h2, h3, -⟩ | ⟨x, h1, h2, h3⟩
  · exact ⟨p, h1, h2, h3⟩
  · exfalso
    obtain ⟨p, h4, h5, -⟩ := (nextAcc_spec bend 1 0).1 _ (bend_nextAcc one_pos 0)
    have h6 : Reported bend 0 (1, true) := by
      refine ⟨⟨0, le_refl _, ?_⟩, ?_⟩
      · unfold Path.nextSwitchingPoint
        rw [bend_switching, List.dropWhile_cons_of_neg (by simp)]
      · rw [bend_length]
        have := bend_eps
        have := Real.pi_gt_three
        dsimp only
        linarith
    obtain ⟨q, q1, q2, q3, q4, q5⟩ := (accLoop_spec bend 1 1 ⟨0, .fin 0, .fin 0, .fin 0⟩).1 ⟨1, .fin bendVel, .fin (-1), .fin (sin eps - cos eps)⟩ (by
      rw [accSwitchLoop, bend_nextAcc one_pos 0]
      dsimp only
      rw [if_neg]
      rw [bend_at_one.1, lt_fin]
      have := bendVel_bounds.2.1
      linarith)
    have h7 := (h3 q q1 q2).1
    have h8 : (1 : ℝ) = q.1 := by
      have := congrArg Switch.pos q3
      rwa [accKinkAt_pos] at this
    rw [← h8] at h7
    exact lt_irrefl _ h7

/-- On the last line the limit never touches the slope, so the search ends. -/
example : NoTouch bend (1 + π / 2) ∧ ∃ M, ∀ N, M ≤ N → nextSwitch bend N (1 + π / 2) ≠ none := by
  have h : NoTouch bend (1 + π / 2) := by
    intro i _ ht
    have : (0 : ℝ) ≤ i / 1024000 := by positivity
    exact bend_not_steep (by linarith) ht.1
  exact ⟨h, C110_search_ends bend h⟩

/-- Without any acceleration the limit touches the slope. -/
example : Touch { bend with amax := fun _ => 0 } (1 / 2) := by
  have hs : (1 / 2 : ℝ) < 1 := by norm_num
  obtain ⟨h1, h2⟩ := bend_line hs
  obtain ⟨e1, e2⟩ := vel_line hs
  unfold Setup.velVel at e1
  unfold Setup.velVelDeriv at e2
  unfold Touch Steep Setup.velVelDeriv Setup.velVel Setup.slope Setup.acc
  dsimp only
  rw [h1] at e1 e2 ⊢
  dsimp only at e1 e2 ⊢
  rw [e1, e2, acc_one (by simp) (by simp), h2, div_fin (by norm_num), le_fin, lt_fin]
  have : (0 : ℝ) ≤ dblMax := le_trans zero_le_one dblMax_one
  simp [this]

end CRU.Totp
