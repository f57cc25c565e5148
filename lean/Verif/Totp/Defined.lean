import Verif.Totp.Ends
import Verif.Totp.PathSwitch
/-
  C81: the construction of a trajectory never does anything undefined, with blends or without.
-/
namespace CRU.Totp
open Ext

variable {n : Nat}

/-! ### Proofs: the last segment is a line -/

theorem build_last (dev : ℝ) : ∀ (ws : List (V n)) (c1 start : V n), ws ≠ [] → ∃ pre a b, buildSegments dev c1 start ws = pre ++ [.lin a b]
  | [], _, _, h => absurd rfl h
  | [c2], _, start, _ => ⟨[], start, c2, rfl⟩
  | c2 :: c3 :: rest, c1, start, _ => by
    rw [buildSegments]
    split_ifs
    · obtain ⟨pre, a, b, h⟩ := build_last dev (c3 :: rest) c2 ((cornerBlend c1 c2 c3 dev).config (cornerBlend c1 c2 c3 dev).length) (by simp)
      exact ⟨lineTo start ((cornerBlend c1 c2 c3 dev).config 0) ++ .arc (cornerBlend c1 c2 c3 dev) :: pre, a, b, by rw [h]; simp⟩
    · obtain ⟨pre, a, b, h⟩ := build_last dev (c3 :: rest) c2 c2 (by simp)
      exact ⟨.lin start c2 :: pre, a, b, by rw [h]; simp⟩

theorem along_last {β : Type} (f : Seg n → ℝ → β) (dflt : β) (g : Seg n) : ∀ (pre : List (Seg n)) (s : ℝ), (∀ x ∈ pre, 0 ≤ x.length) →
    (pre = [] ∨ totalLength pre ≤ s) → along f dflt (pre ++ [g]) s = f g (s - totalLength pre)
  | [], s, _, _ => by simp [along, totalLength]
  | x :: pre, s, h, hs => by
    have hs' : totalLength (x :: pre) ≤ s := by simpa using hs
    rw [totalLength_cons] at hs'
    have h0 : 0 ≤ totalLength pre := by
      unfold totalLength
      refine List.sum_nonneg fun y hy => ?_
      obtain ⟨z, hz, rfl⟩ := List.mem_map.mp hy
      exact h z (List.mem_cons_of_mem _ hz)
    rw [List.cons_append, (along_cons f dflt x (by simp) s).1 (by linarith),
      along_last f dflt g pre _ (fun z hz => h z (List.mem_cons_of_mem _ hz)) (.inr (by linarith)), totalLength_cons]
    congr 1
    ring

theorem mem_allSwitching_last (g : Seg n) : ∀ (pre : List (Seg n)) (b : ℝ), pre ≠ [] → (b + totalLength pre, true) ∈ allSwitching b (pre ++ [g])
  | [], _, h => absurd rfl h
  | [x], b, _ => by simp [allSwitching, totalLength]
  | x :: y :: pre, b, _ => by
    have := mem_allSwitching_last g (y :: pre) (b + x.length) (by simp)
    rw [List.cons_append, allSwitching, totalLength_cons, ← add_assoc]
    exact List.mem_append_right _ (List.mem_cons_of_mem _ this)

theorem Chain.last_pos {st e : V n} {gs : List (Seg n)} {k : Nat} (h : Chain st gs e k) : ∀ pre g, gs = pre ++ [g] → 0 < g.length := by
  have key : ∀ (g : Seg n) (gs : List (Seg n)), gs ≠ [] → (∀ pre x, gs = pre ++ [x] → 0 < x.length) → ∀ pre x, g :: gs = pre ++ [x] → 0 < x.length := by
    intro g gs hne ih pre x hx
    cases pre with
    | nil => simp at hx; exact absurd hx.2 hne
    | cons y ys =>
      rw [List.cons_append, List.cons.injEq] at hx
      exact ih ys x hx.2
  induction h with
  | last _ hl =>
    intro pre x hx
    cases pre with
    | nil => simp at hx; rw [← hx]; exact hl
    | cons y ys => simp at hx
  | step _ h ih => exact key _ _ h.ne ih
  | jump _ _ h ih => exact key _ _ h.ne ih

/-! ### Proofs: limits are not negative -/

theorem stdMin_nonneg {a b : Ext} (ha : ∀ x, a = .fin x → 0 ≤ x) (hb : ∀ x, b = .fin x → 0 ≤ x) : ∀ x, stdMin a b = .fin x → 0 ≤ x := by
  intro x hx
  unfold stdMin at hx
  split_ifs at hx
  · exact hb x hx
  · exact ha x hx

theorem sqrt_nonneg (a : Ext) : ∀ x, sqrt a = .fin x → 0 ≤ x := by
  intro x hx
  cases a with
  | fin y =>
    simp only [sqrt] at hx
    split_ifs at hx
    cases hx
    exact Real.sqrt_nonneg y
  | nan => simp [sqrt] at hx
  | ninf => simp [sqrt] at hx
  | pinf => simp [sqrt] at hx

theorem pairLoop_nonneg (amax t c : Fin n → ℝ) (i : Fin n) : ∀ (js : List (Fin n)) (m : Ext), (∀ x, m = .fin x → 0 ≤ x) →
    ∀ x, pairLoop amax t c i js m = .fin x → 0 ≤ x
  | [], m, hm => hm
  | j :: js, m, hm => by
    unfold pairLoop
    refine pairLoop_nonneg amax t c i js _ ?_
    split_ifs
    · unfold pairVel
      split_ifs
      · exact stdMin_nonneg hm (sqrt_nonneg _)
      · exact hm
    · exact hm

theorem accVelLoop_nonneg (amax t c : Fin n → ℝ) : ∀ (is : List (Fin n)) (m : Ext), (∀ x, m = .fin x → 0 ≤ x) →
    ∀ x, accVelLoop amax t c is m = .fin x → 0 ≤ x
  | [], m, hm => hm
  | i :: is, m, hm => by
    unfold accVelLoop
    refine accVelLoop_nonneg amax t c is _ ?_
    split_ifs
    · exact pairLoop_nonneg amax t c i is m hm
    · exact stdMin_nonneg hm (sqrt_nonneg _)
    · exact hm

theorem Ext.real_nonneg {a : Ext} (h : ∀ x, a = .fin x → 0 ≤ x) : 0 ≤ a.real := by
  cases a with
  | fin x => exact h x rfl
  | nan => exact le_refl (0 : ℝ)
  | ninf => exact le_refl (0 : ℝ)
  | pinf => exact le_refl (0 : ℝ)

theorem Setup.accVel_nonneg (e : Setup n) (s : ℝ) : ∀ x, e.accVel s = .fin x → 0 ≤ x := by
  intro x hx
  unfold Setup.accVel at hx
  split at hx
  · exact accVelLoop_nonneg _ _ _ _ _ (by simp) x hx
  · simp at hx

theorem Setup.velVel_nonneg (e : Setup n) (hv : ∀ i, 0 ≤ e.vmax i) (s : ℝ) : ∀ x, e.velVel s = .fin x → 0 ≤ x := by
  intro x hx
  unfold Setup.velVel at hx
  split at hx
  · rename_i t ht
    rw [lineVel_eq _ _ hv] at hx
    cases hx
    rw [le_lineVel _ _ hv]
    exact ⟨dblMax_pos.le, fun i _ => div_nonneg (hv i) (abs_nonneg _)⟩
  · cases hx
    exact dblMax_pos.le

/-! ### Proofs: what is needed of the path -/

/-- On the last stretch of the path (behind all discontinuities) there is no limit from the curvature, and one can keep to the velocity
limit. -/
structure Safe [NeZero n] (e : Setup n) : Prop where
  dt : 0 ≤ e.dt
  vmax : ∀ i, 0 ≤ e.vmax i
  line : ∀ s, (∀ d ∈ e.path.switching, d.2 = true → d.1 ≤ s) → e.accVel s = .pinf ∧ (∃ v, e.velVel s = .fin v) ∧
    (e.slope s (e.velVel s) false).le (e.velVelDeriv s)

theorem Safe.clip_nonneg [NeZero n] {e : Setup n} (h : Safe e) (p : ℝ) {c : Step} (hc : 0 ≤ c.vel) : 0 ≤ e.clip p c := by
  unfold Setup.clip
  split_ifs
  · exact Ext.real_nonneg (e.velVel_nonneg h.vmax _)
  · exact hc

theorem remaining_inv {sw : List (ℝ × Bool)} {s : Fwd} (hd : ∀ d ∈ sw, d.2 = true → d ∈ s.discs ∨ d.1 ≤ s.pos) :
    ∀ d ∈ sw, d.2 = true → d ∈ s.remaining ∨ d.1 ≤ s.pos := by
  intro d hm ht
  rcases hd d hm ht with h | h
  · unfold Fwd.remaining
    classical
    have hsplit := List.takeWhile_append_dropWhile (p := fun x : ℝ × Bool => decide (x.1 ≤ s.pos ∨ x.2 = false)) (l := s.discs)
    rw [← hsplit] at h
    rcases List.mem_append.mp h with h | h
    · have := List.mem_takeWhile_imp h
      simp [ht] at this
      exact .inr this
    · exact .inl (by convert h)
  · exact .inr h

theorem next_pos {s : Fwd} {dt : ℝ} (hdt : 0 ≤ dt) (hv : 0 ≤ s.vel) (hc : 0 ≤ (s.next dt s.remaining).vel) : s.pos ≤ (s.next dt s.remaining).pos := by
  have key : 0 ≤ s.vel + dt * s.acc → s.pos ≤ s.pos + dt * (1 / 2) * (s.vel + (s.vel + dt * s.acc)) := by
    intro h
    have : 0 ≤ dt * (1 / 2) * (s.vel + (s.vel + dt * s.acc)) := by positivity
    linarith
  unfold Fwd.next at hc ⊢
  dsimp only at hc ⊢
  cases hr : s.remaining with
  | nil =>
    rw [hr] at hc
    exact key hc
  | cons d ds =>
    rw [hr] at hc
    dsimp only at hc ⊢
    have hd : s.pos < d.1 := by
      have := List.head?_dropWhile_not (p := fun x : ℝ × Bool => open Classical in decide (x.1 ≤ s.pos ∨ x.2 = false)) s.discs
      unfold Fwd.remaining at hr
      rw [hr] at this
      simp only [List.head?_cons, decide_eq_false_iff_not, not_or, not_le] at this
      exact this.1
    split_ifs at hc ⊢ with h1
    · exact hd.le
    · exact key hc

open Classical in
theorem Safe.forward_defined [NeZero n] {e : Setup n} (h : Safe e) (N : Nat) : ∀ (k : Nat) (s : Fwd), s.rev ≠ [] → 0 ≤ s.vel →
    (∀ d ∈ e.path.switching, d.2 = true → d ∈ s.discs ∨ d.1 ≤ s.pos) → forward e N k s ≠ some .ub
  | 0, _, _, _, _ => by simp [forward]
  | k + 1, s, hr, hv, hd => by
    have ih := h.forward_defined N k
    have hrem := remaining_inv hd
    rw [forward]
    dsimp only
    by_cases h1 : e.path.length < (s.next e.dt s.remaining).pos
    · rw [if_pos h1]; simp
    rw [if_neg h1]
    by_cases h2 : (s.next e.dt s.remaining).vel < 0
    · rw [if_pos h2]; simp
    rw [if_neg h2]
    have hpos := next_pos h.dt hv (not_lt.mp h2)
    have hvel := h.clip_nonneg s.pos (not_lt.mp h2)
    have hd' : ∀ d ∈ e.path.switching, d.2 = true → d ∈ s.remaining ∨ d.1 ≤ (s.next e.dt s.remaining).pos :=
      fun d hm ht => (hrem d hm ht).imp id (fun hle => le_trans hle hpos)
    generalize hcc : s.next e.dt s.remaining = c at *
    split_ifs with h3
    · -- the limit is exceeded: not on the last stretch
      have hne : s.remaining ≠ [] := by
        intro hnil
        rw [hnil] at hrem hd'
        obtain ⟨-, -, l3⟩ := h.line s.pos (fun d hm ht => (hrem d hm ht).resolve_left (by simp))
        obtain ⟨k1, ⟨v, k2⟩, -⟩ := h.line c.pos (fun d hm ht => (hd' d hm ht).resolve_left (by simp))
        rcases h3 with h3 | h3
        · rw [k1] at h3; exact h3
        · unfold Setup.clip at h3
          rw [k2] at h3
          split_ifs at h3 with hc
          · exact lt_irrefl v h3
          · exact hc ⟨h3, l3⟩
      cases hrev : s.rev with
      | nil => exact absurd hrev hr
      | cons b bs =>
        dsimp only
        cases hb : bisectForward e N b.pos b.vel c.pos (e.clip s.pos c) with
        | none => simp
        | some r =>
          dsimp only
          have hst : ∃ x, e.stop s.remaining r.1 r.2.1 r.2.2 = .ok x := by
            unfold Setup.stop
            cases hrr : s.remaining with
            | nil => exact absurd hrr hne
            | cons d ds => split_ifs <;> exact ⟨_, rfl⟩
          obtain ⟨x, hx⟩ := hst
          rw [hx]
          simp only [Run.then]
          split_ifs
          · simp
          · exact ih _ (by simp) hvel hd'
    · exact ih _ (by simp) hvel hd'

theorem Safe.integrateForward_defined [NeZero n] {e : Setup n} (h : Safe e) (N : Nat) {b : Step} {bs : List Step} (hb : 0 ≤ b.vel) (a : ℝ) :
    integrateForward e N (b :: bs) a ≠ some .ub := by
  unfold integrateForward
  exact h.forward_defined N N _ (by simp) hb (fun d hm _ => .inl hm)

open Classical in
theorem backward_defined (e : Setup n) : ∀ (k : Nat) (s : Bwd), (s.s1 :: s.below).getLast? = some ⟨0, 0⟩ → (s.traj = [] → s.s1.pos ≤ s.pos) →
    backward e k s ≠ some .ub
  | 0, _, _, _ => by simp [backward]
  | k + 1, s, hl, ht => by
    have ih := backward_defined e k
    have hck : ∀ s' : Bwd, s'.traj ≠ [] → ∃ r, s'.check = .ok r := by
      intro s' hne
      unfold Bwd.check
      cases hh : s'.traj with
      | nil => exact absurd hh hne
      | cons f fs => dsimp only; split_ifs <;> exact ⟨_, rfl⟩
    rw [backward]
    dsimp only
    split_ifs with h1 h2 h3
    · simp
    · obtain ⟨r, hr⟩ := hck (s.push e) (by simp [Bwd.push])
      rw [hr]
      simp only [Run.then]
      cases r with
      | none => exact ih (s.push e) hl (fun hn => by simp [Bwd.push] at hn)
      | some o => simp
    · cases hb : s.below with
      | nil =>
        exfalso
        rw [hb] at hl h1
        simp at hl
        rcases h1 with h1 | h1
        · exact h1 rfl
        · rw [hl] at h2; exact h2 h1
      | cons b bs =>
        dsimp only
        have hne : s.traj ≠ [] := fun hn => h2 (ht hn)
        obtain ⟨r, hr⟩ := hck { s with s2 := s.s1, s1 := b, below := bs } hne
        rw [hr]
        simp only [Run.then]
        cases r with
        | none =>
          refine ih _ ?_ (fun hn => absurd hn hne)
          rw [hb, List.getLast?_cons_cons] at hl
          exact hl
        | some o => simp
    · simp

theorem integrateBackward_defined (e : Setup n) (N : Nat) {rev : List Step} (h2 : 2 ≤ rev.length) (hl : rev.getLast? = some ⟨0, 0⟩) (p v a : ℝ) :
    integrateBackward e N rev p v a ≠ some .ub := by
  match rev, h2 with
  | s2 :: s1 :: below, _ =>
    unfold integrateBackward
    dsimp only
    split_ifs with hc
    · simp
    · refine backward_defined e N _ (by rw [List.getLast?_cons_cons] at hl; exact hl) (fun _ => not_lt.mp hc)

/-- The velocity at a switching point is not negative. -/
theorem nextAccSwitch_nonneg (e : Setup n) : ∀ (k : Nat) (pos : ℝ) (s : Switch), nextAccSwitch e k pos = some (some s) → 0 ≤ s.vel.real
  | 0, _, _, h => by simp [nextAccSwitch] at h
  | k + 1, pos, s, h => by
    rw [nextAccSwitch] at h
    dsimp only at h
    split_ifs at h
    · simp at h
    · simp only [Option.some.injEq] at h
      rw [← h]
      exact Ext.real_nonneg (stdMin_nonneg (e.accVel_nonneg _) (e.accVel_nonneg _))
    · exact nextAccSwitch_nonneg e k _ s h
    · simp only [Option.some.injEq] at h
      rw [← h]
      exact Ext.real_nonneg (e.accVel_nonneg _)
    · exact nextAccSwitch_nonneg e k _ s h

theorem accSwitchLoop_nonneg (e : Setup n) (N : Nat) : ∀ (k : Nat) (s : Switch) (r : Bool × Switch), accSwitchLoop e N k s = some r → r.1 = false →
    0 ≤ r.2.vel.real
  | 0, _, _, h, _ => by simp [accSwitchLoop] at h
  | k + 1, s, r, h, hr => by
    rw [accSwitchLoop] at h
    split at h
    · simp at h
    · simp only [Option.some.injEq] at h
      rw [← h] at hr
      simp at hr
    · rename_i s' hs'
      split_ifs at h
      · exact accSwitchLoop_nonneg e N k _ r h hr
      · simp only [Option.some.injEq] at h
        rw [← h]
        exact nextAccSwitch_nonneg e N _ _ hs'

theorem velSwitchLoop_nonneg [NeZero n] (e : Setup n) (hv : ∀ i, 0 ≤ e.vmax i) (N : Nat) (ap : ℝ) : ∀ (k : Nat) (s : Switch) (r : Bool × Switch),
    velSwitchLoop e N ap k s = some r → r.1 = false → 0 ≤ r.2.vel.real
  | 0, _, _, h, _ => by simp [velSwitchLoop] at h
  | k + 1, s, r, h, hr => by
    rw [velSwitchLoop] at h
    split at h
    · simp at h
    · simp only [Option.some.injEq] at h
      rw [← h] at hr
      simp at hr
    · rename_i s' hs'
      split_ifs at h
      · exact velSwitchLoop_nonneg e hv N ap k _ r h hr
      · simp only [Option.some.injEq] at h
        rw [← h]
        unfold nextVelSwitch at hs'
        split at hs'
        · simp at hs'
        · split_ifs at hs'
          · simp at hs'
          · split at hs'
            · simp at hs'
            · simp only [Option.some.injEq] at hs'
              rw [← hs']
              exact Ext.real_nonneg (e.velVel_nonneg hv _)

theorem nextSwitch_nonneg [NeZero n] (e : Setup n) (hv : ∀ i, 0 ≤ e.vmax i) (N : Nat) (pos : ℝ) (s : Switch)
    (h : nextSwitch e N pos = some (some s)) : 0 ≤ s.vel.real := by
  unfold nextSwitch at h
  split at h
  · simp at h
  · rename_i a ha
    split at h
    · simp at h
    · rename_i v hv'
      split_ifs at h with h1 h2
      · simp at h
      · simp only [Option.some.injEq] at h
        rw [← h]
        exact accSwitchLoop_nonneg e N N _ a ha h2.1
      · simp only [Option.some.injEq] at h
        rw [← h]
        refine velSwitchLoop_nonneg e hv N _ N _ v hv' ?_
        cases h3 : v.1 with
        | false => rfl
        | true =>
          exfalso
          cases h4 : a.1 with
          | true => exact h1 ⟨h4, h3⟩
          | false => exact h2 ⟨h4, .inl h3⟩

theorem Run.then_ne_ub {α β : Type} {r : Run α} {f : α → Run β} (h1 : r ≠ some .ub) (h2 : ∀ a, r = some (.ok a) → f a ≠ some .ub) : r.then f ≠ some .ub := by
  cases r with
  | none => simp [Run.then]
  | some x =>
    cases x with
    | ok a => exact h2 a rfl
    | throw e => simp [Run.then]
    | ub => exact absurd rfl h1

theorem Safe.mainLoop_defined [NeZero n] {e : Setup n} (h : Safe e) (N : Nat) : ∀ (k : Nat) (rev : List Step) (a : ℝ), (∃ b bs, rev = b :: bs ∧ 0 ≤ b.vel) →
    rev.getLast? = some ⟨0, 0⟩ → mainLoop e N k rev a ≠ some .ub ∧ ∀ out, mainLoop e N k rev a = some (.ok out) → 2 ≤ out.length
  | 0, _, _, _, _ => by simp [mainLoop]
  | k + 1, rev, a, hrev, hl => by
    have ih := h.mainLoop_defined N k
    obtain ⟨b, bs, rfl, hb⟩ := hrev
    rw [mainLoop]
    have hF := h.integrateForward_defined N (bs := bs) hb a
    cases hf : integrateForward e N (b :: bs) a with
    | none => simp [Run.then]
    | some x =>
      cases x with
      | throw ex => simp [Run.then]
      | ub => exact absurd hf hF
      | ok r =>
        obtain ⟨f1, f2⟩ := integrateForward_first e N hl hf
        simp only [Run.then]
        split_ifs with hr
        · refine ⟨by simp, fun out ho => ?_⟩
          simp only [Option.some.injEq, Res.ok.injEq] at ho
          rw [← ho]; exact f2
        · match hrr : r.1 with
          | [] => rw [hrr] at f2; simp at f2
          | c :: cs =>
            dsimp only
            rw [hrr] at f1 f2
            cases hs : nextSwitch e N c.pos with
            | none => simp
            | some o =>
              cases o with
              | none =>
                refine ⟨by simp, fun out ho => ?_⟩
                simp only [Option.some.injEq, Res.ok.injEq] at ho
                rw [← ho]; exact f2
              | some s =>
                dsimp only
                have hB := integrateBackward_defined e N f2 f1 s.pos s.vel.real s.before.real
                cases hb' : integrateBackward e N (c :: cs) s.pos s.vel.real s.before.real with
                | none => simp
                | some y =>
                  cases y with
                  | throw ex => simp
                  | ub => exact absurd hb' hB
                  | ok rev' =>
                    obtain ⟨g1, g2, g3⟩ := integrateBackward_ends e N f1 hb'
                    dsimp only
                    refine ih rev' _ ?_ g1
                    cases rev' with
                    | nil => simp at g2
                    | cons z zs =>
                      simp only [List.head?_cons, Option.some.injEq] at g2
                      exact ⟨z, zs, rfl, by rw [g2]; exact nextSwitch_nonneg e h.vmax N _ s hs⟩

theorem Safe.build_defined [NeZero n] {e : Setup n} (h : Safe e) (N : Nat) : buildSteps e N ≠ some .ub := by
  unfold buildSteps
  obtain ⟨h1, h2⟩ := h.mainLoop_defined N N [⟨0, 0⟩] (e.acc 0 (.fin 0) true).real ⟨_, _, rfl, le_refl _⟩ rfl
  refine Run.then_ne_ub h1 fun rev hr => ?_
  exact Run.then_ne_ub (integrateBackward_defined e N (h2 rev hr) (mainLoop_first e N N _ _ _ rfl hr) _ _ _) (fun _ _ => by simp)

/-- The limits on a line. -/
theorem line_safe [NeZero n] {e : Setup n} (hv : ∀ i, 0 < e.vmax i) (ha : ∀ i, 0 ≤ e.amax i) (hvm : ∀ i, n * e.vmax i < dblMax) {s : ℝ} {t : V n}
    (ht : e.path.tangent s = some t) (hu : ‖t‖ = 1) (hc : e.path.curvature s = 0) :
    e.accVel s = .pinf ∧ (∃ v, e.velVel s = .fin v) ∧ (e.slope s (e.velVel s) false).le (e.velVelDeriv s) := by
  have hcz : (e.path.curvature s).ofLp = (0 : Fin n → ℝ) := by rw [hc]; rfl
  have hvel : e.velVel s = .fin (lineVel e.vmax t) := by
    unfold Setup.velVel
    rw [ht]
    exact lineVel_eq _ _ (fun i => (hv i).le)
  have hpos : 0 < lineVel e.vmax t := by
    obtain ⟨v0, k1, k2, k3⟩ := exists_lower e.vmax hv
    refine lt_of_lt_of_le k1 ?_
    rw [le_lineVel _ _ (fun i => (hv i).le)]
    refine ⟨k2, fun i hne => ?_⟩
    rw [le_div_iff₀ (abs_pos.mpr hne)]
    have := coord_le_one t hu i
    nlinarith [abs_nonneg (t i), k3 i]
  refine ⟨?_, ⟨_, hvel⟩, ?_⟩
  · unfold Setup.accVel
    rw [ht]
    dsimp only
    rw [hcz]
    exact accVelLoop_zero _ _ _ _
  · have hacc : e.acc s (.fin (lineVel e.vmax t)) false = .fin (factor false * lineAcc e.amax t) := by
      unfold Setup.acc
      rw [ht]
      dsimp only
      rw [hcz]
      exact line_minMaxAcc _ _ _ _
    have hder : e.velVelDeriv s = .fin 0 := by
      unfold Setup.velVelDeriv
      rw [ht]
      dsimp only
      rw [hcz]
      apply line_deriv hv
      obtain ⟨i, hi⟩ := unit_coord t hu
      have hn : (0 : ℝ) < n := by exact_mod_cast Nat.pos_of_ne_zero (NeZero.ne n)
      have hp : 0 < |t i| := by
        by_contra hcon
        have : |t i| = 0 := le_antisymm (not_lt.mp hcon) (abs_nonneg _)
        rw [this] at hi
        norm_num at hi
      refine ⟨i, abs_pos.mp hp, ?_⟩
      rw [div_lt_iff₀ hp]
      have h5 := hvm i
      have h6 := hv i
      nlinarith [dblMax_pos]
    unfold Setup.slope
    rw [hvel, hacc, hder, div_fin hpos.ne', le_fin]
    have hl : 0 ≤ lineAcc e.amax t := by
      rw [le_lineAcc]
      exact ⟨dblMax_pos.le, fun i _ => div_nonneg (ha i) (abs_nonneg _)⟩
    apply div_nonpos_of_nonpos_of_nonneg _ hpos.le
    simp only [factor, Bool.false_eq_true, if_false]
    linarith

theorem regular_safe [NeZero n] (ws : List (V n)) (dev : ℝ) (hr : Regular dev ws) (p : Path n) (hp : Path.make ws (.fin dev) = .ok p)
    (vmax amax : Fin n → ℝ) (hv : ∀ i, 0 < vmax i) (ha : ∀ i, 0 ≤ amax i) (hvm : ∀ i, n * vmax i < dblMax) (dt : ℝ) (hdt : 0 ≤ dt) :
    Safe ⟨p, vmax, amax, dt⟩ := by
  refine ⟨hdt, fun i => (hv i).le, fun s hs => ?_⟩
  match ws, hr, hp with
  | c1 :: c2 :: rest, hr, hp =>
    simp only [Path.make, Res.ok.injEq] at hp
    subst hp
    obtain ⟨pre, a, b, hseg⟩ := build_last dev (c2 :: rest) c1 c1 (by simp)
    obtain ⟨k, -, e, -, hch, -⟩ := (built dev c1 c2 rest hr).chain
    have hl : 0 < (Seg.lin a b).length := hch.last_pos pre _ hseg
    have hsw := build_sw dev (c2 :: rest) c1 c1 (fun h => hr.1 h)
    have hnn : ∀ x ∈ pre, 0 ≤ x.length := fun x hx => (hsw x (by rw [hseg]; exact List.mem_append_left _ hx)).len
    have hin : pre = [] ∨ totalLength pre ≤ s := by
      by_cases hpre : pre = []
      · exact .inl hpre
      · right
        refine hs (totalLength pre, true) ?_ rfl
        rw [(assemble_switching _ hch.ne hsw).2.2]
        refine ⟨?_, ?_⟩
        · rw [hseg]
          simpa using mem_allSwitching_last (Seg.lin a b) pre 0 hpre
        · rw [(assemble_segments _).2, hseg]
          simp only [totalLength, List.map_append, List.map_cons, List.map_nil, List.sum_append, List.sum_cons, List.sum_nil]
          linarith
    have hlen : ‖b - a‖ ≠ 0 := ne_of_gt hl
    refine line_safe (t := ‖b - a‖⁻¹ • (b - a)) hv ha hvm ?_ ?_ ?_
    · dsimp only
      rw [assemble_tangent, hseg, along_last _ _ _ _ _ hnn hin]
      simp only [Seg.tangent]
      rw [if_neg hlen]
    · rw [norm_smul, norm_inv, norm_norm, inv_mul_cancel₀ hlen]
    · dsimp only
      rw [assemble_curvature, hseg, along_last _ _ _ _ _ hnn hin]
      rfl
  | [], _, hp => simp [Path.make] at hp
  | [_], _, hp => simp [Path.make] at hp

/-! ### Theorem -/

/-- C81 (with blends or without). Whatever the waypoints, as long as the last two differ and, with blends, there is no reversal and no two
consecutive ones are closer than 2e-6, and whatever the limits and the timestep: making the trajectory involves no undefined behaviour - in
particular, no switching point is read behind the last one, and no step before the first. -/
theorem C81_defined [NeZero n] (ws : List (V n)) (dev : ℝ) (hr : Regular dev ws) (vmax amax : Fin n → ℝ) (hv : ∀ i, 0 < vmax i) (ha : ∀ i, 0 ≤ amax i)
    (hvm : ∀ i, n * vmax i < dblMax) (dt : ℝ) (hdt : 0 ≤ dt) (N : Nat) :
    parametrize N ws (fun i => .fin (vmax i)) (fun i => .fin (amax i)) (.fin dev) (.fin dt) ≠ some .ub := by
  cases hp : Path.make ws (.fin dev) with
  | throw ex => unfold parametrize; rw [hp]; simp [Run.then]
  | ub => exact absurd hp (by unfold Path.make; split <;> simp)
  | ok p =>
    rw [parametrize_ok hp]
    exact Run.then_ne_ub ((regular_safe ws dev hr p hp vmax amax hv ha hvm dt hdt).build_defined N) (fun _ _ => by simp)

end CRU.Totp
