import Verif.Totp.BuildTotal
/-
  C81: the construction of a trajectory: refused arguments, and its end on paths of straight lines.
-/
namespace CRU.Totp
open Ext

variable {n : Nat}

/-! ### Proofs -/

theorem isChain_with {α : Type} {R : α → α → Prop} {P : α → Prop} : ∀ {l : List α}, l.IsChain R → (∀ x ∈ l, P x) →
    l.IsChain (fun a b => R a b ∧ P a ∧ P b)
  | [], _, _ => .nil
  | [a], _, _ => .singleton a
  | a :: b :: l, h, hP => by
    obtain ⟨h1, h2⟩ := List.isChain_cons_cons.mp h
    exact List.isChain_cons_cons.mpr ⟨⟨h1, hP a (by simp), hP b (by simp)⟩, isChain_with h2 (fun x hx => hP x (List.mem_cons_of_mem _ hx))⟩

theorem consecutive_of_isChain {α : Type} {R : α → α → Prop} {l : List α} (h : l.IsChain R) {a b : α} (hc : Consecutive l a b) : R a b := by
  obtain ⟨pre, post, rfl⟩ := hc
  exact (List.isChain_append_cons_cons.mp h).2.1

/-- A relation between consecutive steps. -/
theorem Made.isChain {e : Setup n} {a v : ℝ → ℝ} {steps : List Step} {s2 s1 : Step} {below : List Step} {m f : Step} {ts : List Step} {i : Step}
    (h : Made e a v steps s2 s1 below m f ts i) {R : Step → Step → Prop}
    (h1 : ∀ s c, Ahead a v e.dt s c → (s.vel ≤ v s.pos ∧ 0 ≤ s.pos) → (c.vel ≤ v c.pos ∧ 0 ≤ c.pos) → R s c)
    (h2 : R s1 i) (h3 : R i f) (h4 : (f :: ts).IsChain R) : steps.IsChain R := by
  rw [h.eq]
  refine List.isChain_append.mpr ⟨?_, List.isChain_cons_cons.mpr ⟨h3, h4⟩, ?_⟩
  · rw [List.isChain_reverse]
    refine List.IsChain.imp ?_ (isChain_with (List.isChain_cons_cons.mp h.chain |>.2 : (s1 :: below).IsChain _)
      (fun x hx => (⟨h.limit x hx, h.nonneg x hx⟩ : x.vel ≤ v x.pos ∧ 0 ≤ x.pos)))
    exact fun c s hcs => h1 s c hcs.1 hcs.2.2 hcs.2.1
  · intro x hx y hy
    rw [List.getLast?_reverse] at hx
    simp only [List.head?_cons, Option.mem_def, Option.some.injEq] at hx hy
    subst hx; subst hy
    exact h2

theorem chain_of_cons {α : Type} {R : α → α → Prop} (P : α → Prop) : ∀ {l : List α}, l.IsChain R → (∀ a b, R a b → P a ∧ P b) →
    2 ≤ l.length → ∀ x ∈ l, P x
  | [], _, _, _ => by simp
  | [a], _, _, h => by simp at h
  | [a, b], h, hR, _ => by
    intro x hx
    have := hR a b (List.isChain_cons_cons.mp h).1
    rcases List.mem_cons.mp hx with rfl | hx
    · exact this.1
    · rw [List.mem_singleton] at hx; subst hx; exact this.2
  | a :: b :: c :: l, h, hR, _ => by
    obtain ⟨h1, h2⟩ := List.isChain_cons_cons.mp h
    intro x hx
    rcases List.mem_cons.mp hx with rfl | hx
    · exact (hR _ _ h1).1
    · exact chain_of_cons P h2 hR (by simp) x hx

variable [NeZero n] {e : Setup n} {a v : ℝ → ℝ} {a0 : ℝ}

/-- The slope of the backward trajectory. -/
theorem Behind.slope (h : Flat e a v a0) {m f : Step} (hb : Behind a e.dt m f) :
    slopeOf m f < 0 ∧ -(2 / e.dt) ≤ slopeOf m f ∧ slopeOf m f * ((m.vel + f.vel) / 2) = -(a f.pos) := by
  obtain ⟨b1, b2, -⟩ := hb.lt h
  have hdt := h.dt
  have ha := h.a_pos hb.place
  have hv := hb.vel
  have hp := hb.pos
  have hn := hb.nonneg
  have hsum : 0 < m.vel + f.vel := by linarith
  have e1 : f.pos - m.pos = e.dt * (1 / 2) * (m.vel + f.vel) := by linarith
  have e2 : slopeOf m f = -(2 * a f.pos / (m.vel + f.vel)) := by
    unfold slopeOf
    rw [e1, show f.vel - m.vel = -(e.dt * a f.pos) by linarith]
    field_simp
  refine ⟨?_, ?_, ?_⟩
  · rw [e2]
    have : 0 < 2 * a f.pos / (m.vel + f.vel) := by positivity
    linarith
  · rw [e2]
    have : 2 * a f.pos / (m.vel + f.vel) ≤ 2 / e.dt := by
      rw [div_le_div_iff₀ hsum hdt]
      nlinarith
    linarith
  · rw [e2]
    field_simp

theorem eps_pos : 0 < eps := by unfold eps; norm_num

/-- The places and velocities of the steps. -/
theorem Made.bounds (h : Flat e a v a0) {steps : List Step} {s2 s1 : Step} {below : List Step} {m f : Step} {ts : List Step} {i : Step}
    (hm : Made e a v steps s2 s1 below m f ts i) :
    steps.IsChain (fun x y => x.pos - eps ≤ y.pos ∧ -(2 / e.dt) * eps ≤ x.vel ∧ -(2 / e.dt) * eps ≤ y.vel) := by
  have hdt := h.dt
  have heps := eps_pos
  have hneg : -(2 / e.dt) * eps ≤ 0 := by
    have : 0 < 2 / e.dt := by positivity
    nlinarith
  have hs1 : 0 ≤ s1.vel := (List.isChain_cons_cons.mp hm.chain).1.nonneg
  have hb : Behind a e.dt m f := (List.isChain_cons_cons.mp hm.back.chain).1
  obtain ⟨sl1, sl2, -⟩ := hb.slope h
  have hfv := hb.nonneg
  have hi : -(2 / e.dt) * eps ≤ i.vel := by
    rw [hm.cross.on_back]
    have hright := lineThrough_right (hb.lt h).2.1
    have e1 : lineThrough m f i.pos = f.vel + slopeOf m f * (i.pos - f.pos) := by
      rw [← hright]; unfold lineThrough; ring
    rw [e1]
    have hx : i.pos - f.pos ≤ eps := by have := hm.cross.hi; have := min_le_right s2.pos f.pos; linarith
    rcases le_total (i.pos - f.pos) 0 with hc | hc
    · have := mul_nonneg_of_nonpos_of_nonpos sl1.le hc
      linarith
    · have : -(2 / e.dt) * eps ≤ slopeOf m f * (i.pos - f.pos) := by nlinarith
      linarith
  refine hm.isChain ?_ ?_ ?_ ?_
  · intro s c hsc _ _
    have := hsc.pos; have := hsc.nonneg; have := hsc.vel
    exact ⟨by linarith, by linarith, by linarith⟩
  · have := hm.cross.lo
    have := le_max_left s1.pos m.pos
    exact ⟨by linarith, by linarith, hi⟩
  · have := hm.cross.hi
    have := min_le_right s2.pos f.pos
    exact ⟨by linarith, hi, by linarith⟩
  · refine List.IsChain.imp ?_ (hm.back.chain.tail)
    intro x y hxy
    obtain ⟨b1, b2, -⟩ := hxy.lt h
    have := hxy.nonneg
    exact ⟨by linarith, by linarith, by linarith⟩

theorem Made.head_last {steps : List Step} {s2 s1 : Step} {below : List Step} {m f : Step} {ts : List Step} {i : Step}
    (hm : Made e a v steps s2 s1 below m f ts i) : steps.head? = some ⟨0, 0⟩ ∧ steps.getLast? = some ⟨e.path.length, 0⟩ := by
  rw [hm.eq]
  constructor
  · rw [List.head?_append_of_ne_nil _ (by simp), List.head?_reverse, hm.first]
  · rw [List.getLast?_append_of_ne_nil _ (by simp), List.getLast?_cons_cons]
    exact hm.back.last

/-- On a path without blends, the construction asks a flat path. -/
theorem plain_flat (ws : List (V n)) (dev : ℝ) (hdev : dev ≤ 0) (hr : Regular dev ws) (hlen : 2 ≤ ws.length) (vmax amax : Fin n → ℝ)
    (hv : ∀ i, 0 < vmax i) (ha : ∀ i, 0 < amax i) (hvm : ∀ i, n * vmax i < dblMax) (dt : ℝ) :
    ∃ p a v a0, Path.make ws (.fin dev) = .ok p ∧ FlatCore ⟨p, vmax, amax, dt⟩ a v a0 := by
  match ws, hlen, hr with
  | c1 :: c2 :: rest, _, hr =>
    refine ⟨assemble (buildSegments dev c1 c1 (c2 :: rest)), ?_⟩
    have htan := plain_tangent dev hdev rest c1 c2 hr.2
    have hpos : 0 < (assemble (buildSegments dev c1 c1 (c2 :: rest))).length := by
      rw [(assemble_segments _).2]
      obtain ⟨k, -, e, -, hch, -⟩ := (build_plain dev hdev rest c1 c2 hr.2).chain
      exact hch.pos
    obtain ⟨a0, h⟩ := flatCore (e := ⟨assemble (buildSegments dev c1 c1 (c2 :: rest)), vmax, amax, dt⟩) hv ha hvm hpos
      (fun s => ((assemble (buildSegments dev c1 c1 (c2 :: rest))).tangent s).getD 0)
      (by
        intro s hs
        obtain ⟨⟨t, ht, -⟩, -⟩ := htan s hs
        dsimp only
        rw [assemble_tangent, ht]
        rfl)
      (by
        intro s hs
        obtain ⟨⟨t, ht, hn⟩, -⟩ := htan s hs
        rw [assemble_tangent, ht]
        exact hn)
      (by
        intro s hs
        rw [assemble_curvature]
        exact (htan s hs).2)
    exact ⟨_, _, a0, rfl, h⟩

open Classical in
theorem parametrize_ok {N : Nat} {ws : List (V n)} {dev : Ext} {p : Path n} (hp : Path.make ws dev = .ok p) (vmax amax : Fin n → ℝ) (dt : ℝ) :
    parametrize N ws (fun i => .fin (vmax i)) (fun i => .fin (amax i)) dev (.fin dt) =
      Run.then (buildSteps ⟨p, vmax, amax, dt⟩ N) fun steps => some (.ok (p, timing steps)) := by
  unfold parametrize
  rw [hp]
  show (if _ then _ else _) = _
  rw [if_pos ⟨fun i => ⟨_, rfl⟩, fun i => ⟨_, rfl⟩, _, rfl⟩]
  rfl

/-! ### Theorems -/

open Classical in
/-- C81. Fewer than two waypoints, and a deviation, limit or timestep that is infinite or NaN, are refused, before anything is computed. -/
theorem C81_refused (N : Nat) (ws : List (V n)) (vmax amax : Fin n → Ext) (dev dt : Ext)
    (h : ws.length < 2 ∨ (∀ x, dev ≠ .fin x) ∨ (∃ i, ∀ x, vmax i ≠ .fin x) ∨ (∃ i, ∀ x, amax i ≠ .fin x) ∨ ∀ x, dt ≠ .fin x) :
    parametrize N ws vmax amax dev dt = some (.throw .invalidArgument) := by
  unfold parametrize
  cases hp : Path.make ws dev with
  | throw e =>
    unfold Path.make at hp
    split at hp
    · simp at hp
    · cases hp; rfl
  | ub =>
    unfold Path.make at hp
    split at hp <;> simp at hp
  | ok p =>
    have h1 : ¬ (ws.length < 2 ∨ ∀ x, dev ≠ .fin x) := by
      unfold Path.make at hp
      split at hp
      · rename_i c1 c2 rest d
        rintro (hc | hc)
        · simp at hc
        · exact hc d rfl
      · simp at hp
    show (if _ then _ else _) = _
    rw [if_neg]
    rintro ⟨h2, h3, x, h4⟩
    rcases h with h | h | ⟨i, h⟩ | ⟨i, h⟩ | h
    · exact h1 (.inl h)
    · exact h1 (.inr h)
    · obtain ⟨y, hy⟩ := h2 i; exact h y hy
    · obtain ⟨y, hy⟩ := h3 i; exact h y hy
    · exact h x h4

/-- C81 (without blends: a maximum deviation of 0, the default, or less; the last two waypoints differ; limits and timestep are positive).
`ParametrizePathTOTP` ends, throws nothing, and makes a trajectory from rest at the start of the path to rest at its end; from one step to the next the
position goes back by at most 1e-6, and the velocity is at no step below -2e-6 divided by the timestep.

Missing: paths with blends; there the number of turns of the main loop is not bounded by the code. -/
theorem C81_polyline_partial (ws : List (V n)) (dev : ℝ) (hdev : dev ≤ 0) (hr : Regular dev ws) (hlen : 2 ≤ ws.length) (vmax amax : Fin n → ℝ)
    (hv : ∀ i, 0 < vmax i) (ha : ∀ i, 0 < amax i) (hvm : ∀ i, n * vmax i < dblMax) (dt : ℝ) (hdt : 0 < dt) :
    ∃ p steps N, Path.make ws (.fin dev) = .ok p ∧
      (∀ M, N ≤ M → parametrize M ws (fun i => .fin (vmax i)) (fun i => .fin (amax i)) (.fin dev) (.fin dt) = some (.ok (p, timing steps))) ∧
      2 ≤ steps.length ∧ steps.head? = some ⟨0, 0⟩ ∧ steps.getLast? = some ⟨p.length, 0⟩ ∧
      (∀ a b, Consecutive steps a b → a.pos - 1 / 1000000 ≤ b.pos) ∧ ∀ s ∈ steps, -(2 / 1000000 / dt) ≤ s.vel := by
  obtain ⟨p, a, v, a0, hp, hf⟩ := plain_flat ws dev hdev hr hlen vmax amax hv ha hvm dt
  have hflat : Flat ⟨p, vmax, amax, dt⟩ a v a0 := ⟨hf, hdt⟩
  obtain ⟨N, steps, s2, s1, below, m, f, ts, i, hb, hm⟩ := hflat.build
  have hlen' : 2 ≤ steps.length := by
    rw [hm.eq]; simp; omega
  obtain ⟨hh, hl⟩ := hm.head_last
  have hbd := hm.bounds hflat
  refine ⟨p, steps, N, hp, ?_, hlen', hh, hl, ?_, ?_⟩
  · intro M hM
    refine parametrize_later hM ws _ _ _ _ _ ?_
    rw [parametrize_ok hp, hb]
    rfl
  · intro x y hxy
    exact (consecutive_of_isChain hbd hxy).1
  · refine chain_of_cons (fun s => -(2 / 1000000 / dt) ≤ s.vel) hbd (fun x y hxy => ?_) hlen'
    have e1 : -(2 / dt) * eps = -(2 / 1000000 / dt) := by unfold eps; ring
    have h1 := hxy.2.1
    have h2 := hxy.2.2
    dsimp only at h1 h2
    rw [e1] at h1 h2
    exact ⟨h1, h2⟩

/-- C81. The trajectory does not depend on the number of turns that the loops are given, for any path. -/
theorem C81_deterministic (ws : List (V n)) (vmax amax : Fin n → Ext) (dev dt : Ext) {N N' : Nat} {r r' : Res (Path n × List Timed)}
    (h : parametrize N ws vmax amax dev dt = some r) (h' : parametrize N' ws vmax amax dev dt = some r') : r = r' := by
  have h1 := parametrize_later (le_max_left N N') ws vmax amax dev dt _ h
  have h2 := parametrize_later (le_max_right N N') ws vmax amax dev dt _ h'
  rw [h1] at h2
  exact Option.some_inj.mp h2

open Classical in
theorem forward_stuck (h : FlatCore e a v a0) (hdt : e.dt = 0) (N : Nat) : ∀ (k : Nat) (s : Fwd), s.pos = 0 → s.vel = 0 → forward e N k s = none
  | 0, _, _, _ => rfl
  | k + 1, s, hp, hv => by
    have hn : s.next e.dt s.remaining = ⟨0, 0⟩ := by
      unfold Fwd.next
      rw [hdt]
      simp only [zero_mul, add_zero]
      cases hr : s.remaining with
      | nil => simp [hp, hv]
      | cons d ds =>
        dsimp only
        have hd : s.pos < d.1 := by
          have := List.head?_dropWhile_not (p := fun x : ℝ × Bool => open Classical in decide (x.1 ≤ s.pos ∨ x.2 = false)) s.discs
          unfold Fwd.remaining at hr
          rw [hr] at this
          simp only [List.head?_cons, decide_eq_false_iff_not, not_or, not_le] at this
          exact this.1
        rw [if_neg (by linarith), hp, hv]
    rw [h.forward_turn N k s hp.ge (by rw [hn])]
    rw [hn]
    dsimp only
    rw [if_neg (not_lt.mpr h.len.le), if_neg (lt_irrefl 0), min_eq_left (h.v_pos 0 (le_refl 0)).le]
    exact forward_stuck h hdt N k _ rfl rfl

/-- C81 is false for a timestep of 0, which is not refused: the construction does not end, whatever the waypoints and limits (without blends). -/
theorem C81_zero_timestep_false (ws : List (V n)) (dev : ℝ) (hdev : dev ≤ 0) (hr : Regular dev ws) (hlen : 2 ≤ ws.length) (vmax amax : Fin n → ℝ)
    (hv : ∀ i, 0 < vmax i) (ha : ∀ i, 0 < amax i) (hvm : ∀ i, n * vmax i < dblMax) (M : Nat) :
    parametrize M ws (fun i => .fin (vmax i)) (fun i => .fin (amax i)) (.fin dev) (.fin 0) = none := by
  obtain ⟨p, a, v, a0, hp, hf⟩ := plain_flat ws dev hdev hr hlen vmax amax hv ha hvm 0
  rw [parametrize_ok hp]
  have : mainLoop ⟨p, vmax, amax, 0⟩ M M [⟨0, 0⟩] (Setup.acc ⟨p, vmax, amax, 0⟩ 0 (.fin 0) true).real = none := by
    cases M with
    | zero => rfl
    | succ M =>
      unfold mainLoop
      have : integrateForward ⟨p, vmax, amax, 0⟩ (M + 1) [⟨0, 0⟩] (Setup.acc ⟨p, vmax, amax, 0⟩ 0 (.fin 0) true).real = none := by
        unfold integrateForward
        exact forward_stuck hf rfl _ _ _ rfl rfl
      rw [this]
      rfl
  unfold buildSteps
  rw [this]
  rfl

/-- Non-vacuity: three waypoints with a corner. -/
noncomputable def cornerPath : List (V 2) := [!₂[0, 0], !₂[1, 0], !₂[1, 1]]

theorem cornerPath_regular : Regular 0 cornerPath := by
  refine ⟨fun h => absurd h (lt_irrefl 0), ?_⟩
  intro pre x y h
  unfold cornerPath at h
  match pre, h with
  | [], h => simp at h
  | [z], h =>
    simp only [List.cons_append, List.nil_append, List.cons.injEq, and_true] at h
    obtain ⟨-, rfl, rfl⟩ := h
    intro hc
    have := congrArg (fun w : V 2 => w 1) hc
    simp at this
  | z :: z' :: pre, h =>
    have := congrArg List.length h
    simp at this

example : ∃ p steps N, (∀ M, N ≤ M → parametrize M cornerPath (fun _ => .fin 1) (fun _ => .fin 1) (.fin 0) (.fin (1 / 1000)) = some (.ok (p, timing steps))) ∧
    steps.getLast? = some ⟨p.length, 0⟩ := by
  obtain ⟨p, steps, N, -, h1, -, -, h2, -, -⟩ := C81_polyline_partial cornerPath 0 (le_refl 0) cornerPath_regular (by simp [cornerPath]) (fun _ => 1)
    (fun _ => 1) (by simp) (by simp) (by intro i; have := dblMax_big; norm_num at this ⊢; linarith) (1 / 1000) (by norm_num)
  exact ⟨p, steps, N, h1, h2⟩

example (M : Nat) : parametrize M cornerPath (fun _ => .fin 1) (fun _ => .fin 1) (.fin 0) (.fin 0) = none :=
  C81_zero_timestep_false cornerPath 0 (le_refl 0) cornerPath_regular (by simp [cornerPath]) (fun _ => 1) (fun _ => 1) (by simp) (by simp)
    (by intro i; have := dblMax_big; norm_num at this ⊢; linarith) M

example : parametrize 0 cornerPath (fun _ => .fin 1) (fun _ => .nan) (.fin 0) (.fin 1) = some (.throw .invalidArgument) :=
  C81_refused 0 cornerPath _ _ _ _ (.inr (.inr (.inr (.inl ⟨0, fun _ h => by cases h⟩))))

end CRU.Totp
