import Verif.Path.ThrowCalls
/-
  Callbacks without state that do not throw: the runs are those of `Verif/Path/Model.lean`, so C34 and C35 speak about them. And
  examples of runs with state and exceptions.
-/
namespace CRU.Path.Throw
open CRU.Util CRU.Fl

variable {C ε α β : Type}

/-- The outcome of code without calls. -/
def outcome : Res α → Except (Fail ε) α
  | .ok a => .ok a
  | .throw x => .error (.lib x)
  | .ub => .error .ub

/-- The callbacks answer as the functions of `cfg` do, and the random numbers are those of `us`, two per iteration. -/
structure Plain (F : Fns C ε) (cfg : Cfg C) (us : Nat → ℚ × ℚ) : Prop where
  valid : ∀ h a b, F.valid h a b = .ok (cfg.valid a b)
  dist : ∀ h a b, F.dist h a b = .ok (cfg.dist a b)
  interp : ∀ h a b t, F.interp h a b t = .ok (cfg.interp a b t)
  draw : ∀ h k, (draws h = 2 * k → F.draw h = .ok (us k).1) ∧ (draws h = 2 * k + 1 → F.draw h = .ok (us k).2)

/-- `m` does what `r` says, and draws `n` numbers if it ends normally. -/
def Does (n : Nat) (m : Run C ε α) (h : Hist C ε) (r : Res α) : Prop :=
  (m h).1 = outcome r ∧ ∀ a, r = .ok a → draws (m h).2 = draws h + n

theorem Does.bind {m : Run C ε α} {f : α → Run C ε β} {h : Hist C ε} {r : Res α} {g : α → Res β} {n k : Nat} (h1 : Does n m h r)
    (h2 : ∀ a h', r = .ok a → draws h' = draws h + n → Does k (f a) h' (g a)) : Does (n + k) (m >>= f) h (r >>= g) := by
  unfold Does
  change (seq m f h).1 = _ ∧ ∀ a, _ → draws (seq m f h).2 = _
  obtain ⟨h3, h4⟩ := h1
  unfold seq
  cases r with
  | ok a =>
    have h5 := h4 a rfl
    split
    · next b h' heq =>
      rw [heq] at h3 h5
      simp only [outcome, Except.ok.injEq] at h3
      subst h3
      have h6 := h2 b h' rfl h5
      refine ⟨h6.1, fun c hc => ?_⟩
      rw [h6.2 c hc]
      dsimp only at h5
      omega
    · next x h' heq => rw [heq] at h3; simp [outcome] at h3
  | throw x =>
    split
    · next b h' heq => rw [heq] at h3; simp [outcome] at h3
    · next y h' heq =>
      rw [heq] at h3
      simp only [outcome, Except.error.injEq] at h3
      subst h3
      exact ⟨rfl, by simp⟩
  | ub =>
    split
    · next b h' heq => rw [heq] at h3; simp [outcome] at h3
    · next y h' heq =>
      rw [heq] at h3
      simp only [outcome, Except.error.injEq] at h3
      subst h3
      exact ⟨rfl, by simp⟩

theorem Does.bind0 {m : Run C ε α} {f : α → Run C ε β} {h : Hist C ε} {r : Res α} {g : α → Res β} {k : Nat} (h1 : Does 0 m h r)
    (h2 : ∀ a h', r = .ok a → draws h' = draws h → Does k (f a) h' (g a)) : Does k (m >>= f) h (r >>= g) := by
  have := h1.bind (k := k) (f := f) (g := g) h2
  rwa [Nat.zero_add] at this

theorem Does.lib (r : Res α) (h : Hist C ε) : Does 0 (lib r) h r := by
  cases r <;> exact ⟨rfl, by simp [Throw.lib, ret]⟩

theorem Does.pure (a : α) (h : Hist C ε) : Does 0 (Pure.pure a) h (.ok a) := ⟨rfl, fun _ _ => rfl⟩

theorem Does.step {m : Run C ε α} {f : α → Run C ε β} {h : Hist C ε} {a : α} {r : Res β} {k : Nat} (h1 : Does 0 m h (.ok a))
    (h2 : ∀ h', draws h' = draws h → Does k (f a) h' r) : Does k (m >>= f) h r := by
  have := h1.bind0 (k := k) (f := f) (g := fun _ => r) (fun b h' hb hd => by cases hb; exact h2 h' hd)
  exact this

section
variable {F : Fns C ε} {cfg : Cfg C} {us : Nat → ℚ × ℚ} (hP : Plain F cfg us) {fl : ℚ → ℚ}
include hP

theorem askValid_does (a b : C) (h : Hist C ε) : Does 0 (askValid F a b) h (.ok (cfg.valid a b)) := by
  unfold Does askValid ask
  dsimp only
  rw [hP.valid]
  exact ⟨rfl, fun _ _ => by rw [draws_append]; rfl⟩

theorem askDist_does (a b : C) (h : Hist C ε) : Does 0 (askDist F a b) h (.ok (cfg.dist a b)) := by
  unfold Does askDist ask
  dsimp only
  rw [hP.dist]
  exact ⟨rfl, fun _ _ => by rw [draws_append]; rfl⟩

theorem askInterp_does (a b : C) (t : ℚ) (h : Hist C ε) : Does 0 (askInterp F a b t) h (.ok (cfg.interp a b t)) := by
  unfold Does askInterp ask
  dsimp only
  rw [hP.interp]
  exact ⟨rfl, fun _ _ => by rw [draws_append]; rfl⟩

theorem freeEdges_does : ∀ (l : List C) (h : Hist C ε), Does 0 (freeEdges F l) h (.ok (CRU.Path.freeEdges cfg.valid l))
  | [], h => by unfold freeEdges CRU.Path.freeEdges; exact Does.pure _ h
  | [_], h => by unfold freeEdges CRU.Path.freeEdges; exact Does.pure _ h
  | a :: b :: l, h => by
    unfold freeEdges CRU.Path.freeEdges
    refine (askValid_does hP a b h).step fun h' _ => ?_
    split
    · exact (freeEdges_does (b :: l) h').step fun h'' _ => Does.pure _ h''
    · exact Does.pure _ h'

theorem percentFree_does (path : List C) (h : Hist C ε) : Does 0 (percentFree fl F path) h (.ok (CRU.Path.percentFree fl cfg.valid path)) := by
  match path with
  | [] => exact Does.pure _ h
  | [a] => exact (askValid_does hP a a h).step fun h' _ => Does.pure _ h'
  | a :: b :: l => exact (freeEdges_does hP (a :: b :: l) h).step fun h' _ => Does.pure _ h'

theorem interps_does (a b : C) (n : Nat) : ∀ (ks : List Nat) (h : Hist C ε),
    Does 0 (interps fl F a b n ks) h (.ok (ks.map fun k : Nat => cfg.interp a b (fl ((k : ℚ) / (n : ℚ)))))
  | [], h => by unfold interps; exact Does.pure _ h
  | k :: ks, h => by
    unfold interps
    exact (askInterp_does hP a b _ h).step fun h' _ => (interps_does a b n ks h').step fun h'' _ => Does.pure _ h''

theorem inserted_does (a b : C) (h : Hist C ε) :
    Does 0 (inserted fl ⟨cfg.interval, cfg.check⟩ F a b) h (CRU.Path.inserted fl cfg a b) := by
  unfold inserted CRU.Path.inserted
  split
  · refine (askDist_does hP a b h).step fun h' _ => (Does.lib _ h').bind0 fun n h'' _ _ => interps_does hP a b n _ h''
  · exact Does.pure _ h

theorem direct_does (a b : C) (h : Hist C ε) :
    Does 0 (direct fl ⟨cfg.interval, cfg.check⟩ F a b) h (CRU.Path.direct fl cfg a b) := by
  unfold direct CRU.Path.direct
  refine (askValid_does hP a b h).step fun h' _ => ?_
  split
  · refine (inserted_does hP a b h').bind0 fun mid h'' _ _ => ?_
    dsimp only
    split
    · exact Does.pure _ h''
    · refine (percentFree_does hP _ h'').step fun h3 _ => ?_
      split
      · exact Does.pure _ h3
      · exact Does.pure _ h3
  · exact Does.pure _ h'

theorem attempt_does (path : List C) : ∀ (steps s e : Nat) (h : Hist C ε),
    Does 0 (attempt fl ⟨cfg.interval, cfg.check⟩ F path steps s e) h (CRU.Path.attempt fl cfg path steps s e) := by
  intro steps
  induction steps with
  | zero =>
    intro s e h
    unfold attempt CRU.Path.attempt
    split
    · exact Does.lib _ h
    · refine (Does.lib _ h).bind0 fun a h1 _ _ => (Does.lib _ h1).bind0 fun b h2 _ _ => (direct_does hP a b h2).bind0 fun d h3 _ _ => ?_
      cases d <;> exact Does.pure _ h3
  | succ n ih =>
    intro s e h
    unfold attempt CRU.Path.attempt
    split
    · exact Does.lib _ h
    · refine (Does.lib _ h).bind0 fun a h1 _ _ => (Does.lib _ h1).bind0 fun b h2 _ _ => (direct_does hP a b h2).bind0 fun d h3 _ _ => ?_
      cases d with
      | some r => exact Does.pure _ h3
      | none =>
        dsimp only
        split
        · exact (ih _ _ h3).bind0 fun f h4 _ _ => (ih _ _ h4).bind0 fun g h5 _ _ => Does.pure _ h5
        · exact Does.pure _ h3

theorem askDraw_does (h : Hist C ε) (k : Nat) :
    (draws h = 2 * k → Does 1 (askDraw F) h (.ok (us k).1)) ∧ (draws h = 2 * k + 1 → Does 1 (askDraw F) h (.ok (us k).2)) := by
  refine ⟨fun hd => ?_, fun hd => ?_⟩
  · unfold Does askDraw ask
    rw [(hP.draw h k).1 hd]
    exact ⟨rfl, fun _ _ => by rw [draws_append]; rfl⟩
  · unfold Does askDraw ask
    rw [(hP.draw h k).2 hd]
    exact ⟨rfl, fun _ _ => by rw [draws_append]; rfl⟩

theorem window_does (f : ℚ) (n k : Nat) (h : Hist C ε) (hd : draws h = 2 * k) :
    Does 2 (window fl F f n) h (CRU.Path.window fl f (us k) n) := by
  unfold window CRU.Path.window
  refine (Does.lib _ h).bind0 fun sz h1 _ d1 => ?_
  have key : ∀ {m : Run C ε ℚ} {u : ℚ} {γ : Type} {g : ℚ → Run C ε γ} {r : Res γ} {h0 : Hist C ε} {q : Nat}, Does 1 m h0 (.ok u) →
      (∀ h', draws h' = draws h0 + 1 → Does q (g u) h' r) → Does (1 + q) (m >>= g) h0 r := by
    intro m u γ g r h0 q h2 h3
    have := h2.bind (k := q) (f := g) (g := fun _ => r) (fun b h' hb hd => by cases hb; exact h3 h' hd)
    exact this
  refine key (q := 1) ((askDraw_does hP h1 k).1 (by omega)) fun h2 d2 => ?_
  refine (Does.lib _ h2).bind0 (k := 1) fun base h3 _ d3 => ?_
  refine key (q := 0) ((askDraw_does hP h3 k).2 (by omega)) fun h4 d4 => ?_
  refine (Does.lib _ h4).bind0 fun off h5 _ _ => (Does.lib _ h5).bind0 fun st h6 _ _ => ?_
  exact (Does.lib _ h6).bind0 fun idx h7 _ _ => (Does.lib _ h7).bind0 fun sf h8 _ _ => Does.pure _ h8

theorem loop_does (maxFailed steps : Nat) (f : ℚ) : ∀ (n k : Nat) (r : Report C) (h : Hist C ε), draws h = 2 * k →
    (loop fl ⟨cfg.interval, cfg.check⟩ F maxFailed steps f n r h).1 = outcome (CRU.Path.loop fl cfg maxFailed steps f us n k r) := by
  have step : ∀ {α β : Type} {m : Run C ε α} {g : α → Run C ε β} {x : Res α} {y : α → Res β} {q : Nat} {h : Hist C ε}, Does q m h x →
      (∀ a h', x = .ok a → draws h' = draws h + q → (g a h').1 = outcome (y a)) → ((m >>= g) h).1 = outcome (x >>= y) := by
    intro α β m g x y q h h1 h2
    change (seq m g h).1 = _
    obtain ⟨h3, h4⟩ := h1
    unfold seq
    cases x with
    | ok a =>
      have h5 := h4 a rfl
      split
      · next b h' heq =>
        rw [heq] at h3 h5
        simp only [outcome, Except.ok.injEq] at h3
        subst h3
        exact h2 b h' rfl h5
      · next z h' heq => rw [heq] at h3; simp [outcome] at h3
    | throw z =>
      split
      · next b h' heq => rw [heq] at h3; simp [outcome] at h3
      · next w h' heq =>
        rw [heq] at h3
        simp only [outcome, Except.error.injEq] at h3
        subst h3
        rfl
    | ub =>
      split
      · next b h' heq => rw [heq] at h3; simp [outcome] at h3
      · next w h' heq =>
        rw [heq] at h3
        simp only [outcome, Except.error.injEq] at h3
        subst h3
        rfl
  intro n
  induction n with
  | zero => intro k r h _; rfl
  | succ n ih =>
    intro k r h hd
    unfold loop CRU.Path.loop
    split
    · refine step (window_does hP f _ k h hd) fun w h1 _ d1 => ?_
      dsimp only
      split
      · exact ih (k + 1) r h1 (by omega)
      · refine step (attempt_does hP _ _ _ _ h1) fun sc h2 _ d2 => ?_
        split
        · exact ih (k + 1) _ h2 (by omega)
        · exact ih (k + 1) _ h2 (by omega)
    · rfl

theorem segment_does (d : ℚ) (a b : C) (h : Hist C ε) :
    Does 0 (segment fl F d a b) h (CRU.Path.segment fl cfg.dist cfg.interp d a b) := by
  unfold segment CRU.Path.segment
  refine (askDist_does hP a b h).step fun h1 _ => (Does.lib _ h1).bind0 fun n h2 _ _ => ?_
  split
  · exact Does.pure _ h2
  · split
    · exact Does.pure _ h2
    · exact interps_does hP a b n _ h2

theorem resampleFrom_does (d : ℚ) : ∀ (l : List C) (a : C) (acc : List C) (h : Hist C ε),
    Does 0 (resampleFrom fl F d a l acc) h (CRU.Path.resampleFrom fl cfg.dist cfg.interp d a l acc)
  | [], a, acc, h => by unfold resampleFrom CRU.Path.resampleFrom; exact Does.pure _ h
  | b :: l, a, acc, h => by
    unfold resampleFrom CRU.Path.resampleFrom
    exact (segment_does hP d a b h).bind0 fun s h1 _ _ => resampleFrom_does d l b _ h1

/-- C109. Callbacks without state that do not throw: `ShortcutSmoothPath` and `ResamplePath` end as the functions C34 and C35 speak
about do. -/
theorem C109_pure (maxIter maxFailed steps : Nat) (f : ℚ) (path : List C) :
    (smooth fl ⟨cfg.interval, cfg.check⟩ F maxIter maxFailed steps f path).1 =
      outcome (CRU.Path.smooth fl cfg maxIter maxFailed steps f us path) ∧
    (∀ steps s e, (attempt fl ⟨cfg.interval, cfg.check⟩ F path steps s e []).1 = outcome (CRU.Path.attempt fl cfg path steps s e)) ∧
    (percentFree fl F path []).1 = .ok (CRU.Path.percentFree fl cfg.valid path) ∧
    ∀ d, (resample fl F d path).1 = outcome (CRU.Path.resample fl cfg.dist cfg.interp d path) := by
  refine ⟨loop_does hP maxFailed steps f maxIter 0 _ [] rfl, fun steps s e => (attempt_does hP path steps s e []).1,
    (percentFree_does hP path []).1, fun d => ?_⟩
  match path with
  | [] => rfl
  | [a] => rfl
  | a :: b :: l =>
    rw [resample_cons, CRU.Path.resample_cons]
    split
    · rfl
    · exact (resampleFrom_does hP d (b :: l) a [a] []).1

end

/-! ### Examples -/

/-- The check throws when it is called for the second time; numbers are drawn from `us`. -/
def secondThrows (us : Nat → ℚ × ℚ) : Fns Nat String where
  valid h _ _ := if h.any (fun e => match e with | .valid .. => true | _ => false) then .error "enough" else .ok false
  dist _ _ _ := .ok 1
  interp _ a _ _ := .ok a
  draw h := .ok (if draws h % 2 = 0 then (us (draws h / 2)).1 else (us (draws h / 2)).2)

/-- An exception of the check, in the second of two halves. -/
example : attempt (fun x => x) ⟨0, true⟩ (secondThrows wholeDraws) [0, 1, 2] 1 0 2 [] =
    (.error (.user "enough"), [.valid 0 2 (.ok false), .valid 0 1 (.error "enough")]) := by
  simp [attempt, lib, atRaw, ret, direct, askValid, ask, secondThrows, bind, seq, pure]

/-- A check that finds the first edge valid only the second time it is asked, and the whole only the first time. -/
def fickle : Fns Nat String where
  valid h a b := .ok (decide (b = a + 2) == h.isEmpty)
  dist _ _ _ := .ok 1
  interp _ a _ _ := .ok a
  draw _ := .ok 0

example : (attempt (fun x => x) ⟨0, true⟩ fickle [0, 1, 2] 1 0 2 [] = (.ok [0, 2], [.valid 0 2 (.ok true)])) := by
  simp [attempt, lib, atRaw, ret, direct, askValid, ask, fickle, bind, seq, pure, inserted]

theorem lib_bind {r : Res α} {a : α} (h : r = .ok a) (f : α → Run C ε β) : (lib r >>= f) = f a := by subst h; rfl

theorem ask_bind {g : Hist C ε → Except ε α} {ev : Except ε α → Event C ε} {h : Hist C ε} {a : α} (hg : g h = .ok a) (f : α → Run C ε β) :
    (ask g ev >>= f) h = f a (h ++ [ev (.ok a)]) := by
  change seq (ask g ev) f h = _
  unfold seq ask
  rw [hg]

theorem whole_window (h : Hist Nat String) (hd : draws h = 0) : window (fun x => x) (secondThrows wholeDraws) 1 3 h =
    (.ok (0, 2), h ++ [.draw (.ok 0), .draw (.ok (7 / 8))]) := by
  have d1 : draws (h ++ [Event.draw (.ok 0)] : Hist Nat String) = 1 := by rw [draws_append, hd]; rfl
  have c3 : (i64.cast ((3 : Nat) : Int)) = .ok 3 := by decide
  have r0 : randomIndex (fun x => x) i64 0 3 = .ok 0 := by
    unfold randomIndex
    norm_num
    decide
  have i0 : interpolate (fun x => x) (-1) 1 (7 / 8) = .ok (3 / 4) := by
    unfold interpolate clampValue
    norm_num
  have f0 : i64.cast ⌊((3 : Int) : ℚ) * (3 / 4)⌋ = .ok 2 := by
    have : ⌊((3 : Int) : ℚ) * (3 / 4)⌋ = 2 := by norm_num
    rw [this]
    decide
  have a0 : i64.arith (0 + 2) = .ok 2 := by decide
  have l0 : clampValue (2 : Int) 0 (3 - 1) = .ok 2 := by decide
  unfold window askDraw
  rw [lib_bind c3, ask_bind (a := 0) (by simp [secondThrows, hd, wholeDraws]), lib_bind r0,
    ask_bind (a := 7 / 8) (by simp [secondThrows, d1, wholeDraws]), lib_bind i0, lib_bind f0, lib_bind a0, lib_bind l0]
  simp [pure, ret]

/-- An exception of the check during smoothing: two numbers are drawn, the whole path and its first half are tried. -/
example : smooth (fun x => x) ⟨0, true⟩ (secondThrows wholeDraws) 5 5 1 1 [0, 1, 2] =
    (.error (.user "enough"), [.draw (.ok 0), .draw (.ok (7 / 8)), .valid 0 2 (.ok false), .valid 0 1 (.error "enough")]) := by
  have ha : attempt (fun x => x) ⟨0, true⟩ (secondThrows wholeDraws) [0, 1, 2] 1 0 2 [.draw (.ok 0), .draw (.ok (7 / 8))] =
      (.error (.user "enough"), [.draw (.ok 0), .draw (.ok (7 / 8)), .valid 0 2 (.ok false), .valid 0 1 (.error "enough")]) := by
    simp [attempt, lib, atRaw, ret, direct, askValid, ask, secondThrows, bind, seq, pure]
  have hb : ∀ {γ δ : Type} {m : Run Nat String γ} {g : γ → Run Nat String δ} {h h1 : Hist Nat String} {a : γ}, m h = (.ok a, h1) →
      (m >>= g) h = g a h1 := by
    intro γ δ m g h h1 a hm
    change seq m g h = _
    unfold seq
    rw [hm]
  have he : ∀ {γ δ : Type} {m : Run Nat String γ} {g : γ → Run Nat String δ} {h h1 : Hist Nat String} {x}, m h = (.error x, h1) →
      (m >>= g) h = (.error x, h1) := by
    intro γ δ m g h h1 x hm
    change seq m g h = _
    unfold seq
    rw [hm]
  unfold smooth loop
  rw [if_pos (by simp), hb (h1 := [.draw (.ok 0), .draw (.ok (7 / 8))]) (a := (0, 2)) (by exact whole_window [] rfl)]
  exact he ha

/-- Random numbers as they should be. -/
example : UnitFn (secondThrows wholeDraws) := by
  intro h u hu
  have := wholeDraws_unit (draws h / 2)
  simp only [secondThrows, Except.ok.injEq] at hu
  split at hu <;> rw [← hu]
  · exact this.1
  · exact this.2

/-- Callbacks without state. -/
example : Plain (ε := String) (C := Nat) ⟨fun _ a b => .ok (decide (b ≤ a + 2)), fun _ _ _ => .ok 1, fun _ a _ _ => .ok a,
    fun h => .ok (if draws h % 2 = 0 then (wholeDraws (draws h / 2)).1 else (wholeDraws (draws h / 2)).2)⟩
    ⟨0, true, fun a b => decide (b ≤ a + 2), fun _ _ => 1, fun a _ _ => a⟩ wholeDraws := by
  refine ⟨fun _ _ _ => rfl, fun _ _ _ => rfl, fun _ _ _ _ => rfl, fun h k => ⟨fun hd => ?_, fun hd => ?_⟩⟩
  · simp [hd]
  · have h1 : (2 * k + 1) / 2 = k := by omega
    have h2 : (2 * k + 1) % 2 = 1 := by omega
    simp [hd, h1, h2]

end CRU.Path.Throw
