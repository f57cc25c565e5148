import Verif.Path.ThrowProps
import Verif.Path.Resample
/-
  Path processing with callbacks that keep state and may throw: exceptions, the calls made, resampling, and the case of callbacks
  without state.
-/
namespace CRU.Path.Throw
open CRU.Util CRU.Fl

variable {C ε α β : Type} {F : Fns C ε} {fl : ℚ → ℚ} {par : Par}

/-! ### Exceptions -/

theorem clean_nil : Clean ([] : Hist C ε) := by intro e he; cases he

theorem genuine_nil : Genuine F ([] : Hist C ε) := by
  intro l e r h
  simp at h

theorem resample_cons (fl : ℚ → ℚ) (F : Fns C ε) (d : ℚ) (a b : C) (l : List C) : resample fl F d (a :: b :: l) =
    if d ≤ 0 then (.error (.lib .invalidArgument), []) else resampleFrom fl F d a (b :: l) [a] [] := rfl

/-- C109. Exceptions: what a callback throws is what the caller gets, no callback is called after it, and no other exception of a
user-supplied function comes out; for `ShortcutSmoothPath`, `AttemptShortcut`, `ComputePercentCollisionFree` and `ResamplePath`. The
list of calls is a true record of the answers. -/
theorem C109_exceptions (fl : ℚ → ℚ) (par : Par) (F : Fns C ε) (path : List C) :
    (∀ maxIter maxFailed steps f, Fits (smooth fl par F maxIter maxFailed steps f path).1 (smooth fl par F maxIter maxFailed steps f path).2 ∧
      Genuine F (smooth fl par F maxIter maxFailed steps f path).2) ∧
    (∀ steps s e, Fits (attempt fl par F path steps s e []).1 (attempt fl par F path steps s e []).2 ∧
      Genuine F (attempt fl par F path steps s e []).2) ∧
    (Fits (percentFree fl F path []).1 (percentFree fl F path []).2 ∧ Genuine F (percentFree fl F path []).2) ∧
    (∀ d, Fits (resample fl F d path).1 (resample fl F d path).2 ∧ Genuine F (resample fl F d path).2) := by
  refine ⟨fun maxIter maxFailed steps f => ?_, fun steps s e => ?_, ?_, fun d => ?_⟩
  · have hb : Built F True (loop fl par F maxFailed steps f maxIter ⟨path, 0, 0⟩) := loop_built fl par maxFailed steps f maxIter _
    exact ⟨hb.fits [] clean_nil, hb.genuine [] genuine_nil⟩
  · have hb : Built F True (attempt fl par F path steps s e) := attempt_built fl par path steps s e
    exact ⟨hb.fits [] clean_nil, hb.genuine [] genuine_nil⟩
  · have hb : Built F True (percentFree fl F path) := percentFree_built fl path
    exact ⟨hb.fits [] clean_nil, hb.genuine [] genuine_nil⟩
  · match path with
    | [] => exact ⟨Or.inr ⟨by simp [resample], clean_nil⟩, genuine_nil⟩
    | [a] => exact ⟨Or.inr ⟨by simp [resample], clean_nil⟩, genuine_nil⟩
    | a :: b :: l =>
      rw [resample_cons]
      split
      · exact ⟨Or.inr ⟨by simp, clean_nil⟩, genuine_nil⟩
      · have hb : Built F True (resampleFrom fl F d a (b :: l) [a]) := resampleFrom_built fl d _ _ _
        exact ⟨hb.fits [] clean_nil, hb.genuine [] genuine_nil⟩

/-! ### Number of calls -/

theorem draws_append (h t : Hist C ε) : draws (h ++ t) = draws h + draws t := by unfold draws; exact List.countP_append

/-- What is left of a run of `m` from `h`: the calls it adds. -/
theorem window_draws (f : ℚ) (n : Nat) (h : Hist C ε) : draws (window fl F f n h).2 ≤ draws h + 2 ∧ (window fl F f n h).2.length ≤ h.length + 2 := by
  have lib2 : ∀ {γ : Type} (r : Res γ) (k : γ → Run C ε (Int × Int)) (h0 : Hist C ε) (q : Nat) (z : Nat), draws h0 ≤ q → h0.length ≤ z →
      (∀ a, draws (k a h0).2 ≤ q ∧ (k a h0).2.length ≤ z) → draws ((lib r >>= k) h0).2 ≤ q ∧ ((lib r >>= k) h0).2.length ≤ z := by
    intro γ r k h0 q z hq hz hk
    cases r with
    | ok a => exact hk a
    | throw x => exact ⟨hq, hz⟩
    | ub => exact ⟨hq, hz⟩
  have ask2 : ∀ (k : ℚ → Run C ε (Int × Int)) (h0 : Hist C ε) (q z : Nat), draws h0 + 1 ≤ q → h0.length + 1 ≤ z →
      (∀ a h1, draws h1 = draws h0 + 1 → h1.length = h0.length + 1 → draws (k a h1).2 ≤ q ∧ (k a h1).2.length ≤ z) →
      draws ((askDraw F >>= k) h0).2 ≤ q ∧ ((askDraw F >>= k) h0).2.length ≤ z := by
    intro k h0 q z hq hz hk
    change draws (seq (askDraw F) k h0).2 ≤ q ∧ (seq (askDraw F) k h0).2.length ≤ z
    unfold seq askDraw ask
    cases hF : F.draw h0 with
    | ok a => exact hk a _ (by rw [draws_append]; rfl) (by simp)
    | error x => exact ⟨by rw [draws_append]; exact hq, by simp; exact hz⟩
  unfold window
  refine lib2 _ _ h _ _ (by omega) (by omega) fun sz => ask2 _ h _ _ (by omega) (by omega) fun u1 h1 e1 l1 => ?_
  refine lib2 _ _ h1 _ _ (by omega) (by omega) fun bs => ask2 _ h1 _ _ (by omega) (by omega) fun u2 h2 e2 l2 => ?_
  refine lib2 _ _ h2 _ _ (by omega) (by omega) fun _ => lib2 _ _ h2 _ _ (by omega) (by omega) fun _ => ?_
  refine lib2 _ _ h2 _ _ (by omega) (by omega) fun _ => lib2 _ _ h2 _ _ (by omega) (by omega) fun _ => ?_
  exact ⟨by show draws h2 ≤ _; omega, by show h2.length ≤ _; omega⟩

/-- A run of a composition ends with the calls of the first part or of the second one. -/
theorem seq_hist {m : Run C ε α} {f : α → Run C ε β} (h : Hist C ε) {P : Hist C ε → Prop} (h1 : P (m h).2)
    (h2 : ∀ a h1, m h = (.ok a, h1) → P h1 → P (f a h1).2) : P ((m >>= f) h).2 := by
  change P (seq m f h).2
  unfold seq
  split
  · next a h3 heq => rw [heq] at h1; exact h2 a h3 heq h1
  · next x h3 heq => rw [heq] at h1; exact h1

theorem lib_hist (r : Res α) (h : Hist C ε) : (lib r h : Except (Fail ε) α × Hist C ε).2 = h := by cases r <;> rfl

theorem ask_length (f : Hist C ε → Except ε α) (ev : Except ε α → Event C ε) (h : Hist C ε) : (ask f ev h).2.length = h.length + 1 := by
  unfold ask
  split <;> simp

theorem loop_draws (maxFailed steps : Nat) (f : ℚ) : ∀ (n : Nat) (r : Report C) (h : Hist C ε),
    draws (loop fl par F maxFailed steps f n r h).2 ≤ draws h + 2 * n := by
  intro n
  induction n with
  | zero => intro r h; exact Nat.le_refl _
  | succ n ih =>
    intro r h
    unfold loop
    split
    · refine seq_hist (P := fun h' => draws h' ≤ draws h + 2 * (n + 1)) h ?_ fun w h1 hw _ => ?_
      · have := (window_draws (fl := fl) (F := F) f r.path.length h).1
        omega
      · have h2 := (window_draws (fl := fl) (F := F) f r.path.length h).1
        rw [hw] at h2
        dsimp only at h2 ⊢
        split
        · have := ih r h1
          omega
        · have h3 : draws (attempt fl par F r.path steps (min w.1 w.2).toNat (max w.1 w.2).toNat h1).2 = draws h1 :=
            (attempt_built fl par r.path steps _ _).draws h1
          refine seq_hist (P := fun h' => draws h' ≤ draws h + 2 * (n + 1)) h1 (by omega) fun sc h4 hsc _ => ?_
          rw [hsc] at h3
          dsimp only at h3
          split
          · have := ih ⟨slice r.path 0 (min w.1 w.2).toNat ++ sc ++ slice r.path ((max w.1 w.2).toNat + 1) r.path.length, r.attempts + 1, r.failed⟩ h4
            omega
          · have := ih ⟨r.path, r.attempts + 1, r.failed + 1⟩ h4
            omega
    · show draws h ≤ _
      omega

theorem direct_calls (hi : par.interval ≤ 0) (a b : C) (h : Hist C ε) : (direct fl par F a b h).2.length = h.length + 1 := by
  unfold direct
  refine seq_hist (P := fun h' => h'.length = h.length + 1) h (ask_length _ _ h) fun v h1 hv hl => ?_
  split
  · refine seq_hist (P := fun h' => h'.length = h.length + 1) h1 ?_ fun mid h2 hm hl2 => ?_
    · unfold inserted
      rw [if_neg (not_lt.mpr hi)]
      exact hl
    · have h0 := (inserted_length hm).2 hi
      subst h0
      rw [if_pos (Or.inl (by simp))]
      exact hl2
  · exact hl

theorem attempt_calls (hi : par.interval ≤ 0) (path : List C) : ∀ (steps s e : Nat) (h : Hist C ε),
    (attempt fl par F path steps s e h).2.length + 1 ≤ h.length + 2 ^ (steps + 1) := by
  intro steps
  induction steps with
  | zero =>
    intro s e h
    unfold attempt
    split
    · simp [lib]
    · refine seq_hist (P := fun h' => h'.length + 1 ≤ h.length + 2 ^ (0 + 1)) h (by rw [lib_hist]; omega) fun a h1 h2 _ => ?_
      obtain ⟨-, rfl⟩ := lib_ok h2
      refine seq_hist (P := fun h' => h'.length + 1 ≤ h1.length + 2 ^ (0 + 1)) h1 (by rw [lib_hist]; omega) fun b h3 h4 _ => ?_
      obtain ⟨-, rfl⟩ := lib_ok h4
      refine seq_hist (P := fun h' => h'.length + 1 ≤ h3.length + 2 ^ (0 + 1)) h3 (by rw [direct_calls hi]; omega) fun d h5 h6 hl => ?_
      cases d <;> exact hl
  | succ n ih =>
    intro s e h
    have hpos : 0 < 2 ^ (n + 1) := Nat.pow_pos (by omega)
    have hpow : 2 ^ (n + 1 + 1) = 2 * 2 ^ (n + 1) := by rw [pow_succ]; omega
    unfold attempt
    split
    · simp [lib]; omega
    · refine seq_hist (P := fun h' => h'.length + 1 ≤ h.length + 2 ^ (n + 1 + 1)) h (by rw [lib_hist]; omega) fun a h1 h2 _ => ?_
      obtain ⟨-, rfl⟩ := lib_ok h2
      refine seq_hist (P := fun h' => h'.length + 1 ≤ h1.length + 2 ^ (n + 1 + 1)) h1 (by rw [lib_hist]; omega) fun b h3 h4 _ => ?_
      obtain ⟨-, rfl⟩ := lib_ok h4
      refine seq_hist (P := fun h' => h'.length + 1 ≤ h3.length + 2 ^ (n + 1 + 1)) h3 (by rw [direct_calls hi]; omega) fun d h5 h6 hl => ?_
      have hd : h5.length = h3.length + 1 := by
        have := direct_calls (fl := fl) (par := par) (F := F) hi a b h3
        rw [h6] at this
        exact this
      cases d with
      | some r => exact hl
      | none =>
        dsimp only
        split
        · have i1 := ih s (s + (e - s) / 2) h5
          refine seq_hist (P := fun h' => h'.length + 1 ≤ h3.length + 2 ^ (n + 1 + 1)) h5 (by omega) fun g h7 h8 _ => ?_
          rw [h8] at i1
          dsimp only at i1
          have i2 := ih (s + (e - s) / 2) e h7
          refine seq_hist (P := fun h' => h'.length + 1 ≤ h3.length + 2 ^ (n + 1 + 1)) h7 (by omega) fun g' h9 h10 hl' => ?_
          exact hl'
        · exact hl

theorem loop_calls (hi : par.interval ≤ 0) (maxFailed steps : Nat) (f : ℚ) : ∀ (n : Nat) (r : Report C) (h : Hist C ε),
    (loop fl par F maxFailed steps f n r h).2.length ≤ h.length + n * (2 ^ (steps + 1) + 1) := by
  intro n
  induction n with
  | zero => intro r h; simp [loop, Pure.pure, ret]
  | succ n ih =>
    intro r h
    have hpos : 0 < 2 ^ (steps + 1) := Nat.pow_pos (by omega)
    have hmul : (n + 1) * (2 ^ (steps + 1) + 1) = n * (2 ^ (steps + 1) + 1) + (2 ^ (steps + 1) + 1) := by rw [Nat.succ_mul]
    unfold loop
    split
    · refine seq_hist (P := fun h' => h'.length ≤ h.length + (n + 1) * (2 ^ (steps + 1) + 1)) h ?_ fun w h1 hw _ => ?_
      · have := (window_draws (fl := fl) (F := F) f r.path.length h).2
        omega
      · have h2 := (window_draws (fl := fl) (F := F) f r.path.length h).2
        rw [hw] at h2
        dsimp only at h2 ⊢
        split
        · have := ih r h1
          omega
        · have h3 := attempt_calls (fl := fl) (F := F) hi r.path steps (min w.1 w.2).toNat (max w.1 w.2).toNat h1
          refine seq_hist (P := fun h' => h'.length ≤ h.length + (n + 1) * (2 ^ (steps + 1) + 1)) h1 (by omega) fun sc h4 hsc _ => ?_
          rw [hsc] at h3
          dsimp only at h3
          split
          · have := ih ⟨slice r.path 0 (min w.1 w.2).toNat ++ sc ++ slice r.path ((max w.1 w.2).toNat + 1) r.path.length, r.attempts + 1, r.failed⟩ h4
            omega
          · have := ih ⟨r.path, r.attempts + 1, r.failed + 1⟩ h4
            omega
    · show h.length ≤ _
      omega

/-- C109. How often the callbacks are called, whatever they answer and however the run ends: `ShortcutSmoothPath` draws at most two
random numbers per iteration; without resampling it makes at most `2 ^ (max_backtracking_steps + 1) + 1` calls per iteration. -/
theorem C109_calls (fl : ℚ → ℚ) (par : Par) (F : Fns C ε) (maxIter maxFailed steps : Nat) (f : ℚ) (path : List C) :
    draws (smooth fl par F maxIter maxFailed steps f path).2 ≤ 2 * maxIter ∧
    (par.interval ≤ 0 → (smooth fl par F maxIter maxFailed steps f path).2.length ≤ maxIter * (2 ^ (steps + 1) + 1)) := by
  refine ⟨?_, fun hi => ?_⟩
  · have := loop_draws (fl := fl) (par := par) (F := F) maxFailed steps f maxIter ⟨path, 0, 0⟩ []
    simpa [draws, smooth] using this
  · simpa [smooth] using loop_calls (fl := fl) (F := F) hi maxFailed steps f maxIter ⟨path, 0, 0⟩ []

/-- C109. `ComputePercentCollisionFree`: the edges are asked for one by one from the first one on, and no further once one is not
valid; the answer is the rounded fraction of those found valid. -/
theorem C109_percent_free (hfl : Nearest 53 (-1074) fl) (path : List C) (h2 : 2 ≤ path.length) (hl : path.length ≤ 2 ^ 52) (p : ℚ)
    (h : Hist C ε) (hr : percentFree fl F path [] = (.ok p, h)) :
    ∃ n ≤ path.length - 1, p = fl ((n : ℚ) / ((path.length - 1 : Nat) : ℚ)) ∧ (p = 1 ↔ n = path.length - 1) ∧
      h = ((edges path).take n).map (fun q => Event.valid q.1 q.2 (.ok true)) ++
        ((edges path)[n]?.toList.map fun q => Event.valid q.1 q.2 (.ok false)) := by
  match path, h2 with
  | a :: b :: l, _ =>
    unfold percentFree at hr
    obtain ⟨n, h1, hn, hr⟩ := seq_ok hr
    obtain ⟨h3, rest, h4, h5, h6⟩ := freeEdges_calls _ _ _ _ hn
    obtain ⟨h7, rfl⟩ := pure_eq hr
    have hle : (a :: b :: l).length - 1 ≤ 2 ^ 52 := by omega
    rw [fl_nat hfl (n := n) (by omega), fl_nat hfl (n := (a :: b :: l).length - 1) (by omega)] at h7
    refine ⟨n, h3, h7, by rw [h7]; exact fl_quotient_eq_one hfl h3 hle (by simp), ?_⟩
    rw [h4, List.nil_append]
    congr 1
    cases hq : (edges (a :: b :: l))[n]? with
    | none =>
      rw [List.getElem?_eq_none_iff, edges_length] at hq
      rw [h5 (by rw [edges_length]; omega)]
      rfl
    | some q => rw [h6 q hq]; rfl

/-! ### What the callbacks are asked about -/

/-- A state of the given path, or one that the interpolation function has given. -/
def Known (path : List C) (h : Hist C ε) (x : C) : Prop := x ∈ path ∨ ∃ a b t, Event.interp a b t (.ok x) ∈ h

/-- The callbacks were only asked about known states. -/
def Asked (path : List C) (h : Hist C ε) : Prop := ∀ e ∈ h, ∀ x ∈ e.args, Known path h x

section
variable {given : List C}

theorem Known.mono {h h' : Hist C ε} {x : C} (hk : Known given h x) (hp : h <+: h') : Known given h' x := by
  rcases hk with hk | ⟨a, b, t, hk⟩
  · exact Or.inl hk
  · exact Or.inr ⟨a, b, t, hp.subset hk⟩

theorem ask_asked {f : Hist C ε → Except ε α} {ev : Except ε α → Event C ε} {h : Hist C ε} (ha : Asked given h)
    (hk : ∀ r, ∀ x ∈ (ev r).args, Known given h x) : Asked given (ask f ev h).2 := by
  have : ∃ r, (ask f ev h).2 = h ++ [ev r] := by
    unfold ask
    split
    · exact ⟨_, rfl⟩
    · exact ⟨_, rfl⟩
  obtain ⟨r, hr⟩ := this
  rw [hr]
  intro e he x hx
  rcases List.mem_append.mp he with he | he
  · exact (ha e he x hx).mono (List.prefix_append _ _)
  · rw [List.mem_singleton.mp he] at hx
    exact (hk r x hx).mono (List.prefix_append _ _)

theorem askValid_asked {h : Hist C ε} (ha : Asked given h) {a b : C} (h1 : Known given h a) (h2 : Known given h b) :
    Asked given (askValid F a b h).2 :=
  ask_asked ha (by intro r x hx; simp [Event.args] at hx; rcases hx with rfl | rfl <;> assumption)

theorem askDist_asked {h : Hist C ε} (ha : Asked given h) {a b : C} (h1 : Known given h a) (h2 : Known given h b) :
    Asked given (askDist F a b h).2 :=
  ask_asked ha (by intro r x hx; simp [Event.args] at hx; rcases hx with rfl | rfl <;> assumption)

theorem askInterp_asked {h : Hist C ε} (ha : Asked given h) {a b : C} {t : ℚ} (h1 : Known given h a) (h2 : Known given h b) :
    Asked given (askInterp F a b t h).2 :=
  ask_asked ha (by intro r x hx; simp [Event.args] at hx; rcases hx with rfl | rfl <;> assumption)

/-- A run keeps to known states, and its result `Q`. -/
def Keeps (given : List C) (m : Run C ε α) (h : Hist C ε) (Q : α → Hist C ε → Prop) : Prop :=
  Asked given (m h).2 ∧ ∀ a, (m h).1 = .ok a → Q a (m h).2

theorem Keeps.bind {m : Run C ε α} {f : α → Run C ε β} {h : Hist C ε} {Q : α → Hist C ε → Prop} {R : β → Hist C ε → Prop}
    (hb : Built F True m) (h1 : Keeps given m h Q) (h2 : ∀ a h', h <+: h' → Asked given h' → Q a h' → Keeps given (f a) h' R) :
    Keeps given (m >>= f) h R := by
  unfold Keeps
  change Asked given (seq m f h).2 ∧ ∀ a, (seq m f h).1 = .ok a → R a (seq m f h).2
  have hp := hb.grows h
  unfold seq
  obtain ⟨h3, h4⟩ := h1
  split
  · next a h5 heq =>
    rw [heq] at h3 h4 hp
    exact h2 a h5 hp h3 (h4 a rfl)
  · next x h5 heq =>
    rw [heq] at h3
    exact ⟨h3, by simp⟩

theorem Keeps.lib (r : Res α) {h : Hist C ε} (ha : Asked given h) : Keeps given (lib r) h (fun a _ => r = .ok a) := by
  refine ⟨by rw [lib_hist]; exact ha, ?_⟩
  cases r <;> simp [Throw.lib, ret]

theorem Keeps.pure {a : α} {h : Hist C ε} {Q : α → Hist C ε → Prop} (ha : Asked given h) (hq : Q a h) :
    Keeps given (Pure.pure a : Run C ε α) h Q := ⟨ha, by
  intro b hb
  have : a = b := by simpa [Pure.pure, ret] using hb
  subst this
  exact hq⟩

theorem Keeps.weaken {m : Run C ε α} {h : Hist C ε} {Q R : α → Hist C ε → Prop} (hk : Keeps given m h Q) (hw : ∀ a h', Q a h' → R a h') :
    Keeps given m h R := ⟨hk.1, fun a ha => hw _ _ (hk.2 a ha)⟩

theorem freeEdges_keeps : ∀ (l : List C) (h : Hist C ε), Asked given h → (∀ x ∈ l, Known given h x) →
    Keeps given (freeEdges F l) h (fun _ _ => True)
  | [], h, ha, _ => by unfold freeEdges; exact Keeps.pure ha trivial
  | [_], h, ha, _ => by unfold freeEdges; exact Keeps.pure ha trivial
  | a :: b :: l, h, ha, hk => by
    unfold freeEdges
    refine Keeps.bind (Q := fun _ _ => True) (F := F) (Built.valid a b) ⟨askValid_asked ha (hk a (by simp)) (hk b (by simp)), fun _ _ => trivial⟩ fun v h1 hp ha1 _ => ?_
    split
    · refine Keeps.bind (Q := fun _ _ => True) (F := F) (freeEdges_built _) (freeEdges_keeps (b :: l) h1 ha1 fun x hx => (hk x (by simp at hx ⊢; tauto)).mono hp)
        fun n h2 _ ha2 _ => Keeps.pure ha2 trivial
    · exact Keeps.pure ha1 trivial

theorem percentFree_keeps (path : List C) (h : Hist C ε) (ha : Asked given h) (hk : ∀ x ∈ path, Known given h x) :
    Keeps given (percentFree fl F path) h (fun _ _ => True) := by
  unfold percentFree
  split
  · exact Keeps.pure ha trivial
  · next a =>
    exact Keeps.bind (Q := fun _ _ => True) (F := F) (Built.valid a a) ⟨askValid_asked ha (hk a (by simp)) (hk a (by simp)), fun _ _ => trivial⟩
      fun v h1 _ ha1 _ => Keeps.pure ha1 trivial
  · exact Keeps.bind (Q := fun _ _ => True) (F := F) (freeEdges_built _) (freeEdges_keeps _ h ha hk) fun n h1 _ ha1 _ => Keeps.pure ha1 trivial

theorem interps_keeps {a b : C} {n : Nat} : ∀ (ks : List Nat) (h : Hist C ε), Asked given h → Known given h a → Known given h b →
    Keeps given (interps fl F a b n ks) h (fun l h' => ∀ x ∈ l, Known given h' x)
  | [], h, ha, _, _ => by unfold interps; exact Keeps.pure ha (by simp)
  | k :: ks, h, ha, h1, h2 => by
    unfold interps
    refine Keeps.bind (F := F) (Built.interp a b _) (Q := fun x h' => Known given h' x) ⟨askInterp_asked ha h1 h2, ?_⟩ fun x h3 hp ha3 hx => ?_
    · intro x hx
      have : ∃ h', askInterp F a b (fl ((k : ℚ) / (n : ℚ))) h = (.ok x, h') := ⟨_, by rw [← hx]⟩
      obtain ⟨h', hh⟩ := this
      obtain ⟨_, h4⟩ := ask_ok hh
      rw [hh]
      exact Or.inr ⟨a, b, fl ((k : ℚ) / (n : ℚ)), by rw [h4]; simp⟩
    · refine Keeps.bind (F := F) (interps_built fl a b n ks) (interps_keeps ks h3 ha3 (h1.mono hp) (h2.mono hp)) fun l h4 hp4 ha4 hl => Keeps.pure ha4 ?_
      intro y hy
      rcases List.mem_cons.mp hy with rfl | hy
      · exact hx.mono hp4
      · exact hl y hy

theorem inserted_keeps {a b : C} (h : Hist C ε) (ha : Asked given h) (h1 : Known given h a) (h2 : Known given h b) :
    Keeps given (inserted fl par F a b) h (fun l h' => ∀ x ∈ l, Known given h' x) := by
  unfold inserted
  split
  · refine Keeps.bind (Q := fun _ _ => True) (F := F) (Built.dist a b) ⟨askDist_asked ha h1 h2, fun _ _ => trivial⟩ fun x h3 hp ha3 _ => ?_
    refine Keeps.bind (Q := fun _ _ => True) (F := F) (Built.lib _) ((Keeps.lib _ ha3).weaken fun _ _ _ => trivial) fun n h4 hp4 ha4 _ => ?_
    exact interps_keeps _ h4 ha4 ((h1.mono hp).mono hp4) ((h2.mono hp).mono hp4)
  · exact Keeps.pure ha (by simp)

theorem direct_keeps {a b : C} (h : Hist C ε) (ha : Asked given h) (h1 : Known given h a) (h2 : Known given h b) :
    Keeps given (direct fl par F a b) h (fun o h' => ∀ r, o = some r → ∀ x ∈ r, Known given h' x) := by
  unfold direct
  refine Keeps.bind (Q := fun _ _ => True) (F := F) (Built.valid a b) ⟨askValid_asked ha h1 h2, fun _ _ => trivial⟩ fun v h3 hp ha3 _ => ?_
  split
  · refine Keeps.bind (F := F) (inserted_built fl par a b) (inserted_keeps h3 ha3 (h1.mono hp) (h2.mono hp)) fun mid h4 hp4 ha4 hm => ?_
    have hall : ∀ x ∈ [a] ++ mid ++ [b], Known given h4 x := by
      intro x hx
      simp only [List.mem_append, List.mem_singleton] at hx
      rcases hx with (rfl | hx) | rfl
      · exact (h1.mono hp).mono hp4
      · exact hm x hx
      · exact (h2.mono hp).mono hp4
    split
    · refine Keeps.pure ha4 ?_
      rintro r ⟨⟩ x hx
      exact hall x hx
    · refine Keeps.bind (Q := fun _ _ => True) (F := F) (percentFree_built fl _) (percentFree_keeps _ h4 ha4 hall) fun p h5 hp5 ha5 _ => ?_
      split
      · refine Keeps.pure ha5 ?_
        rintro r ⟨⟩ x hx
        exact (hall x hx).mono hp5
      · exact Keeps.pure ha5 (by simp)
  · exact Keeps.pure ha3 (by simp)

theorem slice_mem {l : List C} {i j : Nat} {x : C} (h : x ∈ slice l i j) : x ∈ l :=
  List.mem_of_mem_drop (List.mem_of_mem_take h)

theorem combine_mem {path : List C} {s m e : Nat} {f g : List C} {x : C} (h : x ∈ combine path s m e f g) : x ∈ path ∨ x ∈ f ∨ x ∈ g := by
  unfold combine at h
  split at h
  · rcases List.mem_append.mp h with h | h
    · exact Or.inr (Or.inl h)
    · exact Or.inr (Or.inr (List.mem_of_mem_drop h))
  · split at h
    · rcases List.mem_append.mp h with h | h
      · exact Or.inr (Or.inl h)
      · exact Or.inl (slice_mem h)
    · split at h
      · rcases List.mem_append.mp h with h | h
        · exact Or.inl (slice_mem h)
        · exact Or.inr (Or.inr h)
      · cases h

theorem atRaw_mem {l : List C} {i : Nat} {a : C} (h : atRaw l i = .ok a) : a ∈ l := by
  rw [atRaw_ok] at h
  exact List.mem_of_getElem? h

theorem attempt_keeps {path : List C} : ∀ (steps s e : Nat) (h : Hist C ε), Asked given h → (∀ x ∈ path, Known given h x) →
    Keeps given (attempt fl par F path steps s e) h (fun r h' => ∀ x ∈ r, Known given h' x) := by
  intro steps
  induction steps with
  | zero =>
    intro s e h ha hk
    unfold attempt
    split
    · exact ⟨ha, by simp [lib]⟩
    · refine Keeps.bind (F := F) (Built.lib _) (Keeps.lib _ ha) fun a h1 p1 a1 q1 => ?_
      refine Keeps.bind (F := F) (Built.lib _) (Keeps.lib _ a1) fun b h2 p2 a2 q2 => ?_
      refine Keeps.bind (F := F) (direct_built fl par a b) (direct_keeps h2 a2 ((hk a (atRaw_mem q1)).mono (p1.trans p2)) ((hk b (atRaw_mem q2)).mono (p1.trans p2)))
        fun d h3 p3 a3 q3 => ?_
      cases d with
      | some r => exact Keeps.pure a3 (q3 r rfl)
      | none => exact Keeps.pure a3 (by simp)
  | succ n ih =>
    intro s e h ha hk
    unfold attempt
    split
    · exact ⟨ha, by simp [lib]⟩
    · refine Keeps.bind (F := F) (Built.lib _) (Keeps.lib _ ha) fun a h1 p1 a1 q1 => ?_
      refine Keeps.bind (F := F) (Built.lib _) (Keeps.lib _ a1) fun b h2 p2 a2 q2 => ?_
      refine Keeps.bind (F := F) (direct_built fl par a b) (direct_keeps h2 a2 ((hk a (atRaw_mem q1)).mono (p1.trans p2)) ((hk b (atRaw_mem q2)).mono (p1.trans p2)))
        fun d h3 p3 a3 q3 => ?_
      have hk3 : ∀ x ∈ path, Known given h3 x := fun x hx => (hk x hx).mono ((p1.trans p2).trans p3)
      cases d with
      | some r => exact Keeps.pure a3 (q3 r rfl)
      | none =>
        dsimp only
        split
        · refine Keeps.bind (F := F) (attempt_built fl par path _ _ _) (ih _ _ h3 a3 hk3) fun f h4 p4 a4 q4 => ?_
          refine Keeps.bind (F := F) (attempt_built fl par path _ _ _) (ih _ _ h4 a4 fun x hx => (hk3 x hx).mono p4) fun g h5 p5 a5 q5 => ?_
          refine Keeps.pure a5 fun x hx => ?_
          rcases combine_mem hx with hx | hx | hx
          · exact ((hk3 x hx).mono p4).mono p5
          · exact (q4 x hx).mono p5
          · exact q5 x hx
        · exact Keeps.pure a3 (by simp)

theorem window_keeps (f : ℚ) (n : Nat) (h : Hist C ε) (ha : Asked given h) : Keeps given (window fl F f n) h (fun _ _ => True) := by
  have hask : ∀ h0 : Hist C ε, Asked given h0 → Keeps given (askDraw F) h0 (fun _ _ => True) :=
    fun h0 h1 => ⟨ask_asked h1 (by simp [Event.args]), fun _ _ => trivial⟩
  have hlib : ∀ {γ : Type} (r : Res γ) (h0 : Hist C ε), Asked given h0 → Keeps given (Throw.lib r) h0 (fun _ _ => True) :=
    fun r h0 h1 => (Keeps.lib r h1).weaken fun _ _ _ => trivial
  unfold window
  refine Keeps.bind (F := F) (Built.lib _) (hlib _ h ha) fun _ h1 _ a1 _ => Keeps.bind (F := F) (Built.draw trivial) (hask h1 a1) fun _ h2 _ a2 _ => ?_
  refine Keeps.bind (F := F) (Built.lib _) (hlib _ h2 a2) fun _ h3 _ a3 _ => Keeps.bind (F := F) (Built.draw trivial) (hask h3 a3) fun _ h4 _ a4 _ => ?_
  refine Keeps.bind (F := F) (Built.lib _) (hlib _ h4 a4) fun _ h5 _ a5 _ => Keeps.bind (F := F) (Built.lib _) (hlib _ h5 a5) fun _ h6 _ a6 _ => ?_
  refine Keeps.bind (F := F) (Built.lib _) (hlib _ h6 a6) fun _ h7 _ a7 _ => Keeps.bind (F := F) (Built.lib _) (hlib _ h7 a7) fun _ h8 _ a8 _ => ?_
  exact Keeps.pure a8 trivial

theorem loop_keeps (maxFailed steps : Nat) (f : ℚ) : ∀ (n : Nat) (r : Report C) (h : Hist C ε), Asked given h →
    (∀ x ∈ r.path, Known given h x) →
    Keeps given (loop fl par F maxFailed steps f n r) h (fun r' h' => ∀ x ∈ r'.path, Known given h' x) := by
  intro n
  induction n with
  | zero => intro r h ha hk; unfold loop; exact Keeps.pure ha hk
  | succ n ih =>
    intro r h ha hk
    unfold loop
    split
    · refine Keeps.bind (F := F) (window_built fl f _) (window_keeps f _ h ha) fun w h1 p1 a1 _ => ?_
      have hk1 : ∀ x ∈ r.path, Known given h1 x := fun x hx => (hk x hx).mono p1
      dsimp only
      split
      · exact ih r h1 a1 hk1
      · refine Keeps.bind (F := F) (attempt_built fl par _ _ _ _) (attempt_keeps steps _ _ h1 a1 hk1) fun sc h2 p2 a2 q2 => ?_
        have hk2 : ∀ x ∈ r.path, Known given h2 x := fun x hx => (hk1 x hx).mono p2
        split
        · refine ih _ h2 a2 fun x hx => ?_
          simp only [List.mem_append] at hx
          rcases hx with (hx | hx) | hx
          · exact hk2 x (slice_mem hx)
          · exact q2 x hx
          · exact hk2 x (slice_mem hx)
        · exact ih _ h2 a2 hk2
    · exact Keeps.pure ha hk

/-- C109. `ShortcutSmoothPath` asks its callbacks only about states of the given path and states the interpolation function has
given it, however the run ends; and the path returned is made of such states. -/
theorem C109_asked (fl : ℚ → ℚ) (par : Par) (F : Fns C ε) (maxIter maxFailed steps : Nat) (f : ℚ) (path : List C) :
    (∀ e ∈ (smooth fl par F maxIter maxFailed steps f path).2, ∀ x ∈ e.args,
      x ∈ path ∨ ∃ a b t, Event.interp a b t (.ok x) ∈ (smooth fl par F maxIter maxFailed steps f path).2) ∧
    (∀ r, (smooth fl par F maxIter maxFailed steps f path).1 = .ok r → ∀ x ∈ r.path,
      x ∈ path ∨ ∃ a b t, Event.interp a b t (.ok x) ∈ (smooth fl par F maxIter maxFailed steps f path).2) :=
  loop_keeps (fl := fl) (par := par) (F := F) (given := path) maxFailed steps f maxIter ⟨path, 0, 0⟩ [] (by intro e he; cases he) (fun x hx => Or.inl hx)

end

/-! ### Resampling -/

/-- What one segment of a path becomes, and the calls made for it: the distance is asked for; if the number of pieces is 0 there is
nothing, if it is 1 there is the end of the segment, otherwise the states given by the interpolation function at 1/n, …, n/n. -/
def Piece (fl : ℚ → ℚ) (d : ℚ) (a b : C) (blk : List C) (calls : Hist C ε) : Prop :=
  ∃ (x : ℚ) (n : Nat), ⌈fl (x / d)⌉ = (n : Int) ∧
    ((n = 0 ∧ blk = [] ∧ calls = [.dist a b (.ok x)]) ∨ (n = 1 ∧ blk = [b] ∧ calls = [.dist a b (.ok x)]) ∨
      (2 ≤ n ∧ blk.length = n ∧ calls = .dist a b (.ok x) ::
        (blk.zipIdx.map fun y => Event.interp a b (fl (((y.2 + 1 : Nat) : ℚ) / (n : ℚ))) (.ok y.1))))

theorem interps_calls {a b : C} {n : Nat} : ∀ (m i : Nat) (h h' : Hist C ε) (r : List C),
    interps fl F a b n (List.range' (i + 1) m) h = (.ok r, h') →
    r.length = m ∧ h' = h ++ ((r.zipIdx i).map fun y => Event.interp a b (fl (((y.2 + 1 : Nat) : ℚ) / (n : ℚ))) (.ok y.1))
  | 0, i, h, h', r, hr => by
    simp only [List.range'_zero] at hr
    unfold interps at hr
    obtain ⟨rfl, rfl⟩ := pure_eq hr
    simp
  | m + 1, i, h, h', r, hr => by
    rw [List.range'_succ] at hr
    unfold interps at hr
    obtain ⟨x, hx, hr⟩ := ask_seq hr
    obtain ⟨l, h2, hl, hr⟩ := seq_ok hr
    obtain ⟨rfl, rfl⟩ := pure_eq hr
    obtain ⟨h3, h4⟩ := interps_calls m (i + 1) _ _ _ hl
    refine ⟨by simp [h3], ?_⟩
    rw [h4]
    simp

theorem segment_piece {d : ℚ} {a b : C} {blk : List C} {h h' : Hist C ε} (hr : segment fl F d a b h = (.ok blk, h')) :
    ∃ calls, h' = h ++ calls ∧ Piece fl d a b blk calls := by
  unfold segment at hr
  obtain ⟨x, hx, hr⟩ := ask_seq hr
  obtain ⟨n, hn, hr⟩ := lib_seq hr
  have hn' := numSegments_ok hn
  split at hr
  · next h0 =>
    obtain ⟨rfl, rfl⟩ := pure_eq hr
    exact ⟨_, rfl, x, n, hn'.symm, Or.inl ⟨h0, rfl, rfl⟩⟩
  · next h0 =>
    split at hr
    · next h1 =>
      obtain ⟨rfl, rfl⟩ := pure_eq hr
      exact ⟨_, rfl, x, n, hn'.symm, Or.inr (Or.inl ⟨h1, rfl, rfl⟩)⟩
    · next h1 =>
      obtain ⟨h2, h3⟩ := interps_calls n 0 _ _ _ hr
      refine ⟨_, by rw [h3, List.append_assoc], x, n, hn'.symm, Or.inr (Or.inr ⟨by omega, h2, ?_⟩)⟩
      rfl

theorem resampleFrom_pieces {d : ℚ} : ∀ (l : List C) (a : C) (acc q : List C) (h h' : Hist C ε),
    resampleFrom fl F d a l acc h = (.ok q, h') → ∃ ps : List (List C × Hist C ε), q = acc ++ (ps.map Prod.fst).flatten ∧
      h' = h ++ (ps.map Prod.snd).flatten ∧ List.Forall₂ (fun e p => Piece fl d e.1 e.2 p.1 p.2) (edges (a :: l)) ps
  | [], a, acc, q, h, h', hr => by
    unfold resampleFrom at hr
    obtain ⟨rfl, rfl⟩ := pure_eq hr
    exact ⟨[], by simp, by simp, List.Forall₂.nil⟩
  | b :: l, a, acc, q, h, h', hr => by
    unfold resampleFrom at hr
    obtain ⟨blk, h1, hs, hr⟩ := seq_ok hr
    obtain ⟨calls, h2, h3⟩ := segment_piece hs
    obtain ⟨ps, h4, h5, h6⟩ := resampleFrom_pieces l b _ _ _ _ hr
    exact ⟨(blk, calls) :: ps, by rw [h4]; simp, by rw [h5, h2]; simp, List.Forall₂.cons h3 h6⟩

/-- C109. `ResamplePath`: for a path of two or more states the distance of each segment is asked for once, in order, and the path
returned is the first state followed by what each segment becomes by the answers; these are the only calls. -/
theorem C109_resampled (fl : ℚ → ℚ) (F : Fns C ε) (d : ℚ) (path q : List C) (h : Hist C ε) (hr : resample fl F d path = (.ok q, h)) :
    (path.length ≤ 1 ∧ q = path ∧ h = []) ∨
    (0 < d ∧ ∃ (a : C) (ps : List (List C × Hist C ε)), path.head? = some a ∧ q = a :: (ps.map Prod.fst).flatten ∧
      h = (ps.map Prod.snd).flatten ∧ List.Forall₂ (fun e p => Piece fl d e.1 e.2 p.1 p.2) (edges path) ps) := by
  match path with
  | [] => simp [resample] at hr; exact Or.inl ⟨by simp, by simp [hr.1], by simp [hr.2]⟩
  | [a] => simp [resample] at hr; exact Or.inl ⟨by simp, by simp [hr.1], by simp [hr.2]⟩
  | a :: b :: l =>
    rw [resample_cons] at hr
    split at hr
    · simp at hr
    · next hd =>
      obtain ⟨ps, h1, h2, h3⟩ := resampleFrom_pieces _ _ _ _ _ _ hr
      exact Or.inr ⟨not_le.mp hd, a, ps, rfl, by simpa using h1, by simpa using h2, h3⟩

end CRU.Path.Throw
