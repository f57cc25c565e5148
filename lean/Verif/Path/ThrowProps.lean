import Verif.Path.Throw
import Verif.Path.SmoothMore
/-
  Path processing with callbacks that keep state and may throw.
-/
namespace CRU.Path.Throw
open CRU.Util CRU.Fl

variable {C ε α β : Type}

/-! ### What the list of calls says -/

/-- The exception a call ended with. -/
def Event.raised : Event C ε → Option ε
  | .valid _ _ (.error x) => some x
  | .dist _ _ (.error x) => some x
  | .interp _ _ _ (.error x) => some x
  | .draw (.error x) => some x
  | _ => none

/-- The states given to the callback. -/
def Event.args : Event C ε → List C
  | .valid a b _ => [a, b]
  | .dist a b _ => [a, b]
  | .interp a b _ _ => [a, b]
  | .draw _ => []

/-- The call's answer is what the callback gives after the calls `h`. -/
def Event.AnsweredBy (F : Fns C ε) (h : Hist C ε) : Event C ε → Prop
  | .valid a b ans => ans = F.valid h a b
  | .dist a b ans => ans = F.dist h a b
  | .interp a b t ans => ans = F.interp h a b t
  | .draw ans => ans = F.draw h

def Event.isDraw : Event C ε → Bool
  | .draw _ => true
  | _ => false

/-- Number of random numbers drawn. -/
def draws (h : Hist C ε) : Nat := h.countP Event.isDraw

/-- No call has thrown. -/
def Clean (h : Hist C ε) : Prop := ∀ e ∈ h, e.raised = none

/-- Every call is recorded with the answer its callback gave. -/
def Genuine (F : Fns C ε) (h : Hist C ε) : Prop := ∀ l e r, h = l ++ e :: r → e.AnsweredBy F l

/-- The outcome fits the calls: an exception came out of the run if and only if a call threw it, and that was the last call. -/
def Fits {α : Type} (o : Except (Fail ε) α) (h : Hist C ε) : Prop :=
  (∃ x l e, o = .error (.user x) ∧ h = l ++ [e] ∧ e.raised = some x ∧ Clean l) ∨ ((∀ x, o ≠ .error (.user x)) ∧ Clean h)

/-! ### Everything is built from calls -/

/-- Code made of calls of the callbacks; random numbers only if `dr`. -/
inductive Built (F : Fns C ε) (dr : Prop) : {α : Type} → Run C ε α → Prop
  | lib {α : Type} (r : Res α) : Built F dr (lib r)
  | ret {α : Type} (a : α) : Built F dr (ret a)
  | seq {α β : Type} {m : Run C ε α} {f : α → Run C ε β} : Built F dr m → (∀ a, Built F dr (f a)) → Built F dr (seq m f)
  | valid (a b : C) : Built F dr (askValid F a b)
  | dist (a b : C) : Built F dr (askDist F a b)
  | interp (a b : C) (t : ℚ) : Built F dr (askInterp F a b t)
  | draw : dr → Built F dr (askDraw F)

section
variable {F : Fns C ε} {dr : Prop}

theorem Built.bind {m : Run C ε α} {f : α → Run C ε β} (h : Built F dr m) (h' : ∀ a, Built F dr (f a)) : Built F dr (m >>= f) :=
  Built.seq h h'

theorem Built.pure (a : α) : Built F dr (Pure.pure a : Run C ε α) := Built.ret a

theorem Built.branch {p : Prop} [Decidable p] {m n : Run C ε α} (h : Built F dr m) (h' : Built F dr n) :
    Built F dr (if p then m else n) := by split <;> assumption

theorem freeEdges_built : ∀ l : List C, Built F dr (freeEdges F l)
  | [] => by unfold freeEdges; exact Built.pure 0
  | [_] => by unfold freeEdges; exact Built.pure 0
  | a :: b :: l => by
    unfold freeEdges
    exact (Built.valid a b).bind fun v => Built.branch ((freeEdges_built (b :: l)).bind fun n => Built.pure _) (Built.pure 0)

theorem percentFree_built (fl : ℚ → ℚ) (path : List C) : Built F dr (percentFree fl F path) := by
  unfold percentFree
  split
  · exact Built.pure 1
  · exact (Built.valid _ _).bind fun v => Built.pure _
  · exact (freeEdges_built _).bind fun n => Built.pure _

theorem interps_built (fl : ℚ → ℚ) (a b : C) (n : Nat) : ∀ ks : List Nat, Built F dr (interps fl F a b n ks)
  | [] => by unfold interps; exact Built.pure []
  | k :: ks => by
    unfold interps
    exact (Built.interp _ _ _).bind fun x => (interps_built fl a b n ks).bind fun l => Built.pure _

theorem inserted_built (fl : ℚ → ℚ) (par : Par) (a b : C) : Built F dr (inserted fl par F a b) := by
  unfold inserted
  exact Built.branch ((Built.dist _ _).bind fun d => (Built.lib _).bind fun n => interps_built fl a b n _) (Built.pure [])

theorem direct_built (fl : ℚ → ℚ) (par : Par) (a b : C) : Built F dr (direct fl par F a b) := by
  unfold direct
  refine (Built.valid _ _).bind fun v => Built.branch ((inserted_built fl par a b).bind fun mid => ?_) (Built.pure none)
  exact Built.branch (Built.pure _) ((percentFree_built fl _).bind fun p => Built.branch (Built.pure _) (Built.pure _))

theorem attempt_built (fl : ℚ → ℚ) (par : Par) (path : List C) : ∀ steps s e : Nat, Built F dr (attempt fl par F path steps s e) := by
  intro steps
  induction steps with
  | zero =>
    intro s e
    unfold attempt
    refine Built.branch (Built.lib _) ((Built.lib _).bind fun a => (Built.lib _).bind fun b => (direct_built fl par a b).bind fun d => ?_)
    cases d <;> exact Built.pure _
  | succ n ih =>
    intro s e
    unfold attempt
    refine Built.branch (Built.lib _) ((Built.lib _).bind fun a => (Built.lib _).bind fun b => (direct_built fl par a b).bind fun d => ?_)
    cases d with
    | some r => exact Built.pure _
    | none => exact Built.branch ((ih _ _).bind fun f => (ih _ _).bind fun g => Built.pure _) (Built.pure _)

theorem window_built (fl : ℚ → ℚ) (f : ℚ) (n : Nat) : Built F True (window fl F f n) := by
  unfold window
  exact (Built.lib _).bind fun _ => (Built.draw trivial).bind fun _ => (Built.lib _).bind fun _ => (Built.draw trivial).bind fun _ =>
    (Built.lib _).bind fun _ => (Built.lib _).bind fun _ => (Built.lib _).bind fun _ => (Built.lib _).bind fun _ => Built.pure _

theorem loop_built (fl : ℚ → ℚ) (par : Par) (maxFailed steps : Nat) (f : ℚ) : ∀ (n : Nat) (r : Report C),
    Built F True (loop fl par F maxFailed steps f n r) := by
  intro n
  induction n with
  | zero => intro r; unfold loop; exact Built.pure r
  | succ n ih =>
    intro r
    unfold loop
    refine Built.branch ((window_built fl f _).bind fun w => Built.branch (ih _) ((attempt_built fl par _ _ _ _).bind fun sc => ?_))
      (Built.pure r)
    exact Built.branch (ih _) (ih _)

theorem segment_built (fl : ℚ → ℚ) (d : ℚ) (a b : C) : Built F dr (segment fl F d a b) := by
  unfold segment
  exact (Built.dist _ _).bind fun x => (Built.lib _).bind fun n => Built.branch (Built.pure _) (Built.branch (Built.pure _)
    (interps_built fl a b n _))

theorem resampleFrom_built (fl : ℚ → ℚ) (d : ℚ) : ∀ (l : List C) (a : C) (acc : List C), Built F dr (resampleFrom fl F d a l acc)
  | [], _, acc => by unfold resampleFrom; exact Built.pure acc
  | b :: l, a, acc => by
    unfold resampleFrom
    exact (segment_built fl d a b).bind fun s => resampleFrom_built fl d l b _

/-! ### Consequences -/

theorem ask_fits {f : Hist C ε → Except ε α} {ev : Except ε α → Event C ε} (h1 : ∀ a, (ev (.ok a)).raised = none)
    (h2 : ∀ x, (ev (.error x)).raised = some x) (h : Hist C ε) (hc : Clean h) : Fits (ask f ev h).1 (ask f ev h).2 := by
  unfold ask
  cases hf : f h with
  | ok a =>
    refine Or.inr ⟨by simp, ?_⟩
    intro e he
    rcases List.mem_append.mp he with he | he
    · exact hc e he
    · rw [List.mem_singleton.mp he]; exact h1 a
  | error x => exact Or.inl ⟨x, h, ev (.error x), rfl, rfl, h2 x, hc⟩

theorem Built.fits {m : Run C ε α} (hb : Built F dr m) : ∀ h, Clean h → Fits (m h).1 (m h).2 := by
  induction hb with
  | lib r =>
    intro h hc
    cases r <;> exact Or.inr ⟨by simp [Throw.lib, Throw.ret], hc⟩
  | ret a => exact fun h hc => Or.inr ⟨by simp [Throw.ret], hc⟩
  | seq _ _ ih1 ih2 =>
    intro h hc
    unfold Throw.seq
    have := ih1 h hc
    split
    · next a h1 heq =>
      rw [heq] at this
      rcases this with ⟨x, l, e, h2, _⟩ | ⟨_, h2⟩
      · cases h2
      · exact ih2 a h1 h2
    · next x h1 heq =>
      rw [heq] at this
      rcases this with ⟨y, l, e, h2, h3⟩ | ⟨h2, h3⟩
      · simp only [Except.error.injEq] at h2
        exact Or.inl ⟨y, l, e, by rw [h2], h3⟩
      · exact Or.inr ⟨fun y hy => h2 y (by simpa using hy), h3⟩
  | valid a b => exact ask_fits (fun _ => rfl) (fun _ => rfl)
  | dist a b => exact ask_fits (fun _ => rfl) (fun _ => rfl)
  | interp a b t => exact ask_fits (fun _ => rfl) (fun _ => rfl)
  | draw _ => exact ask_fits (fun _ => rfl) (fun _ => rfl)

theorem ask_grows (f : Hist C ε → Except ε α) (ev : Except ε α → Event C ε) (h : Hist C ε) : h <+: (ask f ev h).2 := by
  unfold ask
  split <;> exact List.prefix_append _ _

theorem Built.grows {m : Run C ε α} (hb : Built F dr m) : ∀ h, h <+: (m h).2 := by
  induction hb with
  | lib r => intro h; cases r <;> exact List.prefix_rfl
  | ret a => intro h; exact List.prefix_rfl
  | seq _ _ ih1 ih2 =>
    intro h
    unfold Throw.seq
    have := ih1 h
    split
    · next a h1 heq => rw [heq] at this; exact this.trans (ih2 a h1)
    · next x h1 heq => rw [heq] at this; exact this
  | valid a b => exact ask_grows _ _
  | dist a b => exact ask_grows _ _
  | interp a b t => exact ask_grows _ _
  | draw _ => exact ask_grows _ _

theorem ask_genuine {f : Hist C ε → Except ε α} {ev : Except ε α → Event C ε} (h1 : ∀ h, (ev (f h)).AnsweredBy F h) (h : Hist C ε)
    (hg : Genuine F h) : Genuine F (ask f ev h).2 := by
  have h2 : (ask f ev h).2 = h ++ [ev (f h)] := by
    unfold ask
    cases f h <;> rfl
  rw [h2]
  intro l e r heq
  rcases List.eq_nil_or_concat r with rfl | ⟨r', z, rfl⟩
  · obtain ⟨rfl, h3⟩ := List.append_inj' heq rfl
    simp only [List.cons.injEq, and_true] at h3
    subst h3
    exact h1 h
  · rw [List.concat_eq_append, ← List.cons_append, ← List.append_assoc] at heq
    obtain ⟨h3, _⟩ := List.append_inj' heq rfl
    exact hg l e r' h3

theorem Built.genuine {m : Run C ε α} (hb : Built F dr m) : ∀ h, Genuine F h → Genuine F (m h).2 := by
  induction hb with
  | lib r => intro h hg; cases r <;> exact hg
  | ret a => intro h hg; exact hg
  | seq _ _ ih1 ih2 =>
    intro h hg
    unfold Throw.seq
    have := ih1 h hg
    split
    · next a h1 heq => rw [heq] at this; exact ih2 a h1 this
    · next x h1 heq => rw [heq] at this; exact this
  | valid a b => exact ask_genuine (fun _ => rfl)
  | dist a b => exact ask_genuine (fun _ => rfl)
  | interp a b t => exact ask_genuine (fun _ => rfl)
  | draw _ => exact ask_genuine (fun _ => rfl)

theorem ask_draws (f : Hist C ε → Except ε α) (ev : Except ε α → Event C ε) (hev : ∀ a, (ev a).isDraw = false) (h : Hist C ε) :
    draws (ask f ev h).2 = draws h := by
  unfold ask draws
  split <;> simp [hev]

theorem Built.draws {m : Run C ε α} (hb : Built F False m) : ∀ h, draws (m h).2 = draws h := by
  generalize hdr : False = dr at hb
  induction hb with
  | lib r => intro h; cases r <;> rfl
  | ret a => intro h; rfl
  | seq _ _ ih1 ih2 =>
    intro h
    unfold Throw.seq
    have := ih1 h
    split
    · next a h1 heq => rw [heq] at this; rw [ih2 a h1, this]
    · next x h1 heq => rw [heq] at this; exact this
  | valid a b => exact ask_draws _ _ (fun _ => rfl)
  | dist a b => exact ask_draws _ _ (fun _ => rfl)
  | interp a b t => exact ask_draws _ _ (fun _ => rfl)
  | draw h => subst hdr; exact h.elim

/-- Cases of a sequential composition. -/
theorem seq_cases {m : Run C ε α} {f : α → Run C ε β} {h h' : Hist C ε} {o : Except (Fail ε) β} (hm : (m >>= f) h = (o, h')) :
    (∃ a h1, m h = (.ok a, h1) ∧ f a h1 = (o, h')) ∨ ∃ x, m h = (.error x, h') ∧ o = .error x := by
  change Throw.seq m f h = _ at hm
  unfold Throw.seq at hm
  split at hm
  · next a h1 heq => exact Or.inl ⟨a, h1, heq, hm⟩
  · next x h1 heq =>
    simp only [Prod.mk.injEq] at hm
    exact Or.inr ⟨x, by rw [heq, hm.2], hm.1.symm⟩

theorem seq_ok {m : Run C ε α} {f : α → Run C ε β} {h h' : Hist C ε} {b : β} (hm : (m >>= f) h = (.ok b, h')) :
    ∃ a h1, m h = (.ok a, h1) ∧ f a h1 = (.ok b, h') := by
  rcases seq_cases hm with h1 | ⟨x, _, h2⟩
  · exact h1
  · cases h2

theorem lib_ok {r : Res α} {h h' : Hist C ε} {a : α} (hm : Throw.lib r h = (.ok a, h')) : r = .ok a ∧ h' = h := by
  cases r <;> simp [Throw.lib, Throw.ret] at hm ⊢
  exact ⟨hm.1, hm.2.symm⟩

theorem pure_eq {a b : α} {h h' : Hist C ε} (hm : (Pure.pure a : Run C ε α) h = (.ok b, h')) : b = a ∧ h' = h := by
  change Throw.ret a h = _ at hm
  unfold Throw.ret at hm
  simp only [Prod.mk.injEq, Except.ok.injEq] at hm
  exact ⟨hm.1.symm, hm.2.symm⟩

theorem ask_ok {f : Hist C ε → Except ε α} {ev : Except ε α → Event C ε} {h h' : Hist C ε} {a : α} (hm : ask f ev h = (.ok a, h')) :
    f h = .ok a ∧ h' = h ++ [ev (.ok a)] := by
  unfold ask at hm
  split at hm
  · next b hb =>
    simp only [Prod.mk.injEq, Except.ok.injEq] at hm
    exact ⟨by rw [hb, hm.1], by rw [← hm.2, hm.1]⟩
  · simp at hm

theorem lib_seq {r : Res α} {f : α → Run C ε β} {h h' : Hist C ε} {b : β} (hm : (Throw.lib r >>= f) h = (.ok b, h')) :
    ∃ a, r = .ok a ∧ f a h = (.ok b, h') := by
  obtain ⟨a, h1, h2, h3⟩ := seq_ok hm
  obtain ⟨h4, h5⟩ := lib_ok h2
  exact ⟨a, h4, by rw [← h5]; exact h3⟩

theorem ask_seq {g : Hist C ε → Except ε α} {ev : Except ε α → Event C ε} {f : α → Run C ε β} {h h' : Hist C ε} {b : β}
    (hm : (ask g ev >>= f) h = (.ok b, h')) : ∃ a, g h = .ok a ∧ f a (h ++ [ev (.ok a)]) = (.ok b, h') := by
  obtain ⟨a, h1, h2, h3⟩ := seq_ok hm
  obtain ⟨h4, h5⟩ := ask_ok h2
  exact ⟨a, h4, by rw [← h5]; exact h3⟩

theorem Built.prefix_of {m : Run C ε α} (hb : Built F True m) {h h' : Hist C ε} {o : Except (Fail ε) α} (hm : m h = (o, h')) : h <+: h' := by
  have := hb.grows h
  rwa [hm] at this

end

/-! ### Edges of the result -/

section
variable {F : Fns C ε}

/-- Counting the valid edges: they are asked for in order, up to the first one that is not valid. -/
theorem freeEdges_calls : ∀ (l : List C) (h h' : Hist C ε) (n : Nat), freeEdges F l h = (.ok n, h') →
    n ≤ l.length - 1 ∧ ∃ rest : Hist C ε, h' = h ++ ((edges l).take n).map (fun p => Event.valid p.1 p.2 (.ok true)) ++ rest ∧
      (n = (edges l).length → rest = []) ∧ (∀ p, (edges l)[n]? = some p → rest = [Event.valid p.1 p.2 (.ok false)])
  | [], h, h', n, hr => by
    unfold freeEdges at hr
    obtain ⟨rfl, rfl⟩ := pure_eq hr
    simp [edges]
  | [_], h, h', n, hr => by
    unfold freeEdges at hr
    obtain ⟨rfl, rfl⟩ := pure_eq hr
    simp [edges]
  | a :: b :: l, h, h', n, hr => by
    unfold freeEdges at hr
    obtain ⟨v, -, hr⟩ := ask_seq hr
    cases v with
    | true =>
      simp only [if_true] at hr
      obtain ⟨k, h2, hk, hr⟩ := seq_ok hr
      obtain ⟨rfl, rfl⟩ := pure_eq hr
      obtain ⟨h3, rest, h4, h5, h6⟩ := freeEdges_calls (b :: l) _ _ _ hk
      refine ⟨by simp at h3 ⊢; omega, rest, ?_, ?_, ?_⟩
      · rw [h4]; simp [edges]
      · intro hl; exact h5 (by simpa [edges] using hl)
      · intro p hp; exact h6 p (by simpa [edges] using hp)
    | false =>
      simp only [Bool.false_eq_true, if_false] at hr
      obtain ⟨rfl, rfl⟩ := pure_eq hr
      exact ⟨by simp, [Event.valid a b (.ok false)], by simp, by simp [edges], by simp [edges]⟩

theorem edges_length : ∀ l : List C, (edges l).length = l.length - 1
  | [] => rfl
  | [_] => rfl
  | a :: b :: l => by simp [edges, edges_length (b :: l)]

/-- A path found free of collisions had every edge asked for and answered valid. -/
theorem percentFree_one {fl : ℚ → ℚ} (hfl : Nearest 53 (-1074) fl) {path : List C} (h2 : 2 ≤ path.length)
    (hl : path.length ≤ 2 ^ 52) {h h' : Hist C ε} (hr : percentFree fl F path h = (.ok 1, h')) :
    ∀ p ∈ edges path, Event.valid p.1 p.2 (.ok true) ∈ h' := by
  match path, h2 with
  | a :: b :: l, _ =>
    unfold percentFree at hr
    obtain ⟨n, h1, hn, hr⟩ := seq_ok hr
    obtain ⟨h3, rest, h4, -, -⟩ := freeEdges_calls _ _ _ _ hn
    obtain ⟨h5, rfl⟩ := pure_eq hr
    have hle : (a :: b :: l).length - 1 ≤ 2 ^ 52 := by omega
    rw [fl_nat hfl (n := n) (by omega), fl_nat hfl (n := (a :: b :: l).length - 1) (by omega)] at h5
    have h6 := (fl_quotient_eq_one hfl h3 hle (by simp)).mp h5.symm
    intro p hp
    rw [h4, List.take_of_length_le (by rw [edges_length]; omega)]
    exact List.mem_append_left _ (List.mem_append_right _ (List.mem_map.mpr ⟨p, hp, rfl⟩))

theorem interps_length {fl : ℚ → ℚ} {a b : C} {n : Nat} : ∀ (ks : List Nat) (h h' : Hist C ε) (r : List C),
    interps fl F a b n ks h = (.ok r, h') → r.length = ks.length
  | [], h, h', r, hr => by
    unfold interps at hr
    obtain ⟨rfl, rfl⟩ := pure_eq hr
    rfl
  | k :: ks, h, h', r, hr => by
    unfold interps at hr
    obtain ⟨x, h1, hx, hr⟩ := seq_ok hr
    obtain ⟨l, h2, hl, hr⟩ := seq_ok hr
    obtain ⟨rfl, rfl⟩ := pure_eq hr
    simp [interps_length ks _ _ _ hl]

theorem inserted_length {fl : ℚ → ℚ} {par : Par} {a b : C} {l : List C} {h h' : Hist C ε}
    (hr : inserted fl par F a b h = (.ok l, h')) : l.length ≤ 4294967295 ∧ (par.interval ≤ 0 → l = []) := by
  unfold inserted at hr
  split at hr
  · next hi =>
    obtain ⟨x, h1, hx, hr⟩ := seq_ok hr
    obtain ⟨n, hn, hr⟩ := lib_seq hr
    have hn' : n ≤ 4294967295 := by
      unfold numSegments IntType.cast at hn
      split at hn
      · next hh =>
        simp only [Res.ok_bind, Res.pure_eq, Res.ok.injEq] at hn
        have := hh.2
        simp only [u32] at this
        omega
      · cases hn
    rw [interps_length _ _ _ _ hr, List.length_range']
    exact ⟨by omega, fun h => absurd hi (not_lt.mpr h)⟩
  · obtain ⟨rfl, rfl⟩ := pure_eq hr
    exact ⟨by simp, fun _ => rfl⟩

/-- The pure configuration that accepts the edges in `V`. -/
noncomputable def accepting (par : Par) (V : C → C → Prop) (d : C → C → ℚ) : Cfg C where
  interval := par.interval
  check := par.check
  valid a b := @decide (V a b) (Classical.propDecidable _)
  dist := d
  interp a _ _ := a

variable {V : C → C → Prop} {par : Par} {fl : ℚ → ℚ} {d : C → C → ℚ}

theorem direct_repl (hfl : Nearest 53 (-1074) fl) {a b : C} {r : List C} {h h' : Hist C ε}
    (hr : direct fl par F a b h = (.ok (some r), h')) (hV : ∀ x y, Event.valid x y (.ok true) ∈ h' → V x y) (mid : List C) :
    Repl (accepting par V d) (a :: mid ++ [b]) r := by
  unfold direct at hr
  obtain ⟨v, h1, hv, hr⟩ := seq_ok hr
  obtain ⟨-, hh1⟩ := ask_ok hv
  cases v with
  | false =>
    simp only [Bool.false_eq_true, if_false] at hr
    have := (pure_eq hr).1
    cases this
  | true =>
    simp only [if_true] at hr
    obtain ⟨l, h2, hl, hr⟩ := seq_ok hr
    obtain ⟨hlen, hl0⟩ := inserted_length hl
    have hp1 : h1 <+: h2 := (inserted_built fl par a b).prefix_of hl
    have hval : h2 <+: h' → EdgesValid (accepting par V d).valid ([a] ++ [b]) := by
      intro hp p hp'
      simp [edges] at hp'
      subst hp'
      simp only [accepting, decide_eq_true_eq]
      exact hV a b ((hp1.trans hp).subset (by rw [hh1]; simp))
    have hrr : r = [a] ++ l ++ [b] ∧ ((par.interval ≤ 0 ∨ par.check = true) → EdgesValid (accepting par V d).valid r) := by
      split at hr
      · next hc =>
        obtain ⟨h3, h4⟩ := pure_eq hr
        simp only [Option.some.injEq] at h3
        refine ⟨h3, ?_⟩
        have hl0' : l = [] → EdgesValid (accepting par V d).valid r := by
          rintro rfl
          rw [h3]
          simpa using hval (by rw [h4])
        rintro (hi | hch)
        · exact hl0' (hl0 hi)
        · rcases hc with hc | hc
          · refine hl0' ?_
            simp at hc
            exact hc
          · rw [hch] at hc; cases hc
      · obtain ⟨p, h3, hp, hr⟩ := seq_ok hr
        split at hr
        · next hp1 =>
          subst hp1
          obtain ⟨h4, h5⟩ := pure_eq hr
          simp only [Option.some.injEq] at h4
          refine ⟨h4, fun _ => ?_⟩
          intro q hq
          rw [h4] at hq
          have := percentFree_one hfl (by simp) (by simp only [List.length_append, List.length_cons, List.length_nil]; omega) hp q hq
          simp only [accepting, decide_eq_true_eq]
          exact hV _ _ (by rw [h5]; exact this)
        · have := (pure_eq hr).1
          cases this
    obtain ⟨hrr, hvr⟩ := hrr
    refine ⟨by rw [hrr]; simp, ⟨by rw [hrr]; simp, by
      rw [hrr, List.getLast?_append_of_ne_nil _ (by simp), List.getLast?_append_of_ne_nil _ (by simp)]⟩, fun hh _ => hvr hh, ?_, ?_⟩
    · intro hi
      rw [hrr, hl0 hi]
      simp
    · intro hi hm
      rw [hrr, hl0 hi]
      have := dist_le_pathLength hm (mid ++ [b]) a b (by simp) (by simp)
      simp only [List.append_nil, List.cons_append, List.nil_append]
      simpa [pathLength, edges] using this

theorem attempt_repl (hfl : Nearest 53 (-1074) fl) {path : List C} : ∀ (steps s e : Nat) (r : List C) (h h' : Hist C ε),
    attempt fl par F path steps s e h = (.ok r, h') → (∀ x y, Event.valid x y (.ok true) ∈ h' → V x y) → r ≠ [] →
    Repl (accepting par V d) (slice path s (e + 1)) r := by
  intro steps
  induction steps with
  | zero =>
    intro s e r h h' hr hV hne
    unfold attempt at hr
    split at hr
    · exact absurd (lib_ok hr).1 (by simp)
    · next hse =>
      obtain ⟨a, ha, hr⟩ := lib_seq hr
      obtain ⟨b, hb, hr⟩ := lib_seq hr
      obtain ⟨o, h3, ho, hr⟩ := seq_ok hr
      rw [atRaw_ok] at ha hb
      cases o with
      | none => exact absurd (pure_eq hr).1 hne
      | some r' =>
        obtain ⟨rfl, rfl⟩ := pure_eq hr
        rw [slice_ends ha hb (by omega)]
        exact direct_repl hfl ho hV _
  | succ steps ih =>
    intro s e r h h' hr hV hne
    unfold attempt at hr
    split at hr
    · exact absurd (lib_ok hr).1 (by simp)
    · next hse =>
      obtain ⟨a, ha, hr⟩ := lib_seq hr
      obtain ⟨b, hb, hr⟩ := lib_seq hr
      obtain ⟨o, h3, ho, hr⟩ := seq_ok hr
      rw [atRaw_ok] at ha hb
      cases o with
      | some r' =>
        obtain ⟨rfl, rfl⟩ := pure_eq hr
        rw [slice_ends ha hb (by omega)]
        exact direct_repl hfl ho hV _
      | none =>
        dsimp only at hr
        split at hr
        · next hw =>
          obtain ⟨f, h4, hf, hr⟩ := seq_ok hr
          obtain ⟨g, h5, hg, hr⟩ := seq_ok hr
          obtain ⟨rfl, rfl⟩ := pure_eq hr
          have hlt := (List.getElem?_eq_some_iff.mp hb).1
          have hp : h4 <+: h' := (attempt_built fl par path _ _ _).prefix_of hg
          exact combine_repl (by omega) (by omega) hlt (ih _ _ _ _ _ hf fun x y hx => hV x y (hp.subset hx)) (ih _ _ _ _ _ hg hV) hne
        · exact absurd (pure_eq hr).1 hne

/-- The random numbers are floating-point numbers in [0, 1), as `std::uniform_real_distribution` makes them. -/
def UnitFn (F : Fns C ε) : Prop := ∀ h u, F.draw h = .ok u → Rep 53 (-1074) u ∧ 0 ≤ u ∧ u < 1

theorem window_run {f : ℚ} {size : Nat} {w : Int × Int} {h h' : Hist C ε} (hr : window fl F f size h = (.ok w, h')) :
    ∃ u1 u2, F.draw h = .ok u1 ∧ h' = h ++ [Event.draw (.ok u1), Event.draw (.ok u2)] ∧ CRU.Path.window fl f (u1, u2) size = .ok w := by
  unfold window at hr
  obtain ⟨sz, hsz, hr⟩ := lib_seq hr
  obtain ⟨u1, hu1, hr⟩ := ask_seq hr
  obtain ⟨base, hb, hr⟩ := lib_seq hr
  obtain ⟨u2, hu2, hr⟩ := ask_seq hr
  obtain ⟨off, ho, hr⟩ := lib_seq hr
  obtain ⟨st, hs, hr⟩ := lib_seq hr
  obtain ⟨idx, hi, hr⟩ := lib_seq hr
  obtain ⟨safe, hsf, hr⟩ := lib_seq hr
  obtain ⟨rfl, rfl⟩ := pure_eq hr
  refine ⟨u1, u2, hu1, by simp, ?_⟩
  unfold CRU.Path.window
  simp only [hsz, hb, ho, hs, hi, hsf, Res.ok_bind, Res.pure_eq]

theorem loop_repl (hfl : Nearest 53 (-1074) fl) (hU : UnitFn F) {maxFailed steps : Nat} {f : ℚ} : ∀ (n : Nat) (r r' : Report C) (h h' : Hist C ε),
    r.path ≠ [] → r.failed ≤ maxFailed → r.failed ≤ r.attempts → loop fl par F maxFailed steps f n r h = (.ok r', h') →
    (∀ x y, Event.valid x y (.ok true) ∈ h' → V x y) →
    Repl (accepting par V d) r.path r'.path ∧ r'.attempts ≤ r.attempts + n ∧ r'.failed ≤ maxFailed ∧ r'.failed ≤ r'.attempts := by
  intro n
  induction n with
  | zero =>
    intro r r' h h' hne hf hfa hr hV
    unfold loop at hr
    obtain ⟨rfl, rfl⟩ := pure_eq hr
    exact ⟨Repl.refl _ hne, by omega, hf, hfa⟩
  | succ n ih =>
    intro r r' h h' hne hf hfa hr hV
    unfold loop at hr
    split at hr
    · next hc =>
      obtain ⟨w, h1, hw, hr⟩ := seq_ok hr
      obtain ⟨u1, u2, hu1, -, hw⟩ := window_run hw
      dsimp only at hr
      split at hr
      · obtain ⟨h2, h3, h4⟩ := ih _ _ _ _ hne hf hfa hr hV
        exact ⟨h2, by omega, h4⟩
      · next hse =>
        obtain ⟨sc, h2, hsc, hr⟩ := seq_ok hr
        split at hr
        · next hlen =>
          obtain ⟨⟨a1, a2⟩, a3, a4⟩ := window_range hfl (hU _ _ hu1) (by omega) hw
          have he : (max w.1 w.2).toNat < r.path.length := by omega
          have hp : h2 <+: h' := (loop_built fl par maxFailed steps f _ _).prefix_of hr
          have hrep := splice_repl (by omega) he (attempt_repl (V := V) (d := d) hfl _ _ _ _ _ _ hsc
            (fun x y hx => hV x y (hp.subset hx)) (List.ne_nil_of_length_pos hlen))
          obtain ⟨h3, h4, h5⟩ := ih ⟨_, r.attempts + 1, r.failed⟩ r' _ _ hrep.ne hf (by show r.failed ≤ r.attempts + 1; omega) hr hV
          refine ⟨hrep.trans h3, ?_, h5⟩
          have : r'.attempts ≤ r.attempts + 1 + n := h4
          omega
        · obtain ⟨h3, h4, h5⟩ := ih _ _ _ _ (by exact hne) (by show r.failed + 1 ≤ maxFailed; omega)
            (by show r.failed + 1 ≤ r.attempts + 1; omega) hr hV
          refine ⟨h3, ?_, h5⟩
          have : r'.attempts ≤ r.attempts + 1 + n := h4
          omega
    · obtain ⟨rfl, rfl⟩ := pure_eq hr
      exact ⟨Repl.refl _ hne, by omega, hf, hfa⟩

theorem smooth_empty {maxIter maxFailed steps : Nat} {f : ℚ} : smooth fl par F maxIter maxFailed steps f [] = (.ok ⟨[], 0, 0⟩, []) := by
  unfold smooth
  cases maxIter with
  | zero => rfl
  | succ n =>
    unfold loop
    rw [if_neg (by simp)]
    rfl

/-- C109. `ShortcutSmoothPath`: however the callbacks answer, the path returned has the ends of the given one; without resampling
of shortcuts, or with the check for marginal ones, each of its edges is an edge of the given path or was found valid by a call of
the check; without resampling it is made of states of the given path in their order, and is not longer, in any metric. -/
theorem C109_smoothed (hfl : Nearest 53 (-1074) fl) (par : Par) (F : Fns C ε) (hU : UnitFn F) (maxIter maxFailed steps : Nat) (f : ℚ)
    (path : List C) (r : Report C) (h : Hist C ε) (hr : smooth fl par F maxIter maxFailed steps f path = (.ok r, h)) :
    SameEnds path r.path ∧
    ((par.interval ≤ 0 ∨ par.check = true) → ∀ e ∈ edges r.path, e ∈ edges path ∨ Event.valid e.1 e.2 (.ok true) ∈ h) ∧
    (par.interval ≤ 0 → r.path.Sublist path ∧ ∀ d : C → C → ℚ, Metric d → pathLength d r.path ≤ pathLength d path) ∧
    r.attempts ≤ maxIter ∧ r.failed ≤ maxFailed ∧ r.failed ≤ r.attempts := by
  cases path with
  | nil =>
    rw [smooth_empty] at hr
    simp only [Prod.mk.injEq, Except.ok.injEq] at hr
    obtain ⟨rfl, rfl⟩ := hr
    exact ⟨⟨rfl, rfl⟩, by simp [edges], by simp, by simp, by simp, by simp⟩
  | cons a l =>
    have key := fun d => loop_repl (V := fun x y => (x, y) ∈ edges (a :: l) ∨ Event.valid x y (.ok true) ∈ h) (d := d) hfl hU maxIter
      ⟨a :: l, 0, 0⟩ r [] h (by simp) (Nat.zero_le _) (Nat.le_refl _) hr (fun x y hx => Or.inr hx)
    obtain ⟨h1, h2, h3, h4⟩ := key (fun _ _ => 0)
    refine ⟨h1.ends, ?_, fun hi => ⟨h1.sub hi, fun d hd => (key d).1.len hi hd⟩, by simpa using h2, h3, h4⟩
    intro hc e he
    have := h1.valid hc (by intro p hp; simp only [accepting, decide_eq_true_eq]; exact Or.inl hp) e he
    simp only [accepting, decide_eq_true_eq] at this
    exact this

end

end CRU.Path.Throw
