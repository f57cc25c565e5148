import Verif.TaskPlanner.Planning
import Verif.Astar.CallbackMain
/-
  C115: specification of the calls made while a plan is made, and the proof that the lambdas make them.
-/
namespace CRU.Task.Planning
open CRU.Task
set_option linter.unusedSectionVars false

variable {S C ε α β : Type}

/-! ### Specification -/

/-- The exception of a call. -/
def Call.thrown : Call S C ε → Option ε
  | .complete _ (.error x) => some x
  | .heur _ (.error x) => some x
  | .candidate _ _ (.error x) => some x
  | .outcomes _ _ (.error x) => some x
  | _ => none

/-- The answer is the one that the function gives after the calls `p`. -/
def Says (F : Fns S C ε) (p : Calls S C ε) : Call S C ε → Prop
  | .complete s a => a = F.complete p s
  | .heur s a => ∃ f, F.heur = some f ∧ a = f p s
  | .candidate i s a => a = F.candidate p i s
  | .outcomes i s a => a = F.outcomes p i s

/-- Among the calls `p`, primitive `j` predicted for the state `s` the outcome `t` with cost `w`. -/
def Foretold (p : Calls S C ε) (s t : S) (j : Int) (w : C) : Prop :=
  ∃ (i : Nat) (l : List (S × C)), j = i ∧ Call.outcomes i s (.ok l) ∈ p ∧ (t, w) ∈ l

/-- The planner can know of `s`: it is a start, or a predicted outcome. -/
def Known (starts : List S) (p : Calls S C ε) (s : S) : Prop := s ∈ starts ∨ ∃ s0 j w, Foretold p s0 s j w

/-- The planner is not in the middle of asking the `n` primitives about a state. -/
def Between (n : Nat) (p : Calls S C ε) : Prop := ∀ pre ev, p = pre ++ [ev] →
  match ev with
  | .candidate i _ a => i + 1 = n ∧ a = .ok false
  | .outcomes i _ _ => i + 1 = n
  | _ => True

/-- After the calls `p` it is the turn of primitive `i` for the state `s`: the first one right after the completion test refused the state, the
others right after the primitive before them was asked. -/
def Turn (s : S) (p : Calls S C ε) : Nat → Prop
  | 0 => ∃ pre, p = pre ++ [.complete s (.ok false)]
  | i + 1 => (∃ pre, p = pre ++ [.candidate i s (.ok false)]) ∨ ∃ pre l, p = pre ++ [.candidate i s (.ok true), .outcomes i s (.ok l)]

/-- When a call is made: completion test and heuristic only for states that are starts or were predicted; the primitives are asked one after the
other, all of them; outcomes only right after the primitive said that it is a candidate. -/
def Allowed (n : Nat) (starts : List S) (p : Calls S C ε) : Call S C ε → Prop
  | .complete s _ => Known starts p s ∧ Between n p
  | .heur s _ => Known starts p s ∧ Between n p
  | .candidate i s _ => i < n ∧ Turn s p i
  | .outcomes i s _ => ∃ pre, p = pre ++ [.candidate i s (.ok true)]

/-- A call that may be made after the calls `p`, with its answer; none of the calls before it threw. -/
structure Right (F : Fns S C ε) (starts : List S) (p : Calls S C ε) (ev : Call S C ε) : Prop where
  answer : Says F p ev
  allowed : Allowed F.count starts p ev
  calm : ∀ e ∈ p, e.thrown = none

/-- A right sequence of calls. -/
def History (F : Fns S C ε) (starts : List S) (p : Calls S C ε) : Prop :=
  ∀ pre ev post, p = pre ++ ev :: post → Right F starts pre ev

/-- No call threw. -/
def Calm (p : Calls S C ε) : Prop := ∀ e ∈ p, e.thrown = none

/-- A sequence of states with the indices of the primitives that lead to them: the first is a start, with index -1, and every other one was
predicted, by that primitive and for the state before it; `c` adds up the costs. -/
inductive WasPlan [Add C] [Zero C] (starts : List S) (p : Calls S C ε) : List (S × Int) → C → Prop
  | start {s : S} (h : s ∈ starts) : WasPlan starts p [(s, -1)] 0
  | step {l : List (S × Int)} {x : S × Int} {t : S} {j : Int} {c w : C} (h : WasPlan starts p (l ++ [x]) c)
      (he : Foretold p x.1 t j w) : WasPlan starts p (l ++ [x] ++ [(t, j)]) (c + w)

/-- Primitive `i` was asked about `s`: it was no candidate, or its outcomes were asked for. -/
def AskedPrimitive (p : Calls S C ε) (i : Nat) (s : S) : Prop :=
  Call.candidate i s (.ok false) ∈ p ∨ ∃ l, [Call.candidate i s (.ok true), Call.outcomes i s (.ok l)] <:+: p

/-! ### Sequences of calls -/

variable {F : Fns S C ε} {starts : List S}

theorem history_nil : History F starts ([] : Calls S C ε) := by
  intro pre ev post h
  simp at h

theorem calm_nil : Calm ([] : Calls S C ε) := by intro e he; simp at he

theorem between_nil (n : Nat) : Between n ([] : Calls S C ε) := by
  intro pre ev h
  simp at h

theorem History.snoc {p : Calls S C ε} {ev : Call S C ε} (hh : History F starts p) (hr : Right F starts p ev) : History F starts (p ++ [ev]) := by
  intro pre e post he
  rcases List.eq_nil_or_concat post with rfl | ⟨post', x, rfl⟩
  · obtain ⟨rfl, h2⟩ := List.append_inj' he rfl
    cases h2
    exact hr
  · rw [List.concat_eq_append, ← List.cons_append, ← List.append_assoc] at he
    obtain ⟨rfl, h2⟩ := List.append_inj' he rfl
    exact hh pre e post' rfl

theorem Calm.snoc {p : Calls S C ε} {ev : Call S C ε} (hh : Calm p) (he : ev.thrown = none) : Calm (p ++ [ev]) := by
  intro e hm
  rcases List.mem_append.mp hm with hm | hm
  · exact hh e hm
  · simp only [List.mem_singleton] at hm
    rw [hm]; exact he

theorem Foretold.mono {p q : Calls S C ε} (hp : p <+: q) {s t : S} {j : Int} {w : C} (h : Foretold p s t j w) : Foretold q s t j w := by
  obtain ⟨i, l, h1, h2, h3⟩ := h
  exact ⟨i, l, h1, hp.subset h2, h3⟩

theorem Known.mono {p q : Calls S C ε} (hp : p <+: q) {s : S} (h : Known starts p s) : Known starts q s := by
  rcases h with h | ⟨s0, j, w, h⟩
  · exact .inl h
  · exact .inr ⟨s0, j, w, h.mono hp⟩

theorem AskedPrimitive.mono {p q : Calls S C ε} (hp : p <+: q) {i : Nat} {s : S} (h : AskedPrimitive p i s) : AskedPrimitive q i s := by
  rcases h with h | ⟨l, h⟩
  · exact .inl (hp.subset h)
  · exact .inr ⟨l, h.trans hp.isInfix⟩

theorem between_snoc {n : Nat} {p : Calls S C ε} {ev : Call S C ε} (h : match ev with
    | .candidate i _ a => i + 1 = n ∧ a = .ok false
    | .outcomes i _ _ => i + 1 = n
    | _ => True) : Between n (p ++ [ev]) := by
  intro pre e he
  obtain ⟨_, h2⟩ := List.append_inj' he rfl
  cases h2
  exact h

theorem bind_ok {m : Run S C ε α} {f : α → Run S C ε β} {p p1 : Calls S C ε} {a : α} (hm : m p = (.ok a, p1)) : (m >>= f) p = f a p1 := by
  change seq m f p = _
  unfold seq; rw [hm]

theorem bind_err {m : Run S C ε α} {f : α → Run S C ε β} {p p1 : Calls S C ε} {x : ε} (hm : m p = (.error x, p1)) :
    (m >>= f) p = (.error x, p1) := by
  change seq m f p = _
  unfold seq; rw [hm]

theorem ask_eq {f : Calls S C ε → Except ε α} {ev : Except ε α → Call S C ε} {p : Calls S C ε} {a : Except ε α} (h : f p = a) :
    ask f ev p = (a, p ++ [ev a]) := by
  unfold ask; rw [h]

/-- What asking the primitives from `i` on does. -/
structure Kids (F : Fns S C ε) (starts : List S) (s : S) (i k : Nat) (p p' : Calls S C ε) (l : List ((S × Int) × C)) : Prop where
  prefix' : p <+: p'
  calm : Calm p'
  history : History F starts p'
  between : (k = 0 → Between F.count p) → Between F.count p'
  gives : ∀ x ∈ l, Foretold p' s x.1.1 x.1.2 x.2
  told : ∀ s0 t j w, Foretold p' s0 t j w → Foretold p s0 t j w ∨ (s0 = s ∧ ((t, j), w) ∈ l)
  asked : ∀ q, i ≤ q → q < i + k → AskedPrimitive p' q s

theorem foretold_snoc_candidate {p : Calls S C ε} {i : Nat} {s : S} {a : Except ε Bool} {s0 t : S} {j : Int} {w : C}
    (h : Foretold (p ++ [.candidate i s a]) s0 t j w) : Foretold p s0 t j w := by
  obtain ⟨i0, l, h1, h2, h3⟩ := h
  rcases List.mem_append.mp h2 with h2 | h2
  · exact ⟨i0, l, h1, h2, h3⟩
  · simp at h2

theorem askPrimitives_does {s : S} (k : Nat) : ∀ (i : Nat) (p : Calls S C ε), i + k = F.count → Calm p → History F starts p → Turn s p i →
    (∃ l p', askPrimitives F s (List.range' i k) p = (.ok l, p') ∧ Kids F starts s i k p p' l) ∨
    ∃ x pre ev, askPrimitives F s (List.range' i k) p = (.error x, pre ++ [ev]) ∧ History F starts (pre ++ [ev]) ∧ ev.thrown = some x := by
  induction k with
  | zero =>
    intro i p hn hc hh ht
    refine .inl ⟨[], p, rfl, ⟨List.prefix_refl _, hc, hh, fun h => h rfl, by simp, fun _ _ _ _ h => .inl h, ?_⟩⟩
    intro q h1 h2; omega
  | succ k ih =>
    intro i p hn hc hh ht
    rw [List.range'_succ]
    unfold askPrimitives
    have hi : i < F.count := by omega
    cases ha : F.candidate p i s with
    | error x =>
      refine .inr ⟨x, p, .candidate i s (.error x), ?_, ?_, rfl⟩
      · rw [bind_err (ask_eq ha)]
      · exact hh.snoc ⟨ha.symm, ⟨hi, ht⟩, hc⟩
    | ok a =>
      rw [bind_ok (ask_eq ha)]
      have hh1 : History F starts (p ++ [.candidate i s (.ok a)]) := hh.snoc ⟨ha.symm, ⟨hi, ht⟩, hc⟩
      have hc1 : Calm (p ++ [.candidate i s (.ok a)]) := hc.snoc rfl
      cases a with
      | false =>
        rw [if_neg (by simp)]
        rcases ih (i + 1) _ (by omega) hc1 hh1 (.inl ⟨p, rfl⟩) with ⟨l, p', h1, h2⟩ | ⟨x, pre, ev, h1, h2⟩
        · refine .inl ⟨l, p', h1, ⟨(List.prefix_append _ _).trans h2.prefix', h2.calm, h2.history, fun _ => h2.between (fun h0 => ?_), h2.gives, ?_, ?_⟩⟩
          · exact between_snoc ⟨by omega, rfl⟩
          · intro s0 t j w h
            rcases h2.told s0 t j w h with h | h
            · exact .inl (foretold_snoc_candidate h)
            · exact .inr h
          · intro q q1 q2
            by_cases hq : q = i
            · subst hq
              exact .inl (h2.prefix'.subset (by simp))
            · exact h2.asked q (by omega) (by omega)
        · exact .inr ⟨x, pre, ev, h1, h2⟩
      | true =>
        rw [if_pos rfl]
        cases ho : F.outcomes (p ++ [.candidate i s (.ok true)]) i s with
        | error x =>
          refine .inr ⟨x, p ++ [.candidate i s (.ok true)], .outcomes i s (.error x), ?_, ?_, rfl⟩
          · rw [bind_err (ask_eq ho)]
          · exact hh1.snoc ⟨ho.symm, ⟨p, rfl⟩, hc1⟩
        | ok outs =>
          rw [bind_ok (ask_eq ho)]
          have hh2 : History F starts (p ++ [.candidate i s (.ok true)] ++ [.outcomes i s (.ok outs)]) := hh1.snoc ⟨ho.symm, ⟨p, rfl⟩, hc1⟩
          have hc2 : Calm (p ++ [.candidate i s (.ok true)] ++ [.outcomes i s (.ok outs)]) := hc1.snoc rfl
          rcases ih (i + 1) _ (by omega) hc2 hh2 (.inr ⟨p, outs, by simp⟩) with ⟨l, p', h1, h2⟩ | ⟨x, pre, ev, h1, h2⟩
          · rw [bind_ok h1]
            have hpre : p <+: p' := ((List.prefix_append _ _).trans (List.prefix_append _ _)).trans h2.prefix'
            refine .inl ⟨_, p', rfl, ⟨hpre, h2.calm, h2.history, fun _ => h2.between (fun h0 => ?_), ?_, ?_, ?_⟩⟩
            · exact between_snoc (by show i + 1 = F.count; omega)
            · intro x hx
              rcases List.mem_append.mp hx with hx | hx
              · obtain ⟨o, h3, rfl⟩ := List.mem_map.mp hx
                exact ⟨i, outs, rfl, h2.prefix'.subset (by simp), h3⟩
              · exact h2.gives x hx
            · intro s0 t j w h
              rcases h2.told s0 t j w h with h | ⟨h3, h4⟩
              · obtain ⟨i0, l0, k1, k2, k3⟩ := h
                rcases List.mem_append.mp k2 with k2 | k2
                · exact .inl (foretold_snoc_candidate ⟨i0, l0, k1, k2, k3⟩)
                · simp only [List.mem_singleton, Call.outcomes.injEq, Except.ok.injEq] at k2
                  obtain ⟨rfl, rfl, rfl⟩ := k2
                  exact .inr ⟨rfl, List.mem_append_left _ (List.mem_map.mpr ⟨(t, w), k3, by rw [k1]⟩)⟩
              · exact .inr ⟨h3, List.mem_append_right _ h4⟩
            · intro q q1 q2
              by_cases hq : q = i
              · subst hq
                exact .inr ⟨outs, (by simp : [Call.candidate q s (.ok true), Call.outcomes q s (.ok outs)] <:+ p ++ [.candidate q s (.ok true)] ++ [.outcomes q s (.ok outs)]).isInfix.trans h2.prefix'.isInfix⟩
              · exact h2.asked q (by omega) (by omega)
          · rw [bind_err h1]
            exact .inr ⟨x, pre, ev, rfl, h2⟩

/-! ### The calls of the user's functions made by the lambdas -/

theorem askPrimitives_prefix (F : Fns S C ε) (s : S) (l : List Nat) (p : Calls S C ε) : p <+: (askPrimitives F s l p).2 := by
  induction l generalizing p with
  | nil => exact List.prefix_refl _
  | cons i l ih =>
    unfold askPrimitives
    cases ha : F.candidate p i s with
    | error x => rw [bind_err (ask_eq ha)]; exact List.prefix_append _ _
    | ok a =>
      rw [bind_ok (ask_eq ha)]
      cases a with
      | false => rw [if_neg (by simp)]; exact (List.prefix_append _ _).trans (ih _)
      | true =>
        rw [if_pos rfl]
        cases ho : F.outcomes (p ++ [.candidate i s (.ok true)]) i s with
        | error x => rw [bind_err (ask_eq ho)]; exact (List.prefix_append _ _).trans (List.prefix_append _ _)
        | ok outs =>
          rw [bind_ok (ask_eq ho)]
          have := ih (p ++ [.candidate i s (.ok true)] ++ [.outcomes i s (.ok outs)])
          generalize hr : askPrimitives F s l (p ++ [.candidate i s (.ok true)] ++ [.outcomes i s (.ok outs)]) = r at this
          obtain ⟨r, p'⟩ := r
          have h0 : p <+: p ++ [.candidate i s (.ok true)] ++ [.outcomes i s (.ok outs)] := (List.prefix_append _ _).trans (List.prefix_append _ _)
          refine h0.trans ?_
          cases r with
          | ok l => rw [bind_ok hr]; exact this
          | error x => rw [bind_err hr]; exact this

section
variable [LE C] [Zero C]

open Astar.Callbacks (Hist Event)

theorem replay_snoc (h : Hist (S × Int) C ε) (ev : Event (S × Int) C ε) : replay F (h ++ [ev]) = play F (replay F h) ev := by
  unfold replay; rw [List.foldl_append]; rfl

/-- How the calls of the user's functions belong to those of the lambdas. -/
structure Match (F : Fns S C ε) (starts : List S) (h : Hist (S × Int) C ε) : Prop where
  history : History F starts (replay F h)
  calm : Astar.Callbacks.Calm h → Calm (replay F h) ∧ Between F.count (replay F h)
  goal : ∀ x a, Event.goal x (.ok a) ∈ h → Call.complete x.1 (.ok a) ∈ replay F h
  offered : ∀ x y w, Astar.Callbacks.Offered h x y w → Foretold (replay F h) x.1 y.1 y.2 w
  foretold : Astar.Callbacks.Calm h → ∀ s t j w, Foretold (replay F h) s t j w → ∃ j0, Astar.Callbacks.Offered h (s, j0) (t, j) w
  asked : ∀ x l, Event.kids x (.ok l) ∈ h → ∀ q, q < F.count → AskedPrimitive (replay F h) q x.1
  thrown : ∀ pre ev x, h = pre ++ [ev] → ev.thrown = some x → ∃ pre' ev', replay F h = pre' ++ [ev'] ∧ ev'.thrown = some x
  refused : ∀ pre x, h = pre ++ [.goal x (.ok false)] → ∃ pre', replay F h = pre' ++ [.complete x.1 (.ok false)]

theorem match_nil : Match F starts [] := by
  refine ⟨history_nil, fun _ => ⟨calm_nil, between_nil _⟩, by simp, ?_, ?_, by simp, by simp, by simp⟩
  · rintro x y w (⟨l, h, _⟩ | ⟨⟨l, h, _⟩, _⟩) <;> simp at h
  · rintro _ s t j w ⟨i, l, _, h, _⟩; simp [replay] at h

theorem starts_mem (s : S × Int) (c : C) (h : (s, c) ∈ planStarts starts) : s.1 ∈ starts := by
  unfold planStarts at h
  obtain ⟨t, h1, h2⟩ := List.mem_map.mp h
  cases h2
  exact h1

theorem Match.known {h : Hist (S × Int) C ε} (hm : Match F starts h) {x : S × Int} (hk : Astar.Callbacks.Known (planStarts starts) h x) :
    Known starts (replay F h) x.1 := by
  rcases hk with ⟨c, hk⟩ | ⟨y, w, ho⟩
  · exact .inl (starts_mem x c hk)
  · exact .inr ⟨y.1, x.2, w, hm.offered y x w ho⟩

theorem offered_snoc {h : Hist (S × Int) C ε} {ev : Event (S × Int) C ε} (hn : ∀ x a, ev ≠ .gen x a) (hv : ∀ x y a, ev ≠ .valid x y a)
    (hd : ∀ x y a, ev ≠ .dist x y a) {x y : S × Int} {w : C} (ho : Astar.Callbacks.Offered (h ++ [ev]) x y w) :
    Astar.Callbacks.Offered h x y w ∨ ∃ l, ev = .kids x (.ok l) ∧ (y, w) ∈ l := by
  rcases ho with ⟨l, h1, h2⟩ | ⟨⟨l, h1, h2⟩, h3, h4, h5⟩
  · rcases List.mem_append.mp h1 with h1 | h1
    · exact .inl (.inl ⟨l, h1, h2⟩)
    · simp only [List.mem_singleton] at h1
      exact .inr ⟨l, h1.symm, h2⟩
  · rcases List.mem_append.mp h1 with h1 | h1
    · rcases List.mem_append.mp h3 with h3 | h3
      · rcases List.mem_append.mp h4 with h4 | h4
        · exact .inl (.inr ⟨⟨l, h1, h2⟩, h3, h4, h5⟩)
        · simp only [List.mem_singleton] at h4; exact absurd h4.symm (hd _ _ _)
      · simp only [List.mem_singleton] at h3; exact absurd h3.symm (hv _ _ _)
    · simp only [List.mem_singleton] at h1; exact absurd h1.symm (hn _ _)

theorem calm_init {h : Hist (S × Int) C ε} {ev : Event (S × Int) C ε} (hc : Astar.Callbacks.Calm (h ++ [ev])) :
    Astar.Callbacks.Calm h ∧ ev.thrown = none := ⟨fun e he => hc e (by simp [he]), hc ev (by simp)⟩

/-- One more call of a lambda that makes calls `new` and offers nothing. -/
theorem Match.plain {h : Hist (S × Int) C ε} (hm : Match F starts h) {ev : Event (S × Int) C ε} {p' : Calls S C ε} (hp : replay F (h ++ [ev]) = p')
    (hpre : replay F h <+: p') (hist : History F starts p') (hcalm : ev.thrown = none → Calm p' ∧ Between F.count p')
    (hk : ∀ x a, ev ≠ .kids x a) (hn : ∀ x a, ev ≠ .gen x a) (hv : ∀ x y a, ev ≠ .valid x y a) (hd : ∀ x y a, ev ≠ .dist x y a)
    (hgoal : ∀ x a, ev = .goal x (.ok a) → ∃ pre, p' = pre ++ [.complete x.1 (.ok a)])
    (htold : ∀ s t j w, Foretold p' s t j w → Foretold (replay F h) s t j w)
    (hthrown : ∀ x, ev.thrown = some x → ∃ pre' ev', p' = pre' ++ [ev'] ∧ ev'.thrown = some x) : Match F starts (h ++ [ev]) := by
  have hof : ∀ x y w, Astar.Callbacks.Offered (h ++ [ev]) x y w → Astar.Callbacks.Offered h x y w := by
    intro x y w ho
    rcases offered_snoc hn hv hd ho with h1 | ⟨l, h1, _⟩
    · exact h1
    · exact absurd h1 (hk _ _)
  refine ⟨by rw [hp]; exact hist, fun hc => by rw [hp]; exact hcalm (calm_init hc).2, ?_, ?_, ?_, ?_, ?_, ?_⟩
  · intro x a hx
    rw [hp]
    rcases List.mem_append.mp hx with hx | hx
    · exact hpre.subset (hm.goal x a hx)
    · simp only [List.mem_singleton] at hx
      obtain ⟨pre, rfl⟩ := hgoal x a hx.symm
      simp
  · intro x y w ho
    rw [hp]
    exact (hm.offered x y w (hof x y w ho)).mono hpre
  · intro hc s t j w hf
    rw [hp] at hf
    obtain ⟨j0, ho⟩ := hm.foretold (calm_init hc).1 s t j w (htold s t j w hf)
    exact ⟨j0, ho.mono (List.prefix_append _ _)⟩
  · intro x l hx q hq
    rw [hp]
    rcases List.mem_append.mp hx with hx | hx
    · exact (hm.asked x l hx q hq).mono hpre
    · simp only [List.mem_singleton] at hx; exact absurd hx.symm (hk _ _)
  · intro pre e x he ht
    obtain ⟨_, h2⟩ := List.append_inj' he rfl
    cases h2
    rw [hp]
    exact hthrown x ht
  · intro pre x he
    obtain ⟨_, h2⟩ := List.append_inj' he rfl
    cases h2
    rw [hp]
    exact hgoal x false rfl

theorem foretold_snoc {p : Calls S C ε} {ev : Call S C ε} (hn : ∀ i s a, ev ≠ .outcomes i s a) {s t : S} {j : Int} {w : C}
    (h : Foretold (p ++ [ev]) s t j w) : Foretold p s t j w := by
  obtain ⟨i0, l, h1, h2, h3⟩ := h
  rcases List.mem_append.mp h2 with h2 | h2
  · exact ⟨i0, l, h1, h2, h3⟩
  · simp only [List.mem_singleton] at h2; exact absurd h2.symm (hn _ _ _)

theorem match_snoc {h : Hist (S × Int) C ε} (hm : Match F starts h) {ev : Event (S × Int) C ε}
    (hr : Astar.Callbacks.Right (lambdas F) true (planStarts starts) h ev) : Match F starts (h ++ [ev]) := by
  have hc : Astar.Callbacks.Calm h := hr.calm
  obtain ⟨hpc, hpb⟩ := hm.calm hc
  have hans := hr.answer
  have hall := hr.allowed
  cases ev with
  | goal x a =>
    have hk := hm.known hall
    have hp : replay F (h ++ [.goal x a]) = replay F h ++ [.complete x.1 a] := by
      rw [replay_snoc]
      unfold Astar.Callbacks.Says lambdas at hans
      dsimp only at hans
      unfold goalReached ask at hans
      dsimp only at hans
      unfold play goalReached ask
      dsimp only
      rw [← hans]
    refine hm.plain hp (List.prefix_append _ _) (hm.history.snoc ⟨hans, ⟨hk, hpb⟩, hpc⟩) (fun ht => ⟨hpc.snoc ?_, between_snoc trivial⟩)
      (by intros; simp) (by intros; simp) (by intros; simp) (by intros; simp) ?_ (fun _ _ _ _ => foretold_snoc (by intros; simp)) ?_
    · cases a with
      | ok b => rfl
      | error x => cases ht
    · intro y b hy; cases hy; exact ⟨_, rfl⟩
    · intro e he
      refine ⟨_, _, rfl, ?_⟩
      cases a with
      | ok b => cases he
      | error x => exact he
  | heur x a =>
    have hk := hm.known hall
    cases hF : F.heur with
    | none =>
      have ha : a = .ok 0 := by
        unfold Astar.Callbacks.Says lambdas at hans
        dsimp only at hans
        unfold heuristic at hans
        rw [hF] at hans
        exact hans
      subst ha
      have hp : replay F (h ++ [.heur x (.ok 0)]) = replay F h := by
        rw [replay_snoc]
        unfold play heuristic
        rw [hF]
        rfl
      exact hm.plain hp (List.prefix_refl _) hm.history (fun _ => ⟨hpc, hpb⟩) (by intros; simp) (by intros; simp) (by intros; simp) (by intros; simp)
        (by intros _ _ h; cases h) (fun _ _ _ _ h => h) (by intro e he; cases he)
    | some f =>
      have ha : a = f (replay F h) x.1 := by
        unfold Astar.Callbacks.Says lambdas at hans
        dsimp only at hans
        unfold heuristic at hans
        rw [hF] at hans
        exact hans
      have hp : replay F (h ++ [.heur x a]) = replay F h ++ [.heur x.1 a] := by
        rw [replay_snoc]
        unfold play heuristic
        rw [hF, ha]
        rfl
      refine hm.plain hp (List.prefix_append _ _) (hm.history.snoc ⟨⟨f, hF, ha⟩, ⟨hk, hpb⟩, hpc⟩) (fun ht => ⟨hpc.snoc ?_, between_snoc trivial⟩)
        (by intros; simp) (by intros; simp) (by intros; simp) (by intros; simp) (by intros _ _ h; cases h) (fun _ _ _ _ => foretold_snoc (by intros; simp)) ?_
      · cases a with
        | ok b => rfl
        | error x => cases ht
      · intro e he
        refine ⟨_, _, rfl, ?_⟩
        cases a with
        | ok b => cases he
        | error x => exact he
  | kids x a =>
    obtain ⟨pre, hpre⟩ := hall
    have hans : a = (generateChildren F x (replay F h)).1 := hans.2
    have hp : replay F (h ++ [.kids x a]) = (generateChildren F x (replay F h)).2 := by rw [replay_snoc]; rfl
    unfold generateChildren at hans hp
    rw [List.range_eq_range'] at hans hp
    rcases askPrimitives_does (F := F) (starts := starts) (s := x.1) F.count 0 (replay F h) (by omega) hpc hm.history (hm.refused pre x hpre) with
      ⟨l, p', h1, h2⟩ | ⟨e, pre', ev', h1, h2, h3⟩
    · rw [h1] at hans hp
      dsimp only at hans hp
      subst hans
      have hofs : ∀ y z w, Astar.Callbacks.Offered (h ++ [.kids x (.ok l)]) y z w → Astar.Callbacks.Offered h y z w ∨ (y = x ∧ (z, w) ∈ l) := by
        intro y z w ho
        rcases offered_snoc (by intros; simp) (by intros; simp) (by intros; simp) ho with h3 | ⟨l', h3, h4⟩
        · exact .inl h3
        · cases h3; exact .inr ⟨rfl, h4⟩
      refine ⟨by rw [hp]; exact h2.history, fun _ => by rw [hp]; exact ⟨h2.calm, h2.between (fun _ => hpb)⟩, ?_, ?_, ?_, ?_, ?_, ?_⟩
      · intro y b hy
        rw [hp]
        rcases List.mem_append.mp hy with hy | hy
        · exact h2.prefix'.subset (hm.goal y b hy)
        · simp at hy
      · intro y z w ho
        rw [hp]
        rcases hofs y z w ho with ho1 | ⟨rfl, ho1⟩
        · exact (hm.offered y z w ho1).mono h2.prefix'
        · exact h2.gives _ ho1
      · intro _ s t j w hf
        rw [hp] at hf
        rcases h2.told s t j w hf with hf1 | ⟨rfl, hf1⟩
        · obtain ⟨j0, ho⟩ := hm.foretold hc s t j w hf1
          exact ⟨j0, ho.mono (List.prefix_append _ _)⟩
        · exact ⟨x.2, .inl ⟨l, by simp, hf1⟩⟩
      · intro y l' hy q hq
        rw [hp]
        rcases List.mem_append.mp hy with hy | hy
        · exact (hm.asked y l' hy q hq).mono h2.prefix'
        · simp only [List.mem_singleton] at hy
          cases hy
          exact h2.asked q (by omega) (by omega)
      · intro pre e y he ht
        obtain ⟨_, h3⟩ := List.append_inj' he rfl
        cases h3
        cases ht
      · intro pre y he
        obtain ⟨_, h3⟩ := List.append_inj' he rfl
        cases h3
    · rw [h1] at hans hp
      dsimp only at hans hp
      subst hans
      have hpp : replay F h <+: pre' ++ [ev'] := by
        have := askPrimitives_prefix F x.1 (List.range' 0 F.count) (replay F h)
        rw [h1] at this
        exact this
      have hofs : ∀ y z w, Astar.Callbacks.Offered (h ++ [.kids x (.error e)]) y z w → Astar.Callbacks.Offered h y z w := by
        intro y z w ho
        rcases offered_snoc (by intros; simp) (by intros; simp) (by intros; simp) ho with h3 | ⟨l', h3, h4⟩
        · exact h3
        · cases h3
      refine ⟨by rw [hp]; exact h2, fun hcc => ?_, ?_, ?_, fun hcc => ?_, ?_, ?_, ?_⟩
      · have := (calm_init hcc).2; cases this
      · intro y b hy
        rw [hp]
        rcases List.mem_append.mp hy with hy | hy
        · exact hpp.subset (hm.goal y b hy)
        · simp at hy
      · intro y z w ho
        rw [hp]
        exact (hm.offered y z w (hofs y z w ho)).mono hpp
      · have := (calm_init hcc).2; cases this
      · intro y l' hy q hq
        rw [hp]
        rcases List.mem_append.mp hy with hy | hy
        · exact (hm.asked y l' hy q hq).mono hpp
        · simp at hy
      · intro pre e y he ht
        obtain ⟨_, h4⟩ := List.append_inj' he rfl
        cases h4
        cases ht
        exact ⟨pre', ev', hp, h3⟩
      · intro pre y he
        obtain ⟨_, h4⟩ := List.append_inj' he rfl
        cases h4
  | gen x a => exact absurd hans.1 (by simp)
  | valid x y a => exact absurd hans.1 (by simp)
  | dist x y a => exact absurd hans.1 (by simp)

theorem match_history (h : Hist (S × Int) C ε) (hh : Astar.Callbacks.History (lambdas F) true (planStarts starts) h) : Match F starts h := by
  induction h using List.reverseRecOn with
  | nil => exact match_nil
  | append_singleton h ev ih =>
    refine match_snoc (ih (fun pre e post he => ?_)) (hh h ev [] rfl)
    exact hh pre e (post ++ [ev]) (by rw [he]; simp)

end

end CRU.Task.Planning
