import Verif.TaskPlanner.Callbacks
/-
  C111: what the callbacks and primitives of a task execution see.
-/
namespace CRU.Task.Callbacks
open CRU.Task
set_option linter.unusedSectionVars false

variable {S C ε α β : Type}

/-! ### Specification -/

/-- The call of a function that need not be given: one call, or none. -/
def ifGiven {γ : Type} (f : Option γ) (ev : Event S C ε) : Hist S C ε := match f with | none => [] | some _ => [ev]

section
variable [LinearOrder C] [Add C] [Zero C]

/-- With the calls `h` made, the planner has chosen the outcome number `i`, which is `s`, of `cur`, because of `plan`: an executable plan from
that outcome to a state in which the task is complete. -/
structure Chosen (W : World S C ε) (h : Hist S C ε) (cur : List S) (plan : Plan S C) (i : Nat) (s : S) : Prop where
  here : cur[i]? = some s
  real : ∃ c, IsPlan (W.prims h) cur plan.1 c
  starts : plan.1.head? = some (s, -1)
  ends : ∃ x, plan.1.getLast? = some x ∧ W.complete h x.1 = true
  /-- if the heuristic never overestimates, there is no cheaper plan from any outcome -/
  cheapest : (∀ f, W.heuristic = some f → AdmissibleTask (W.prims h) (W.complete h) (f h)) → IsPlan (W.prims h) cur plan.1 plan.2 ∧
    ∀ l c x, IsPlan (W.prims h) cur l c → l.getLast? = some x → W.complete h x.1 = true → plan.2 ≤ c

/-- ... and the next primitive `q` of that plan: registered, and a candidate in that state; the task is not complete in any outcome. -/
structure ChosenNext (W : World S C ε) (h : Hist S C ε) (cur : List S) (plan : Plan S C) (i : Nat) (s : S) (q : Primitive S C) : Prop
    extends Chosen W h cur plan i s where
  prim : ∃ y, plan.1[1]? = some y ∧ 0 ≤ y.2 ∧ (W.prims h)[y.2.toNat]? = some q
  candidate : q.candidate s = true
  going : ∀ t ∈ cur, W.complete h t = false

/-- The calls of a round before the primitive is executed. -/
def before (W : World S C ε) (cur : List S) (plan : Plan S C) (i : Nat) (s : S) (name : String) : Hist S C ε :=
  ifGiven W.outcome (.outcome cur i plan (.ok ())) ++ ifGiven W.announce (.announce s name plan (.ok ())) ++ ifGiven W.log (.log name (.ok ()))

/-- The calls of a whole round. -/
def wholeRound (W : World S C ε) (cur : List S) (plan : Plan S C) (i : Nat) (s : S) (name : String) (outs : List S) : Hist S C ε :=
  before W cur plan i s name ++ [.execute name s (.ok outs)] ++ ifGiven W.executed (.executed outs (.ok ()))

/-- Rounds without an exception: the calls made, the outcomes that are now the current ones, and the states that the primitives were executed in.
Every answer is the one that the function gives with the calls made before. -/
inductive Rounds (W : World S C ε) (starts : List S) : Hist S C ε → List S → List S → Prop
  | start : Rounds W starts [] starts []
  | round {h : Hist S C ε} {cur tr outs : List S} {plan : Plan S C} {i : Nat} {s : S} {q : Primitive S C} (hr : Rounds W starts h cur tr)
      (hc : ChosenNext W h cur plan i s q) (he : W.execute (h ++ before W cur plan i s q.name) q.name s = .ok outs) :
      Rounds W starts (h ++ wholeRound W cur plan i s q.name outs) outs (tr ++ [s])

end

/-- The exception of a call. -/
def Event.thrown : Event S C ε → Option ε
  | .outcome _ _ _ (.error x) => some x
  | .announce _ _ _ (.error x) => some x
  | .log _ (.error x) => some x
  | .execute _ _ (.error x) => some x
  | .executed _ (.error x) => some x
  | _ => none

/-- It is a call of `Execute`. -/
def Event.isExecute : Event S C ε → Bool
  | .execute _ _ _ => true
  | _ => false

section
variable [LinearOrder C] [Add C] [Zero C]

/-- The part of a round up to a call that throws. -/
inductive Broken (W : World S C ε) (cur : List S) (plan : Plan S C) (i : Nat) (s : S) (q : Option (Primitive S C)) : ε → Hist S C ε → Prop
  | outcome {x : ε} (hg : W.outcome.isSome) : Broken W cur plan i s q x [.outcome cur i plan (.error x)]
  | announce {x : ε} {p : Primitive S C} (hq : q = some p) (hg : W.announce.isSome) : Broken W cur plan i s q x
      (ifGiven W.outcome (.outcome cur i plan (.ok ())) ++ [.announce s p.name plan (.error x)])
  | log {x : ε} {p : Primitive S C} (hq : q = some p) (hg : W.log.isSome) : Broken W cur plan i s q x
      (ifGiven W.outcome (.outcome cur i plan (.ok ())) ++ ifGiven W.announce (.announce s p.name plan (.ok ())) ++ [.log p.name (.error x)])
  | execute {x : ε} {p : Primitive S C} (hq : q = some p) : Broken W cur plan i s q x
      (before W cur plan i s p.name ++ [.execute p.name s (.error x)])
  | executed {x : ε} {p : Primitive S C} {outs : List S} (hq : q = some p) (hg : W.executed.isSome) : Broken W cur plan i s q x
      (before W cur plan i s p.name ++ [.execute p.name s (.ok outs)] ++ [.executed outs (.error x)])

end

/-! ### One round -/

theorem bind_def (m : Run S C ε α) (f : α → Run S C ε β) (h : Hist S C ε) : (m >>= f) h = match m h with
    | (.ok a, h1) => f a h1
    | (.error x, h1) => (.error x, h1) := rfl

/-- A call of a function that need not be given: it goes well, or it is the call that throws. -/
theorem askIf_spec {γ : Type} (f : Option γ) (g : γ → Hist S C ε → Except ε Unit) (ev : Except ε Unit → Event S C ε) (h : Hist S C ε) :
    (askIf (f.map g) ev h = (.ok (), h ++ ifGiven f (ev (.ok ())))) ∨
    ∃ x, f.isSome ∧ askIf (f.map g) ev h = (.error (.user x), h ++ [ev (.error x)]) := by
  cases f with
  | none => left; simp [askIf, ret, ifGiven]
  | some a =>
    simp only [askIf, Option.map_some, ask, ifGiven]
    cases hg : g a h with
    | ok u => left; rfl
    | error x => right; exact ⟨x, rfl, rfl⟩

theorem lib_ok (a : α) (h : Hist S C ε) : lib (.ok a) h = (Except.ok a, h) := rfl

theorem pure_def (a : α) (h : Hist S C ε) : (pure a : Run S C ε α) h = (.ok a, h) := rfl

/-- What one round can do. -/
theorem round_spec (W : World S C ε) (n : Int) {cur : List S} (plan : Plan S C) {i : Nat} {s : S} (hi : cur[i]? = some s) (p : Option (Primitive S C))
    (h : Hist S C ε) :
    (∃ x H, round W n cur plan i p h = (.error (.user x), h ++ H) ∧ Broken W cur plan i s p x H) ∨
    (p = none ∧ round W n cur plan i p h = (.ok (s, none), h ++ ifGiven W.outcome (.outcome cur i plan (.ok ())))) ∨
    (∃ q, p = some q ∧ ¬ n + 1 < 2 ^ 31 ∧ round W n cur plan i p h = (.error .ub, h ++ before W cur plan i s q.name)) ∨
    (∃ q outs, p = some q ∧ n + 1 < 2 ^ 31 ∧ W.execute (h ++ before W cur plan i s q.name) q.name s = .ok outs ∧
      round W n cur plan i p h = (.ok (s, some (n + 1, outs)), h ++ wholeRound W cur plan i s q.name outs)) := by
  unfold round
  rw [atInt_nat_get hi, bind_def, lib_ok]
  dsimp only
  rw [bind_def]
  rcases askIf_spec W.outcome (fun f h => f h cur i plan) (Event.outcome cur i plan) h with h1 | ⟨x, hg, h1⟩
  · rw [h1]
    dsimp only
    cases p with
    | none => right; left; exact ⟨rfl, rfl⟩
    | some q =>
      dsimp only
      rw [bind_def]
      rcases askIf_spec W.announce (fun f h => f h s q.name plan) (Event.announce s q.name plan) (h ++ ifGiven W.outcome (.outcome cur i plan (.ok ())))
        with h2 | ⟨x, hg, h2⟩
      · rw [h2]
        dsimp only
        rw [bind_def]
        rcases askIf_spec W.log (fun f h => f h q.name) (Event.log q.name)
          (h ++ ifGiven W.outcome (.outcome cur i plan (.ok ())) ++ ifGiven W.announce (.announce s q.name plan (.ok ()))) with h3 | ⟨x, hg, h3⟩
        · rw [h3]
          dsimp only
          have hb : h ++ ifGiven W.outcome (.outcome cur i plan (.ok ())) ++ ifGiven W.announce (.announce s q.name plan (.ok ())) ++
              ifGiven W.log (.log q.name (.ok ())) = h ++ before W cur plan i s q.name := by
            unfold before
            simp only [List.append_assoc]
          rw [hb, bind_def]
          by_cases hn : n + 1 < 2 ^ 31
          · rw [show bump n = .ok (n + 1) by unfold bump; rw [if_pos hn], lib_ok]
            dsimp only
            rw [bind_def]
            simp only [ask]
            cases he : W.execute (h ++ before W cur plan i s q.name) q.name s with
            | error x =>
              left
              exact ⟨x, before W cur plan i s q.name ++ [.execute q.name s (.error x)], by simp only [List.append_assoc], .execute rfl⟩
            | ok outs =>
              dsimp only
              rw [bind_def]
              rcases askIf_spec W.executed (fun f h => f h outs) (Event.executed outs) (h ++ before W cur plan i s q.name ++ [.execute q.name s (.ok outs)])
                with h4 | ⟨x, hg, h4⟩
              · rw [h4]
                right; right; right
                refine ⟨q, outs, rfl, hn, he, ?_⟩
                dsimp only
                rw [pure_def]
                unfold wholeRound
                simp only [List.append_assoc]
              · rw [h4]
                left
                refine ⟨x, before W cur plan i s q.name ++ [.execute q.name s (.ok outs)] ++ [.executed outs (.error x)], ?_, .executed rfl hg⟩
                simp only [List.append_assoc]
          · rw [show bump n = .ub by unfold bump; rw [if_neg hn]]
            right; right; left
            exact ⟨q, rfl, hn, rfl⟩
        · rw [h3]
          left
          refine ⟨x, ifGiven W.outcome (.outcome cur i plan (.ok ())) ++ ifGiven W.announce (.announce s q.name plan (.ok ())) ++ [.log q.name (.error x)],
            ?_, .log rfl hg⟩
          simp only [List.append_assoc]
      · rw [h2]
        left
        refine ⟨x, ifGiven W.outcome (.outcome cur i plan (.ok ())) ++ [.announce s q.name plan (.error x)], ?_, .announce rfl hg⟩
        simp only [List.append_assoc]
  · rw [h1]
    left
    exact ⟨x, _, rfl, .outcome hg⟩

/-! ### The whole run -/

variable [DecidableEq S] [LinearOrder C] [Add C] [Zero C] [OrderTop C] [CostLaws C]

/-- At no time a primitive predicts an outcome at a negative cost: `OutcomesWithCosts` is a vector of `StateWithCost`, whose constructor throws
otherwise (simple_astar_search.hpp:193-200). -/
def World.Nonneg (W : World S C ε) : Prop := ∀ h, NonnegOutcomes (W.prims h)

/-- What the planner answers is chosen well. -/
theorem next_chosen (h0 : (0 : C) ≠ ⊤) {W : World S C ε} (hW : W.Nonneg) {h : Hist S C ε} {cur : List S} {plan : Plan S C} {i : Int}
    {p : Option (Primitive S C)} (hn : Next W h cur (.ok (plan, i, p))) :
    ∃ (k : Nat) (s : S), i = k ∧ Chosen W h cur plan k s ∧ (p = none → W.complete h s = true) ∧ ∀ q, p = some q → ChosenNext W h cur plan k s q := by
  have hn' : NextRun (W.prims h) (W.complete h) (W.heuristic.map fun f => f h) cur (.ok (plan, i, p)) := hn
  have hends : ∃ x, plan.1.getLast? = some x ∧ W.complete h x.1 = true := by
    generalize hrr : Res.ok (plan, i, p) = r at hn'
    cases hn' with
    | empty => cases hrr
    | @planned r' hs hp =>
      rcases plan_outcome (hW h) hp with ⟨⟨path, cost⟩, rfl⟩ | rfl
      · rw [Res.ok_bind] at hrr
        rcases pickNext_spec (hW h) hp with ⟨rfl, ht⟩ | ⟨i', s', p', hk, h1, h2, -⟩
        · rw [ht] at hrr; cases hrr
        · rw [hk] at hrr
          cases hrr
          exact (C24_plan_is_executable (hW h) hp (by intro hc; rw [hc] at h2; simp at h2)).2.2.2
      · cases hrr
  rcases C24_next_primitive (hW h) hn with ⟨plan', k, s, p', he, h1, h2, h3, h4, h5⟩ | he | ⟨he, -⟩
  · cases he
    have hc : Chosen W h cur plan k s := ⟨h1, h3, h2, hends, fun hadm => C24_next_is_cheapest (hW h) (by
      intro f hf
      obtain ⟨g, hg, rfl⟩ := Option.map_eq_some_iff.mp hf
      exact hadm g hg) hn⟩
    refine ⟨k, s, rfl, hc, h4, ?_⟩
    rintro q rfl
    exact ⟨hc, C24_next_is_first_step hn, (h5 q rfl).2, next_not_complete h0 hn⟩
  · cases he
  · cases he

/-- How a run can end after the rounds with the calls `h`, the current outcomes `cur` and the states `tr`: outcome and further calls. -/
inductive Ending (W : World S C ε) (max : Int) (h : Hist S C ε) (cur tr : List S) : Except (Fail ε) (List S) → Hist S C ε → Prop
  /-- the limit is reached -/
  | limit (h0 : 0 ≤ max) (hm : (tr.length : Int) = max) : Ending W max h cur tr (.ok tr) []
  /-- the task is complete -/
  | complete {plan : Plan S C} {i : Nat} {s : S} (hl : (tr.length : Int) < max ∨ max < 0) (hc : Chosen W h cur plan i s) (hs : W.complete h s = true) :
      Ending W max h cur tr (.ok (tr ++ [s])) (ifGiven W.outcome (.outcome cur i plan (.ok ())))
  /-- there is nothing to plan from, or a completion of the task has an infinite cost -/
  | refused (hl : (tr.length : Int) < max ∨ max < 0)
      (hc : cur = [] ∨ ∃ p x, IsPlan (W.prims h) cur p (⊤ : C) ∧ p.getLast? = some x ∧ W.complete h x.1 = true) : Ending W max h cur tr (.error (.lib .invalidArgument)) []
  /-- the task cannot be completed from any outcome -/
  | impossible (hl : (tr.length : Int) < max ∨ max < 0)
      (hi : ∀ p c x, IsPlan (W.prims h) cur p c → p.getLast? = some x → W.complete h x.1 = false) :
      Ending W max h cur tr (.error (.lib .runtimeError)) []
  /-- a function of the user throws -/
  | thrown {plan : Plan S C} {i : Nat} {s : S} {p : Option (Primitive S C)} {x : ε} {E : Hist S C ε} (hl : (tr.length : Int) < max ∨ max < 0) (hc : Chosen W h cur plan i s)
      (hp : p = none → W.complete h s = true) (hq : ∀ q, p = some q → ChosenNext W h cur plan i s q) (hb : Broken W cur plan i s p x E) :
      Ending W max h cur tr (.error (.user x)) E
  /-- there is no limit, and the counter of executions overflows -/
  | overflow {plan : Plan S C} {i : Nat} {s : S} {q : Primitive S C} (hm : max < 0) (hn : (tr.length : Int) = 2 ^ 31 - 1)
      (hc : ChosenNext W h cur plan i s q) : Ending W max h cur tr (.error .ub) (before W cur plan i s q.name)

theorem session (h0 : (0 : C) ≠ ⊤) {W : World S C ε} (hW : W.Nonneg) {max : Int} (hmax : max < 2 ^ 31) {starts : List S} {n : Int} {cur : List S} {h H : Hist S C ε}
    {r : Except (Fail ε) (List S)} (hr : ExecRun W max n cur h r H) : ∀ tr0, Rounds W starts h cur tr0 → n = tr0.length → n < 2 ^ 31 →
    (0 ≤ max → n ≤ max) →
    ∃ h' cur' tr E r', Rounds W starts h' cur' (tr0 ++ tr) ∧ H = h' ++ E ∧ Ending W max h' cur' (tr0 ++ tr) r' E ∧ (0 ≤ max → ((tr0 ++ tr).length : Int) ≤ max) ∧
      (((tr0 ++ tr).length : Int) < 2 ^ 31) ∧ (match r with | .ok t => r' = .ok (tr0 ++ t) | .error x => r' = .error x) := by
  induction hr with
  | @limit n cur h hl =>
    intro tr0 hr hn hlt hle
    refine ⟨h, cur, [], [], .ok tr0, by simpa using hr, by simp, by simpa using Ending.limit (by omega) (by omega), by simpa using by omega, by simpa using by omega, by simp⟩
  | @planThrows n cur h x hl hnx =>
    intro tr0 hr hn hlt hle
    refine ⟨h, cur, [], [], .error (.lib x), by simpa using hr, by simp, ?_, by simpa using by omega, by simpa using by omega, rfl⟩
    rcases C24_next_primitive (hW h) hnx with ⟨_, _, _, _, he, _⟩ | he | ⟨he, h2⟩
    · cases he
    · cases he; exact .refused (by simpa using by omega) (C24_refused (hW h) hnx)
    · cases he; exact .impossible (by simpa using by omega) h2
  | @planUb n cur h hl hnx =>
    rcases C24_next_primitive (hW h) hnx with ⟨_, _, _, _, he, _⟩ | he | ⟨he, h2⟩ <;> cases he
  | @fails n cur h H plan i p x hl hnx hrd =>
    intro tr0 hr hn hlt hle
    obtain ⟨k, s, rfl, hc, hp, hq⟩ := next_chosen h0 hW hnx
    rcases round_spec W n plan hc.here p h with ⟨y, E, he, hb⟩ | ⟨-, he⟩ | ⟨q, hpq, hov, he⟩ | ⟨q, outs, hpq, hov, hex, he⟩
    · rw [he] at hrd
      cases hrd
      exact ⟨h, cur, [], E, .error (.user y), by simpa using hr, rfl, .thrown (by simpa using by omega) hc hp hq hb, by simpa using by omega, by simpa using by omega, rfl⟩
    · rw [he] at hrd; cases hrd
    · rw [he] at hrd
      cases hrd
      refine ⟨h, cur, [], _, .error .ub, by simpa using hr, rfl, .overflow (by omega) ?_ (hq q hpq), by simpa using by omega, by simpa using by omega, rfl⟩
      simp only [List.append_nil]
      omega
    · rw [he] at hrd; cases hrd
  | @done n cur h H plan i p s' hl hnx hrd =>
    intro tr0 hr hn hlt hle
    obtain ⟨k, s, rfl, hc, hp, hq⟩ := next_chosen h0 hW hnx
    rcases round_spec W n plan hc.here p h with ⟨y, E, he, hb⟩ | ⟨hp0, he⟩ | ⟨q, hpq, hov, he⟩ | ⟨q, outs, hpq, hov, hex, he⟩
    · rw [he] at hrd; cases hrd
    · rw [he] at hrd
      cases hrd
      refine ⟨h, cur, [], _, .ok (tr0 ++ [s']), by simpa using hr, rfl, ?_, by simpa using by omega, by simpa using by omega, rfl⟩
      simpa using Ending.complete (by omega) hc (hp hp0)
    · rw [he] at hrd; cases hrd
    · rw [he] at hrd; cases hrd
  | @goOn n m cur outs h h1 H plan i p s' r hl hnx hrd hx ih =>
    intro tr0 hr hn hlt hle
    obtain ⟨k, s, rfl, hc, hp, hq⟩ := next_chosen h0 hW hnx
    rcases round_spec W n plan hc.here p h with ⟨y, E, he, hb⟩ | ⟨hp0, he⟩ | ⟨q, hpq, hov, he⟩ | ⟨q, outs', hpq, hov, hex, he⟩
    · rw [he] at hrd; cases hrd
    · rw [he] at hrd; cases hrd
    · rw [he] at hrd; cases hrd
    · rw [he] at hrd
      cases hrd
      obtain ⟨h', cur', tr, E, r', i1, i2, i3, i4, i5, i6⟩ := ih (tr0 ++ [s']) (.round hr (hq q hpq) hex) (by simp; omega) hov (by omega)
      refine ⟨h', cur', s' :: tr, E, r', by simpa using i1, i2, by simpa using i3, by simpa using i4, by simpa using i5, ?_⟩
      cases r with
      | ok t => simpa [addState] using i6
      | error x => simpa [addState] using i6

/-- `PerformSingleTaskExecution`, for all primitives and callbacks, which may answer differently each time and may throw: the calls made are rounds
without an exception and an ending. In every round the callbacks that are given see, in this order, the current outcomes (the start states, or what
the last primitive executed gave) with the index of the chosen one and the plan, then that outcome with the next primitive, then its name; then
exactly this primitive is executed in exactly this state; then the callback sees the outcomes. The primitive is one that was a candidate in that
state when the plan was made, and none is executed once an outcome completes the task. No more primitives are executed than the limit says. -/
theorem C111_session (h0 : (0 : C) ≠ ⊤) {W : World S C ε} (hW : W.Nonneg) {max : Int} (hmax : max < 2 ^ 31) {starts : List S} {H : Hist S C ε}
    {r : Except (Fail ε) (List S)} (hr : PerformRun W max starts r H) :
    ∃ h cur tr E, Rounds W starts h cur tr ∧ H = h ++ E ∧ Ending W max h cur tr r E ∧ (0 ≤ max → (tr.length : Int) ≤ max) := by
  obtain ⟨h', cur', tr, E, r', i1, i2, i3, i4, -, i6⟩ := session h0 hW hmax hr [] .start rfl (by decide) id
  refine ⟨h', cur', tr, E, by simpa using i1, i2, ?_, by simpa using i4⟩
  have : r' = r := by
    cases r with
    | ok t => simpa using i6
    | error x => exact i6
  rw [← this]
  simpa using i3

/-- The overload for one start state does the same as the other one for a list of it alone. -/
theorem C111_single_start {W : World S C ε} {max : Int} {start : S} {H : Hist S C ε} {r : Except (Fail ε) (List S)} :
    PerformRun1 W max start r H ↔ PerformRun W max [start] r H := Iff.rfl

/-! ### Consequences -/

theorem thrown_ifGiven {γ : Type} (f : Option γ) (ev : Event S C ε) (hev : ev.thrown = none) : ∀ x ∈ ifGiven f ev, x.thrown = none := by
  intro x hx
  cases f with
  | none => simp [ifGiven] at hx
  | some a =>
    simp only [ifGiven, List.mem_singleton] at hx
    rw [hx]
    exact hev

theorem thrown_before (W : World S C ε) (cur : List S) (plan : Plan S C) (i : Nat) (s : S) (name : String) :
    ∀ x ∈ before W cur plan i s name, x.thrown = none := by
  intro x hx
  unfold before at hx
  rcases List.mem_append.mp hx with hx | hx
  · rcases List.mem_append.mp hx with hx | hx
    · exact thrown_ifGiven _ _ rfl x hx
    · exact thrown_ifGiven _ _ rfl x hx
  · exact thrown_ifGiven _ _ rfl x hx

theorem Rounds.no_throw {W : World S C ε} {starts : List S} {h : Hist S C ε} {cur tr : List S} (hr : Rounds W starts h cur tr) :
    ∀ x ∈ h, x.thrown = none := by
  induction hr with
  | start => simp
  | round hr hc he ih =>
    intro x hx
    rcases List.mem_append.mp hx with hx | hx
    · exact ih x hx
    · unfold wholeRound at hx
      rcases List.mem_append.mp hx with hx | hx
      · rcases List.mem_append.mp hx with hx | hx
        · exact thrown_before _ _ _ _ _ _ x hx
        · rw [List.mem_singleton.mp hx]; rfl
      · exact thrown_ifGiven _ _ rfl x hx

/-- In a broken round only the last call throws. -/
theorem Broken.last {W : World S C ε} {cur : List S} {plan : Plan S C} {i : Nat} {s : S} {q : Option (Primitive S C)} {x : ε} {E : Hist S C ε}
    (hb : Broken W cur plan i s q x E) : ∃ F ev, E = F ++ [ev] ∧ ev.thrown = some x ∧ ∀ y ∈ F, y.thrown = none := by
  cases hb with
  | outcome => exact ⟨[], _, rfl, rfl, by simp⟩
  | announce => exact ⟨_, _, rfl, rfl, thrown_ifGiven _ _ rfl⟩
  | log =>
    refine ⟨_, _, rfl, rfl, fun y hy => ?_⟩
    rcases List.mem_append.mp hy with hy | hy
    · exact thrown_ifGiven _ _ rfl y hy
    · exact thrown_ifGiven _ _ rfl y hy
  | execute => exact ⟨_, _, rfl, rfl, thrown_before _ _ _ _ _ _⟩
  | executed =>
    refine ⟨_, _, rfl, rfl, fun y hy => ?_⟩
    rcases List.mem_append.mp hy with hy | hy
    · exact thrown_before _ _ _ _ _ _ y hy
    · rw [List.mem_singleton.mp hy]; rfl

/-- Exceptions: what the caller gets from a function of the user is the exception of the last call made; no other call has thrown. If the call
ends in any other way, no call has thrown. -/
theorem C111_exceptions (h0 : (0 : C) ≠ ⊤) {W : World S C ε} (hW : W.Nonneg) {max : Int} (hmax : max < 2 ^ 31) {starts : List S} {H : Hist S C ε}
    {r : Except (Fail ε) (List S)} (hr : PerformRun W max starts r H) :
    (∀ x, r = .error (.user x) → ∃ F ev, H = F ++ [ev] ∧ ev.thrown = some x ∧ ∀ y ∈ F, y.thrown = none) ∧
    ((∀ x, r ≠ .error (.user x)) → ∀ y ∈ H, y.thrown = none) := by
  obtain ⟨h, cur, tr, E, h1, rfl, h3, -⟩ := C111_session h0 hW hmax hr
  have hno := h1.no_throw
  refine ⟨?_, ?_⟩
  · rintro x rfl
    cases h3 with
    | thrown hl hc hp hq hb =>
      obtain ⟨F, ev, rfl, h4, h5⟩ := hb.last
      refine ⟨h ++ F, ev, by simp, h4, fun y hy => ?_⟩
      rcases List.mem_append.mp hy with hy | hy
      · exact hno y hy
      · exact h5 y hy
  · intro hne y hy
    rcases List.mem_append.mp hy with hy | hy
    · exact hno y hy
    · cases h3 with
      | limit => simp at hy
      | complete => exact thrown_ifGiven _ _ rfl y hy
      | refused => simp at hy
      | impossible => simp at hy
      | thrown => exact absurd rfl (hne _)
      | overflow => exact thrown_before _ _ _ _ _ _ y hy

/-- The calls of `Execute` among the calls. -/
def executions (h : Hist S C ε) : Nat := h.countP Event.isExecute

theorem executions_append (a b : Hist S C ε) : executions (a ++ b) = executions a + executions b := List.countP_append

theorem executions_ifGiven {γ : Type} (f : Option γ) (ev : Event S C ε) (hev : ev.isExecute = false) : executions (ifGiven f ev) = 0 := by
  cases f with
  | none => rfl
  | some a => simp [ifGiven, executions, hev]

theorem executions_before (W : World S C ε) (cur : List S) (plan : Plan S C) (i : Nat) (s : S) (name : String) :
    executions (before W cur plan i s name) = 0 := by
  unfold before
  rw [executions_append, executions_append, executions_ifGiven _ _ rfl, executions_ifGiven _ _ rfl, executions_ifGiven _ _ rfl]

theorem Rounds.executions {W : World S C ε} {starts : List S} {h : Hist S C ε} {cur tr : List S} (hr : Rounds W starts h cur tr) :
    executions h = tr.length := by
  induction hr with
  | start => rfl
  | round hr hc he ih =>
    unfold wholeRound
    rw [executions_append, executions_append, executions_append, executions_before, executions_ifGiven _ _ rfl, ih]
    simp [Callbacks.executions, Event.isExecute]

/-- At most as many primitives are executed as the limit says, also if a function throws; a trace has one state for every execution, and one more
if it ends with a completed task. Undefined behaviour needs no limit and `2^31 - 1` executions. -/
theorem C111_executions (h0 : (0 : C) ≠ ⊤) {W : World S C ε} (hW : W.Nonneg) {max : Int} (hmax : max < 2 ^ 31) {starts : List S} {H : Hist S C ε}
    {r : Except (Fail ε) (List S)} (hr : PerformRun W max starts r H) :
    (0 ≤ max → (executions H : Int) ≤ max) ∧
    (∀ tr, r = .ok tr → (tr.length = executions H ∧ (tr.length : Int) = max) ∨
      (tr.length = executions H + 1 ∧ ∃ (s : S) (h : Hist S C ε), tr.getLast? = some s ∧ h <+: H ∧ W.complete h s = true)) ∧
    (r = .error .ub → max < 0 ∧ executions H = 2 ^ 31 - 1) := by
  obtain ⟨h, cur, tr, E, h1, rfl, h3, h4⟩ := C111_session h0 hW hmax hr
  have hex := h1.executions
  refine ⟨?_, ?_, ?_⟩
  · intro hm
    have := h4 hm
    rw [executions_append, hex]
    cases h3 with
    | limit => simpa [executions] using this
    | complete => rw [executions_ifGiven _ _ rfl]; simpa using this
    | refused => simpa [executions] using this
    | impossible => simpa [executions] using this
    | overflow => omega
    | @thrown plan i s p x E hl hc hp hq hb =>
      have : executions E ≤ 1 := by
        cases hb with
        | outcome => simp [executions, Event.isExecute]
        | announce => rw [executions_append, executions_ifGiven _ _ rfl]; simp [executions, Event.isExecute]
        | log => rw [executions_append, executions_append, executions_ifGiven _ _ rfl, executions_ifGiven _ _ rfl]; simp [executions, Event.isExecute]
        | execute => rw [executions_append, executions_before]; simp [executions, Event.isExecute]
        | executed => rw [executions_append, executions_append, executions_before]; simp [executions, Event.isExecute]
      push_cast
      omega
  · rintro t rfl
    cases h3 with
    | limit hm0 hm => left; exact ⟨by rw [List.append_nil, hex], hm⟩
    | @complete plan i s hl hc hs =>
      right
      refine ⟨by rw [executions_append, hex, executions_ifGiven _ _ rfl]; simp, s, h, by simp, List.prefix_append _ _, hs⟩
  · rintro rfl
    cases h3 with
    | overflow hm hn hc =>
      refine ⟨hm, ?_⟩
      rw [executions_append, hex, executions_before]
      omega

/-! ### Every answer is one that the function gave -/

/-- With the calls `h` made, this call gives this answer. -/
def Event.genuine (W : World S C ε) (h : Hist S C ε) : Event S C ε → Prop
  | .outcome cur i plan ans => ∃ f, W.outcome = some f ∧ f h cur i plan = ans
  | .announce s name plan ans => ∃ f, W.announce = some f ∧ f h s name plan = ans
  | .log name ans => ∃ f, W.log = some f ∧ f h name = ans
  | .execute name s ans => W.execute h name s = ans
  | .executed outs ans => ∃ f, W.executed = some f ∧ f h outs = ans

/-- From `h` to `H` only genuine calls were added. -/
inductive Adds (W : World S C ε) : Hist S C ε → Hist S C ε → Prop
  | refl (h : Hist S C ε) : Adds W h h
  | add {h H : Hist S C ε} {ev : Event S C ε} (ha : Adds W h H) (hg : ev.genuine W H) : Adds W h (H ++ [ev])

omit [DecidableEq S] [LinearOrder C] [Add C] [Zero C] [OrderTop C] [CostLaws C] in
theorem Adds.trans {W : World S C ε} {a b c : Hist S C ε} (h1 : Adds W a b) (h2 : Adds W b c) : Adds W a c := by
  induction h2 with
  | refl => exact h1
  | add _ hg ih => exact .add ih hg

omit [DecidableEq S] [LinearOrder C] [Add C] [Zero C] [OrderTop C] [CostLaws C] in
theorem adds_bind {W : World S C ε} {m : Run S C ε α} {f : α → Run S C ε β} (hm : ∀ h, Adds W h (m h).2) (hf : ∀ a h, Adds W h (f a h).2)
    (h : Hist S C ε) : Adds W h ((m >>= f) h).2 := by
  rw [bind_def]
  have h1 := hm h
  cases hx : m h with
  | mk r h' =>
    rw [hx] at h1
    cases r with
    | ok a => exact h1.trans (hf a h')
    | error x => exact h1

omit [DecidableEq S] [LinearOrder C] [Add C] [Zero C] [OrderTop C] [CostLaws C] in
theorem adds_ask {W : World S C ε} {f : Hist S C ε → Except ε α} {ev : Except ε α → Event S C ε} (hg : ∀ h, (ev (f h)).genuine W h) (h : Hist S C ε) :
    Adds W h (ask f ev h).2 := by
  have h1 := hg h
  unfold ask
  cases hf : f h with
  | ok a => rw [hf] at h1; exact .add (.refl h) h1
  | error x => rw [hf] at h1; exact .add (.refl h) h1

omit [DecidableEq S] [LinearOrder C] [Add C] [Zero C] [OrderTop C] [CostLaws C] in
theorem adds_askIf {W : World S C ε} {γ : Type} {f : Option γ} {g : γ → Hist S C ε → Except ε Unit} {ev : Except ε Unit → Event S C ε}
    (hg : ∀ a, f = some a → ∀ h, (ev (g a h)).genuine W h) (h : Hist S C ε) : Adds W h (askIf (f.map g) ev h).2 := by
  cases f with
  | none => exact .refl h
  | some a => exact adds_ask (hg a rfl) h

omit [DecidableEq S] [LinearOrder C] [Add C] [Zero C] [OrderTop C] [CostLaws C] in
theorem adds_lib {W : World S C ε} (r : Res α) (h : Hist S C ε) : Adds W h ((lib r : Run S C ε α) h).2 := by
  cases r <;> exact .refl h

omit [DecidableEq S] [LinearOrder C] [Add C] [Zero C] [OrderTop C] [CostLaws C] in
theorem adds_round (W : World S C ε) (n : Int) (cur : List S) (plan : Plan S C) (i : Int) (p : Option (Primitive S C)) (h : Hist S C ε) :
    Adds W h (round W n cur plan i p h).2 := by
  unfold round
  refine adds_bind (adds_lib _) (fun s h => ?_) h
  refine adds_bind (fun h => adds_askIf (W := W) (f := W.outcome) (g := fun f h => f h cur i plan) (ev := Event.outcome cur i plan)
    (fun f hf h => ⟨f, hf, rfl⟩) h) (fun _ h => ?_) h
  cases p with
  | none => exact .refl h
  | some q =>
    refine adds_bind (fun h => adds_askIf (W := W) (f := W.announce) (g := fun f h => f h s q.name plan) (ev := Event.announce s q.name plan)
      (fun f hf h => ⟨f, hf, rfl⟩) h) (fun _ h => ?_) h
    refine adds_bind (fun h => adds_askIf (W := W) (f := W.log) (g := fun f h => f h q.name) (ev := Event.log q.name)
      (fun f hf h => ⟨f, hf, rfl⟩) h) (fun _ h => ?_) h
    refine adds_bind (adds_lib _) (fun m h => ?_) h
    refine adds_bind (fun h => adds_ask (W := W) (f := fun h => W.execute h q.name s) (ev := Event.execute q.name s) (fun h => rfl) h)
      (fun outs h => ?_) h
    refine adds_bind (fun h => adds_askIf (W := W) (f := W.executed) (g := fun f h => f h outs) (ev := Event.executed outs)
      (fun f hf h => ⟨f, hf, rfl⟩) h) (fun _ h => ?_) h
    exact .refl h

theorem adds_run {W : World S C ε} {max n : Int} {cur : List S} {h H : Hist S C ε} {r : Except (Fail ε) (List S)} (hr : ExecRun W max n cur h r H) :
    Adds W h H := by
  induction hr with
  | limit => exact .refl _
  | planThrows => exact .refl _
  | planUb => exact .refl _
  | @fails n cur h H plan i p x hl hn hr => have := adds_round W n cur plan i p h; rwa [hr] at this
  | @done n cur h H plan i p s hl hn hr => have := adds_round W n cur plan i p h; rwa [hr] at this
  | @goOn n m cur outs h h1 H plan i p s r hl hn hr hx ih => have := adds_round W n cur plan i p h; rw [hr] at this; exact this.trans ih

/-- Every call in the list has the answer (or exception) that the function gives with the calls before it made. -/
theorem C111_answers {W : World S C ε} {max : Int} {starts : List S} {H : Hist S C ε} {r : Except (Fail ε) (List S)} (hr : PerformRun W max starts r H)
    {pre post : Hist S C ε} {ev : Event S C ε} (hH : H = pre ++ ev :: post) : ev.genuine W pre := by
  have key : ∀ a b, Adds W a b → a = [] → ∀ pre ev post, b = pre ++ ev :: post → ev.genuine W pre := by
    intro a b hab
    induction hab with
    | refl => rintro rfl pre ev post h; simp at h
    | @add H ev' ha hg ih =>
      rintro rfl pre ev post h
      rcases List.eq_nil_or_concat post with rfl | ⟨post', z, rfl⟩
      · have := List.append_inj' h rfl
        rw [← this.1]
        have h2 := List.singleton_inj.mp this.2
        rw [← h2]
        exact hg
      · have h' : H ++ [ev'] = (pre ++ ev :: post') ++ [z] := by rw [h]; simp
        have := List.append_inj' h' rfl
        exact ih rfl pre ev post' this.1
  exact key [] H (adds_run hr) rfl pre ev post hH

/-! ### Runs exist -/

/-- If there are finitely many states and there is a limit, the call ends. -/
theorem C111_ends {W : World S C ε} (hW : W.Nonneg) {max : Int} (hmax : 0 ≤ max) {F : List S}
    (hp : ∀ h, ∀ q ∈ W.prims h, ∀ s ∈ F, q.candidate s = true → ∀ o ∈ q.outcomes s, o.1 ∈ F) (he : ∀ h name s outs, W.execute h name s = .ok outs → ∀ t ∈ outs, t ∈ F)
    {starts : List S} (hs : ∀ s ∈ starts, s ∈ F) : ∃ r H, PerformRun W max starts r H := by
  have plan : ∀ h cur, (∀ s ∈ cur, s ∈ F) → ∃ r, Next W h cur r := by
    intro h cur hc
    by_cases hcur : cur = []
    · exact ⟨_, .empty hcur⟩
    · have hfin : Astar.FiniteReach (planProblem (W.prims h) (W.complete h) (W.heuristic.map fun f => f h)).expand (planStarts (C := C) cur)
          (F.flatMap fun s => (s, -1) :: (List.range (W.prims h).length).map fun (k : Nat) => (s, (k : Int))) := by
        constructor
        · intro x hx
          obtain ⟨s, hsc, rfl⟩ := List.mem_map.mp hx
          exact List.mem_flatMap.mpr ⟨s, hc s hsc, List.mem_cons_self⟩
        · rintro ⟨s, k⟩ hsk ⟨t, j⟩ w hedge
          obtain ⟨q, hj, hq, hcand, ho⟩ := (childEdge_iff _ _ _ _ _ _).mp hedge
          obtain ⟨s', hs', hmem⟩ := List.mem_flatMap.mp hsk
          have hss : s = s' := by
            rcases List.mem_cons.mp hmem with h1 | h1
            · exact congrArg Prod.fst h1
            · obtain ⟨k', -, h2⟩ := List.mem_map.mp h1
              exact (congrArg Prod.fst h2).symm
          subst hss
          refine List.mem_flatMap.mpr ⟨t, hp h q (List.mem_of_getElem? hq) s hs' hcand _ ho, List.mem_cons_of_mem _ (List.mem_map.mpr ⟨j.toNat, ?_, ?_⟩)⟩
          · rw [List.mem_range]
            exact (List.getElem?_eq_some_iff.mp hq).1
          · simp only [Prod.mk.injEq, true_and]
            exact Int.toNat_of_nonneg hj
      obtain ⟨r, hr⟩ := Astar.C21_terminates (plan_nn (hW h) (W.complete h) (W.heuristic.map fun f => f h)) (planStarts cur) hfin
      exact ⟨_, .planned hcur hr⟩
  have key : ∀ (k : Nat) (n : Int), n + k = max → ∀ cur h, (∀ s ∈ cur, s ∈ F) → ∃ r H, ExecRun W max n cur h r H := by
    intro k
    induction k with
    | zero => intro n hn cur h hc; exact ⟨_, _, .limit (by omega)⟩
    | succ k ih =>
      intro n hn cur h hc
      have hl : n < max ∨ max < 0 := by omega
      obtain ⟨r, hr⟩ := plan h cur hc
      cases r with
      | throw x => exact ⟨_, _, .planThrows hl hr⟩
      | ub => exact ⟨_, _, .planUb hl hr⟩
      | ok x =>
        obtain ⟨pl, i, p⟩ := x
        cases hrd : round W n cur pl i p h with
        | mk res H =>
          cases res with
          | error x => exact ⟨_, _, .fails hl hr hrd⟩
          | ok y =>
            obtain ⟨s, o⟩ := y
            cases o with
            | none => exact ⟨_, _, .done hl hr hrd⟩
            | some z =>
              obtain ⟨m, outs⟩ := z
              have hmo : m = n + 1 ∧ ∀ t ∈ outs, t ∈ F := by
                rcases C24_next_primitive (hW h) hr with ⟨_, j, s', _, heq, h1, -⟩ | heq | ⟨heq, -⟩
                · cases heq
                  rcases round_spec W n pl h1 p h with ⟨_, _, e, -⟩ | ⟨-, e⟩ | ⟨_, -, -, e⟩ | ⟨q, outs', -, -, hex, e⟩
                  · rw [e] at hrd; cases hrd
                  · rw [e] at hrd; cases hrd
                  · rw [e] at hrd; cases hrd
                  · rw [e] at hrd
                    cases hrd
                    exact ⟨rfl, he _ _ _ _ hex⟩
                · cases heq
                · cases heq
              obtain ⟨rfl, hout⟩ := hmo
              obtain ⟨r, H', hx⟩ := ih (n + 1) (by push_cast at hn; omega) outs H hout
              exact ⟨_, _, .goOn hl hr hrd hx⟩
  obtain ⟨r, H, h⟩ := key max.toNat 0 (by omega) starts [] hs
  exact ⟨r, H, h⟩

/-! ### Concrete cases -/

namespace Demo

/-- A counter that is to reach 2. -/
def inc : Primitive Nat ℕ∞ where
  name := "inc"
  candidate := fun s => decide (s < 2)
  outcomes := fun s => [(s + 1, 1)]
  execute := fun s r => r = .ok [s + 1]

/-- All callbacks are given; the one before an execution throws if `bad`. -/
def world (bad : Bool) : World Nat ℕ∞ String where
  prims := fun _ => [inc]
  complete := fun _ s => decide (s = 2)
  heuristic := none
  outcome := some fun _ _ _ _ => .ok ()
  announce := some fun _ _ _ _ => if bad then .error "bad" else .ok ()
  log := some fun _ _ => .ok ()
  execute := fun _ _ s => .ok [min (s + 1) 2]
  executed := some fun _ _ => .ok ()

theorem world_nn (bad : Bool) : (world bad).Nonneg := by
  intro h p hp s o ho
  simp only [world, List.mem_singleton] at hp
  subst hp
  exact zero_le

/-- The plan from 1. -/
theorem plan1 : PlanRun [inc] (fun s => decide (s = 2)) none [1] (.ok ([(1, -1), (2, 0)], (1 : ℕ∞))) := by
  unfold PlanRun
  apply Astar.AstarRun.search (by simp [planStarts]) rfl
  · exact .step (.expand (top := ⟨(1, -1), none, 0, 0⟩) (rest := []) (kids := [((2, 0), 1)]) ⟨List.Perm.refl _, by simp⟩ rfl rfl rfl) (.refl _)
  · refine .goal (top := ⟨(2, 0), some (1, -1), 1, 1⟩) (rest := []) ⟨List.Perm.refl _, by simp⟩ rfl rfl ?_
    have := Astar.Extract.found (C := ℕ∞) (explored := Astar.upd (Astar.upd (fun _ => none) ((1 : Nat), (-1 : Int)) (some (0, none))) (2, 0) (some (1, some (1, -1))))
      (g := (2, 0)) (c := 1) (b := some (1, -1)) (r := .ok [(1, -1)]) rfl (.cons (c := 0) (b := none) rfl .nil)
    exact this

/-- The plan from 2: nothing is left to do. -/
theorem plan2 : PlanRun [inc] (fun s => decide (s = 2)) none [2] (.ok ([(2, -1)], (0 : ℕ∞))) :=
  Astar.AstarRun.early (P := planProblem [inc] (fun s => decide (s = 2)) none) (starts := planStarts [2]) (s := ((2, -1), 0)) (by simp [planStarts]) rfl

/-- The calls when nothing throws. -/
def calls : Hist Nat ℕ∞ String :=
  [.outcome [1] 0 ([(1, -1), (2, 0)], 1) (.ok ()), .announce 1 "inc" ([(1, -1), (2, 0)], 1) (.ok ()), .log "inc" (.ok ()),
    .execute "inc" 1 (.ok [2]), .executed [2] (.ok ()), .outcome [2] 0 ([(2, -1)], 0) (.ok ())]

theorem next1 (bad : Bool) : Next (world bad) [] [1] (.ok (([(1, -1), (2, 0)], (1 : ℕ∞)), 0, some inc)) :=
  NextRun.planned (by simp) plan1

theorem next2 (bad : Bool) (h : Hist Nat ℕ∞ String) : Next (world bad) h [2] (.ok (([(2, -1)], (0 : ℕ∞)), 0, none)) :=
  NextRun.planned (by simp) plan2

theorem run_good : PerformRun (world false) 5 [1] (.ok [1, 2]) calls :=
  ExecRun.goOn (W := world false) (n := 0) (m := 1) (h := []) (h1 := calls.take 5) (H := calls) (s := 1) (outs := [2]) (r := .ok [2])
    (.inl (by decide)) (next1 false) rfl (.done (.inl (by decide)) (next2 false _) rfl)

theorem run_bad : PerformRun (world true) 5 [1] (.error (.user "bad"))
    [.outcome [1] 0 ([(1, -1), (2, 0)], 1) (.ok ()), .announce 1 "inc" ([(1, -1), (2, 0)], 1) (.error "bad")] :=
  ExecRun.fails (W := world true) (n := 0) (.inl (by decide)) (next1 true) rfl

example : ∃ h cur tr E, Rounds (world false) [1] h cur tr ∧ calls = h ++ E ∧ Ending (world false) 5 h cur tr (.ok [1, 2]) E ∧
    ((0 : Int) ≤ 5 → (tr.length : Int) ≤ 5) := C111_session (by simp) (world_nn false) (by decide) run_good

example : ∃ F ev, ([.outcome [1] 0 ([(1, -1), (2, 0)], 1) (.ok ()), .announce 1 "inc" ([(1, -1), (2, 0)], 1) (.error "bad")] : Hist Nat ℕ∞ String) =
    F ++ [ev] ∧ ev.thrown = some "bad" ∧ ∀ y ∈ F, y.thrown = none :=
  (C111_exceptions (by simp) (world_nn true) (by decide) run_bad).1 _ rfl

example : ∃ y, ([((1 : Nat), (-1 : Int)), (2, 0)])[1]? = some y ∧ 0 ≤ y.2 ∧ [inc][y.2.toNat]? = some inc := C24_next_is_first_step (next1 false)

example : (executions calls : Int) ≤ 5 := (C111_executions (by simp) (world_nn false) (by decide) run_good).1 (by decide)

example : (world false).execute [.outcome [1] 0 ([(1, -1), (2, 0)], 1) (.ok ()), .announce 1 "inc" ([(1, -1), (2, 0)], 1) (.ok ()), .log "inc" (.ok ())]
    "inc" 1 = .ok [2] := C111_answers run_good (pre := [_, _, _]) (post := [_, _]) rfl

example (bad : Bool) : ∃ r H, PerformRun (world bad) 5 [0] r H :=
  C111_ends (world_nn bad) (by decide) (F := [0, 1, 2]) (by
    intro h q hq s hs hc o ho
    simp only [world, List.mem_singleton] at hq
    subst hq
    simp only [inc, List.mem_singleton, decide_eq_true_eq] at ho hc
    subst ho
    simp only [List.mem_cons, List.not_mem_nil, or_false]
    omega) (by
    intro h name s outs he t ht
    cases he
    simp only [List.mem_singleton] at ht
    subst ht
    simp only [List.mem_cons, List.not_mem_nil, or_false]
    omega) (by simp)

end Demo

end CRU.Task.Callbacks
