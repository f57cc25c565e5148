import Verif.TaskPlanner.Session
import Verif.TaskPlanner.CallbackProps
import Verif.TaskPlanner.PlanningProps
/-
  C117: executing a task when everything that is called may keep state and may throw, also while a plan is made.
-/
namespace CRU.Task.Session
open CRU.Task
set_option linter.unusedSectionVars false

variable {S C ε : Type} [DecidableEq S] [LinearOrder C] [Add C] [Zero C] [OrderTop C]

/-! ### Specification -/

/-- With the calls `h` made, a plan was made from the current outcomes `cur` with the calls `p`, which are right, and this came out: `NextEnding`
says what it tells about the plan, the outcome and the primitive chosen. -/
structure Planned (W : World S C ε) (h : Hist S C ε) (cur : List S) (p : Planning.Calls S C ε)
    (r : Except (Astar.Callbacks.Fail ε) (Callbacks.Plan S C × Int × Option Nat)) : Prop where
  right : Planning.History (W.fns h) cur p
  ending : Planning.NextEnding (W.count h) cur p r

/-- Rounds without an exception: the calls made, the outcomes that are now the current ones, and the states that the primitives were executed in. In
every round a plan is made from the current outcomes; the callbacks that are given see the outcome chosen; the primitive chosen is executed in that
outcome, and gives the outcomes of the next round. -/
inductive Rounds (W : World S C ε) (starts : List S) : Hist S C ε → List S → List S → Prop
  | start : Rounds W starts [] starts []
  | round {h : Hist S C ε} {cur tr outs : List S} {p : Planning.Calls S C ε} {plan : Callbacks.Plan S C} {i j : Nat} {s : S}
      (hr : Rounds W starts h cur tr) (hp : Planned W h cur p (.ok (plan, (i : Int), some j))) (hs : cur[i]? = some s)
      (he : W.execute (h ++ asked p ++ did (Callbacks.before (W.loop (h ++ asked p)) cur plan i s (W.name h j))) (W.name h j) s = .ok outs) :
      Rounds W starts (h ++ asked p ++ did (Callbacks.wholeRound (W.loop (h ++ asked p)) cur plan i s (W.name h j) outs)) outs (tr ++ [s])

/-- How a run can end after the rounds with the calls `h`, the current outcomes `cur` and the states `tr`: outcome and further calls. -/
inductive Ending (W : World S C ε) (max : Int) (h : Hist S C ε) (cur tr : List S) : Except (Callbacks.Fail ε) (List S) → Hist S C ε → Prop
  /-- the limit is reached; nothing more is called -/
  | limit (h0 : 0 ≤ max) (hm : (tr.length : Int) = max) : Ending W max h cur tr (.ok tr) []
  /-- the completion test accepts an outcome -/
  | complete {p : Planning.Calls S C ε} {plan : Callbacks.Plan S C} {i : Nat} {s : S} (hl : (tr.length : Int) < max ∨ max < 0)
      (hp : Planned W h cur p (.ok (plan, (i : Int), none))) (hs : cur[i]? = some s) (hc : Planning.Call.complete s (.ok true) ∈ p) :
      Ending W max h cur tr (.ok (tr ++ [s])) (asked p ++ did (Callbacks.ifGiven W.outcome (.outcome cur i plan (.ok ()))))
  /-- planning fails: an exception of the last call, or what `NextEnding` says -/
  | planning {p : Planning.Calls S C ε} {x : Astar.Callbacks.Fail ε} (hl : (tr.length : Int) < max ∨ max < 0) (hp : Planned W h cur p (.error x)) :
      Ending W max h cur tr (.error (failed x)) (asked p)
  /-- a callback, the logging function or the primitive that is executed throws -/
  | thrown {p : Planning.Calls S C ε} {plan : Callbacks.Plan S C} {i : Nat} {j : Option Nat} {s : S} {x : ε} {E : Callbacks.Hist S C ε}
      (hl : (tr.length : Int) < max ∨ max < 0) (hp : Planned W h cur p (.ok (plan, (i : Int), j))) (hs : cur[i]? = some s)
      (hb : Callbacks.Broken (W.loop (h ++ asked p)) cur plan i s (j.map (W.prim h)) x E) : Ending W max h cur tr (.error (.user x)) (asked p ++ did E)
  /-- there is no limit, and the counter of executions overflows -/
  | overflow {p : Planning.Calls S C ε} {plan : Callbacks.Plan S C} {i j : Nat} {s : S} (hm : max < 0) (hn : (tr.length : Int) = 2 ^ 31 - 1)
      (hp : Planned W h cur p (.ok (plan, (i : Int), some j))) (hs : cur[i]? = some s) :
      Ending W max h cur tr (.error .ub) (asked p ++ did (Callbacks.before (W.loop (h ++ asked p)) cur plan i s (W.name h j)))

/-! ### The whole run -/

theorem asked_append (a b : Planning.Calls S C ε) : asked (a ++ b) = asked a ++ asked b := List.map_append

theorem did_append (a b : Callbacks.Hist S C ε) : did (a ++ b) = did a ++ did b := List.map_append

theorem did_one (e : Callbacks.Event S C ε) : did [e] = [.inr e] := rfl

/-- The plan's outcome is one of the current ones. -/
theorem Planned.here {W : World S C ε} {h : Hist S C ε} {cur : List S} {p : Planning.Calls S C ε} {plan : Callbacks.Plan S C} {i : Int}
    {j : Option Nat} (hp : Planned W h cur p (.ok (plan, i, j))) : ∃ (k : Nat) (s : S), i = k ∧ cur[k]? = some s ∧
      plan.1.head? = some (s, -1) ∧ (j = none → Planning.Call.complete s (.ok true) ∈ p) ∧
      ∀ m, j = some m → m < W.count h ∧ Planning.Call.candidate m s (.ok true) ∈ p := by
  cases hp.ending with
  | @next s t i j w c cost rest x hcalm hw hle hlast hx hfin hi hfirst hj hcand ht =>
    exact ⟨i, s, rfl, hi, rfl, by simp, fun m hm => by cases hm; exact ⟨hj, hcand⟩⟩
  | @done s i cost hcalm hx hi hfirst hfin => exact ⟨i, s, rfl, hi, rfl, fun _ => hx, by simp⟩

theorem ifGiven_map {γ δ : Type} (f : Option γ) (g : γ → δ) (ev : Callbacks.Event S C ε) :
    Callbacks.ifGiven (f.map g) ev = Callbacks.ifGiven f ev := by
  cases f <;> rfl

variable [CostLaws C]

/-- The costs that are predicted are not negative: the constructor of `StateWithCost` ensures this (simple_astar_search.hpp:193-200). -/
def World.Nonneg (W : World S C ε) : Prop := ∀ h j s l, W.outcomes h j s = .ok l → ∀ x ∈ l, 0 ≤ x.2

theorem World.Nonneg.fns {W : World S C ε} (hW : W.Nonneg) (h : Hist S C ε) : Planning.Nonneg (W.fns h) := fun _ i s l hl => hW _ i s l hl

theorem planned {W : World S C ε} (hW : W.Nonneg) {h : Hist S C ε} {cur : List S} {p : Planning.Calls S C ε}
    {r : Except (Astar.Callbacks.Fail ε) (Callbacks.Plan S C × Int × Option Nat)} (hn : Planning.NextCalls (W.fns h) cur r p) : Planned W h cur p r :=
  ⟨(Planning.C115_next (hW.fns h) hn).1, (Planning.C115_next (hW.fns h) hn).2⟩

theorem session {W : World S C ε} (hW : W.Nonneg) {max : Int} (hmax : max < 2 ^ 31) {starts : List S} {n : Int} {cur : List S} {h H : Hist S C ε}
    {r : Except (Callbacks.Fail ε) (List S)} (hr : ExecRun W max n cur h r H) : ∀ tr0, Rounds W starts h cur tr0 → n = tr0.length → n < 2 ^ 31 →
    (0 ≤ max → n ≤ max) →
    ∃ h' cur' tr E r', Rounds W starts h' cur' (tr0 ++ tr) ∧ H = h' ++ E ∧ Ending W max h' cur' (tr0 ++ tr) r' E ∧ (0 ≤ max → ((tr0 ++ tr).length : Int) ≤ max) ∧
      (((tr0 ++ tr).length : Int) < 2 ^ 31) ∧ (match r with | .ok t => r' = .ok (tr0 ++ t) | .error x => r' = .error x) := by
  induction hr with
  | @limit n cur h hl =>
    intro tr0 hr hn hlt hle
    refine ⟨h, cur, [], [], .ok tr0, by simpa using hr, by simp, by simpa using Ending.limit (by omega) (by omega), by simpa using by omega, by simpa using by omega, by simp⟩
  | @planFails n cur h x p hl hnx =>
    intro tr0 hr hn hlt hle
    exact ⟨h, cur, [], asked p, .error (failed x), by simpa using hr, rfl, .planning (by simpa using by omega) (planned hW hnx), by simpa using by omega,
      by simpa using by omega, rfl⟩
  | @fails n cur h p E plan i j x hl hnx hrd =>
    intro tr0 hr hn hlt hle
    have hp := planned hW hnx
    obtain ⟨k, s, rfl, hs, -, -, -⟩ := hp.here
    rcases Callbacks.round_spec (W.loop (h ++ asked p)) n plan hs (j.map (W.prim h)) [] with ⟨y, E', he, hb⟩ | ⟨-, he⟩ | ⟨q, hpq, hov, he⟩ | ⟨q, outs, hpq, hov, hex, he⟩
    · rw [he] at hrd
      cases hrd
      exact ⟨h, cur, [], asked p ++ did E', .error (.user y), by simpa using hr, by rw [List.nil_append, List.append_assoc],
        .thrown (by simpa using by omega) hp hs hb, by simpa using by omega, by simpa using by omega, rfl⟩
    · rw [he] at hrd; cases hrd
    · rw [he] at hrd
      cases hrd
      obtain ⟨m, rfl, rfl⟩ := Option.map_eq_some_iff.mp hpq
      refine ⟨h, cur, [], _, .error .ub, by simpa using hr, by rw [List.nil_append, List.append_assoc]; rfl,
        .overflow (by omega) ?_ hp hs, by simpa using by omega, by simpa using by omega, rfl⟩
      simp only [List.append_nil]
      omega
    · rw [he] at hrd; cases hrd
  | @done n cur h p E plan i j s' hl hnx hrd =>
    intro tr0 hr hn hlt hle
    have hp := planned hW hnx
    obtain ⟨k, s, rfl, hs, -, hc, -⟩ := hp.here
    rcases Callbacks.round_spec (W.loop (h ++ asked p)) n plan hs (j.map (W.prim h)) [] with ⟨y, E', he, hb⟩ | ⟨hp0, he⟩ | ⟨q, hpq, hov, he⟩ | ⟨q, outs, hpq, hov, hex, he⟩
    · rw [he] at hrd; cases hrd
    · rw [he] at hrd
      cases hrd
      have hj := Option.map_eq_none_iff.mp hp0
      subst hj
      refine ⟨h, cur, [], _, .ok (tr0 ++ [s']), by simpa using hr, by rw [List.nil_append, List.append_assoc], ?_, by simpa using by omega,
        by simpa using by omega, rfl⟩
      rw [List.append_nil, show Callbacks.ifGiven (W.loop (h ++ asked p)).outcome _ = Callbacks.ifGiven W.outcome _ from ifGiven_map _ _ _]
      exact Ending.complete (by omega) hp hs (hc rfl)
    · rw [he] at hrd; cases hrd
    · rw [he] at hrd; cases hrd
  | @goOn n m cur outs h H p E plan i j s' r hl hnx hrd hx ih =>
    intro tr0 hr hn hlt hle
    have hp := planned hW hnx
    obtain ⟨k, s, rfl, hs, -, -, -⟩ := hp.here
    rcases Callbacks.round_spec (W.loop (h ++ asked p)) n plan hs (j.map (W.prim h)) [] with ⟨y, E', he, hb⟩ | ⟨hp0, he⟩ | ⟨q, hpq, hov, he⟩ | ⟨q, outs', hpq, hov, hex, he⟩
    · rw [he] at hrd; cases hrd
    · rw [he] at hrd; cases hrd
    · rw [he] at hrd; cases hrd
    · rw [he] at hrd
      cases hrd
      obtain ⟨m, rfl, rfl⟩ := Option.map_eq_some_iff.mp hpq
      obtain ⟨h', cur', tr, E, r', i1, i2, i3, i4, i5, i6⟩ := ih (tr0 ++ [s']) (.round hr hp hs hex) (by simp; omega) hov (by omega)
      refine ⟨h', cur', s' :: tr, E, r', by simpa using i1, i2, by simpa using i3, by simpa using i4, by simpa using i5, ?_⟩
      cases r with
      | ok t => simpa [Callbacks.addState] using i6
      | error x => simpa [Callbacks.addState] using i6

/-- C117: `PerformSingleTaskExecution`, whatever state all the functions keep and whatever they throw: the calls made are rounds without an exception
and an ending. In every round a plan is made from the current outcomes (the start states, or what the last primitive executed gave), by a right
sequence of calls; then the callbacks are called and the primitive chosen is executed in the outcome chosen. No more primitives are executed than
the limit says. -/
theorem C117_session {W : World S C ε} (hW : W.Nonneg) {max : Int} (hmax : max < 2 ^ 31) {starts : List S} {H : Hist S C ε}
    {r : Except (Callbacks.Fail ε) (List S)} (hr : PerformRun W max starts r H) :
    ∃ h cur tr E, Rounds W starts h cur tr ∧ H = h ++ E ∧ Ending W max h cur tr r E ∧ (0 ≤ max → (tr.length : Int) ≤ max) := by
  obtain ⟨h', cur', tr, E, r', i1, i2, i3, i4, -, i6⟩ := session hW hmax hr [] .start rfl (by decide) id
  refine ⟨h', cur', tr, E, by simpa using i1, i2, ?_, by simpa using i4⟩
  have : r' = r := by
    cases r with
    | ok t => simpa using i6
    | error x => exact i6
  rw [← this]
  simpa using i3

/-! ### Exceptions -/

/-- The exception of a call. -/
def thrown : Planning.Call S C ε ⊕ Callbacks.Event S C ε → Option ε
  | .inl e => e.thrown
  | .inr e => e.thrown

theorem thrown_asked {p : Planning.Calls S C ε} (h : Planning.Calm p) : ∀ e ∈ asked p, thrown e = none := by
  intro e he
  obtain ⟨e', h1, rfl⟩ := List.mem_map.mp he
  exact h e' h1

theorem thrown_did {E : Callbacks.Hist S C ε} (h : ∀ e ∈ E, e.thrown = none) : ∀ e ∈ did E, thrown e = none := by
  intro e he
  obtain ⟨e', h1, rfl⟩ := List.mem_map.mp he
  exact h e' h1

omit [CostLaws C] in
theorem Planned.calm {W : World S C ε} {h : Hist S C ε} {cur : List S} {p : Planning.Calls S C ε} {a : Callbacks.Plan S C × Int × Option Nat}
    (hp : Planned W h cur p (.ok a)) : Planning.Calm p := by
  cases hp.ending with
  | next hcalm => exact hcalm
  | done hcalm => exact hcalm

theorem mem_append_all {γ : Type} {P : γ → Prop} {a b : List γ} (ha : ∀ x ∈ a, P x) (hb : ∀ x ∈ b, P x) : ∀ x ∈ a ++ b, P x := by
  intro x hx
  rcases List.mem_append.mp hx with h | h
  · exact ha x h
  · exact hb x h

theorem Rounds.no_throw {W : World S C ε} {starts : List S} {h : Hist S C ε} {cur tr : List S} (hr : Rounds W starts h cur tr) :
    ∀ x ∈ h, thrown x = none := by
  induction hr with
  | start => simp
  | @round h cur tr outs p plan i j s hr hp hs he ih =>
    refine mem_append_all (mem_append_all ih (thrown_asked hp.calm)) (thrown_did ?_)
    unfold Callbacks.wholeRound
    refine mem_append_all (mem_append_all (Callbacks.thrown_before _ _ _ _ _ _) ?_) (Callbacks.thrown_ifGiven _ _ rfl)
    intro x hx
    rw [List.mem_singleton.mp hx]
    rfl

/-- C117: what the caller gets from a function of the user, whether it is called while planning or not, is the exception of the last call made; no
other call has thrown. If the run ends in any other way, no call has thrown. -/
theorem C117_exceptions {W : World S C ε} (hW : W.Nonneg) {max : Int} (hmax : max < 2 ^ 31) {starts : List S} {H : Hist S C ε}
    {r : Except (Callbacks.Fail ε) (List S)} (hr : PerformRun W max starts r H) :
    (∀ x, r = .error (.user x) → ∃ F ev, H = F ++ [ev] ∧ thrown ev = some x ∧ ∀ y ∈ F, thrown y = none) ∧
    ((∀ x, r ≠ .error (.user x)) → ∀ y ∈ H, thrown y = none) := by
  obtain ⟨h, cur, tr, E, h1, rfl, h3, -⟩ := C117_session hW hmax hr
  have hno := h1.no_throw
  cases h3 with
  | limit => exact ⟨by simp, fun _ => by simpa using hno⟩
  | complete hl hp hs hc =>
    exact ⟨by simp, fun _ => mem_append_all hno (mem_append_all (thrown_asked hp.calm) (thrown_did (Callbacks.thrown_ifGiven _ _ rfl)))⟩
  | @planning p x hl hp =>
    cases hp.ending with
    | none _ hcalm => exact ⟨by simp [failed], fun _ => mem_append_all hno (thrown_asked hcalm)⟩
    | @thrown x ev pre he ht =>
      refine ⟨fun y hy => ?_, fun hne => absurd rfl (hne x)⟩
      cases hy
      refine ⟨h ++ asked pre, .inl ev, ?_, ht, mem_append_all hno (thrown_asked (hp.right pre ev [] he).calm)⟩
      rw [he, asked_append, List.append_assoc]
      rfl
    | noStarts hs hn => exact ⟨by simp [failed], fun _ => by rw [hn]; simpa [asked] using hno⟩
    | infinite hcalm => exact ⟨by simp [failed], fun _ => mem_append_all hno (thrown_asked hcalm)⟩
  | @thrown p plan i j s x E hl hp hs hb =>
    refine ⟨fun y hy => ?_, fun hne => absurd rfl (hne x)⟩
    cases hy
    obtain ⟨F, ev, rfl, h4, h5⟩ := hb.last
    refine ⟨h ++ (asked p ++ did F), .inr ev, ?_, h4, mem_append_all hno (mem_append_all (thrown_asked hp.calm) (thrown_did h5))⟩
    rw [did_append]
    simp [did]
  | overflow hm hn hp hs =>
    exact ⟨by simp, fun _ => mem_append_all hno (mem_append_all (thrown_asked hp.calm) (thrown_did (Callbacks.thrown_before _ _ _ _ _ _)))⟩

/-! ### Executions -/

/-- It is a call of `Execute`. -/
def isExecute : Planning.Call S C ε ⊕ Callbacks.Event S C ε → Bool
  | .inl _ => false
  | .inr e => e.isExecute

/-- The calls of `Execute` among the calls. -/
def executions (h : Hist S C ε) : Nat := h.countP isExecute

theorem executions_append (a b : Hist S C ε) : executions (a ++ b) = executions a + executions b := List.countP_append

theorem executions_asked (p : Planning.Calls S C ε) : executions (asked p) = 0 := by
  unfold executions asked
  rw [List.countP_eq_zero]
  intro e he
  obtain ⟨e', -, rfl⟩ := List.mem_map.mp he
  simp [isExecute]

theorem executions_did (E : Callbacks.Hist S C ε) : executions (did E) = Callbacks.executions E := by
  unfold executions did Callbacks.executions
  rw [List.countP_map]
  rfl

theorem executions_broken {V : Callbacks.World S C ε} {cur : List S} {plan : Callbacks.Plan S C} {i : Nat} {s : S} {q : Option (Primitive S C)} {x : ε}
    {E : Callbacks.Hist S C ε} (hb : Callbacks.Broken V cur plan i s q x E) : Callbacks.executions E ≤ 1 := by
  cases hb with
  | outcome => simp [Callbacks.executions, Callbacks.Event.isExecute]
  | announce => rw [Callbacks.executions_append, Callbacks.executions_ifGiven _ _ rfl]; simp [Callbacks.executions, Callbacks.Event.isExecute]
  | log =>
    rw [Callbacks.executions_append, Callbacks.executions_append, Callbacks.executions_ifGiven _ _ rfl, Callbacks.executions_ifGiven _ _ rfl]
    simp [Callbacks.executions, Callbacks.Event.isExecute]
  | execute => rw [Callbacks.executions_append, Callbacks.executions_before]; simp [Callbacks.executions, Callbacks.Event.isExecute]
  | executed =>
    rw [Callbacks.executions_append, Callbacks.executions_append, Callbacks.executions_before]
    simp [Callbacks.executions, Callbacks.Event.isExecute]

theorem Rounds.executions {W : World S C ε} {starts : List S} {h : Hist S C ε} {cur tr : List S} (hr : Rounds W starts h cur tr) :
    executions h = tr.length := by
  induction hr with
  | start => rfl
  | round hr hp hs he ih =>
    unfold Callbacks.wholeRound
    rw [executions_append, executions_append, executions_asked, executions_did, Callbacks.executions_append, Callbacks.executions_append,
      Callbacks.executions_before, Callbacks.executions_ifGiven _ _ rfl, ih]
    simp [Callbacks.executions, Callbacks.Event.isExecute]

/-- C117: at most as many primitives are executed as the limit says, also if a function throws; a trace has one state for every execution, and one
more, which the completion test accepted, if it ends with a completed task. Undefined behaviour needs no limit and `2^31 - 1` executions. -/
theorem C117_executions {W : World S C ε} (hW : W.Nonneg) {max : Int} (hmax : max < 2 ^ 31) {starts : List S} {H : Hist S C ε}
    {r : Except (Callbacks.Fail ε) (List S)} (hr : PerformRun W max starts r H) :
    (0 ≤ max → (executions H : Int) ≤ max) ∧
    (∀ tr, r = .ok tr → (tr.length = executions H ∧ (tr.length : Int) = max) ∨
      (tr.length = executions H + 1 ∧ ∃ s, tr.getLast? = some s ∧ .inl (.complete s (.ok true)) ∈ H)) ∧
    (r = .error .ub → max < 0 ∧ executions H = 2 ^ 31 - 1) := by
  obtain ⟨h, cur, tr, E, h1, rfl, h3, h4⟩ := C117_session hW hmax hr
  have hex := h1.executions
  refine ⟨?_, ?_, ?_⟩
  · intro hm
    have := h4 hm
    rw [executions_append, hex]
    cases h3 with
    | limit => simpa [executions] using this
    | complete => rw [executions_append, executions_asked, executions_did, Callbacks.executions_ifGiven _ _ rfl]; simpa using this
    | planning => rw [executions_asked]; simpa using this
    | overflow => omega
    | thrown hl hp hs hb =>
      have := executions_broken hb
      rw [executions_append, executions_asked, executions_did]
      push_cast
      omega
  · rintro t rfl
    cases h3 with
    | limit hm0 hm => left; exact ⟨by rw [List.append_nil, hex], hm⟩
    | @complete p plan i s hl hp hs hc =>
      right
      refine ⟨by rw [executions_append, hex, executions_append, executions_asked, executions_did, Callbacks.executions_ifGiven _ _ rfl]; simp, s, by simp, ?_⟩
      exact List.mem_append_right _ (List.mem_append_left _ (List.mem_map.mpr ⟨_, hc, rfl⟩))
  · intro hub
    generalize hr' : r = r' at h3
    cases h3 with
    | overflow hm hn hp hs =>
      refine ⟨hm, ?_⟩
      rw [executions_append, hex, executions_append, executions_asked, executions_did, Callbacks.executions_before]
      omega
    | @planning p x hl hp =>
      rw [hub] at hr'
      cases hp.ending <;> simp [failed] at hr'
    | limit => rw [hub] at hr'; cases hr'
    | complete => rw [hub] at hr'; cases hr'
    | thrown => rw [hub] at hr'; cases hr'

/-! ### Only candidates are executed -/

/-- A list with one element of a kind. -/
theorem only_one {γ : Type} {P : γ → Bool} {a b pre post : List γ} {x ev : γ} (ha : ∀ y ∈ a, P y = false) (hb : ∀ y ∈ b, P y = false) (he : P ev = true)
    (h : a ++ x :: b = pre ++ ev :: post) : pre = a ∧ ev = x ∧ post = b := by
  induction a generalizing pre with
  | nil =>
    cases pre with
    | nil => cases h; exact ⟨rfl, rfl, rfl⟩
    | cons z pre =>
      simp only [List.nil_append, List.cons_append, List.cons.injEq] at h
      have := hb ev (by rw [h.2]; simp)
      rw [he] at this
      cases this
  | cons y a ih =>
    cases pre with
    | nil =>
      simp only [List.nil_append, List.cons_append, List.cons.injEq] at h
      have := ha y (by simp)
      rw [h.1, he] at this
      cases this
    | cons z pre =>
      simp only [List.cons_append, List.cons.injEq] at h
      obtain ⟨h1, h2, h3⟩ := ih (fun y hy => ha y (List.mem_cons_of_mem _ hy)) h.2
      exact ⟨by rw [h.1, h1], h2, h3⟩

theorem no_execute {h : Hist S C ε} (h0 : executions h = 0) : ∀ e ∈ h, isExecute e = false := by
  intro e he
  have := List.countP_eq_zero.mp h0 e he
  simpa using this

/-- An element of an appended list. -/
theorem split_append {γ : Type} {a b pre post : List γ} {ev : γ} (h : a ++ b = pre ++ ev :: post) :
    (∃ c, a = pre ++ ev :: c ∧ post = c ++ b) ∨ ∃ c, pre = a ++ c ∧ b = c ++ ev :: post := by
  rcases List.append_eq_append_iff.mp h with ⟨c, h1, h2⟩ | ⟨c, h1, h2⟩
  · right; exact ⟨c, h1, h2⟩
  · cases c with
    | nil => right; exact ⟨[], by simpa using h1.symm, by simpa using h2.symm⟩
    | cons z c =>
      simp only [List.cons_append, List.cons.injEq] at h2
      obtain ⟨rfl, h2⟩ := h2
      left
      exact ⟨c, h1, h2⟩

/-- What an execution of the primitive with this name in the state `s`, right after the calls `pre`, is due to. -/
def Due (W : World S C ε) (starts : List S) (pre : Hist S C ε) (name : String) (s : S) : Prop :=
  ∃ (h : Hist S C ε) (cur tr : List S) (p : Planning.Calls S C ε) (E : Callbacks.Hist S C ε) (plan : Callbacks.Plan S C) (i j : Nat),
    Rounds W starts h cur tr ∧ Planned W h cur p (.ok (plan, (i : Int), some j)) ∧ cur[i]? = some s ∧ name = W.name h j ∧
    pre = h ++ asked p ++ did E ∧ Callbacks.executions E = 0

theorem Rounds.due {W : World S C ε} {starts : List S} {h : Hist S C ε} {cur tr : List S} (hr : Rounds W starts h cur tr) {pre post : Hist S C ε}
    {name : String} {s : S} {a : Except ε (List S)} (hh : h = pre ++ .inr (.execute name s a) :: post) : Due W starts pre name s := by
  induction hr generalizing post with
  | start => simp at hh
  | @round h cur tr outs p plan i j s' hr hp hs he ih =>
    rcases split_append hh with ⟨c, h1, h2⟩ | ⟨c, rfl, h2⟩
    · rcases split_append h1 with ⟨d, h3, h4⟩ | ⟨d, -, h4⟩
      · exact ih h3
      · have := no_execute (executions_asked p) (.inr (.execute name s a)) (by rw [h4]; simp)
        cases this
    · rw [Callbacks.wholeRound, did_append, did_append, did_one, List.append_assoc, List.singleton_append] at h2
      obtain ⟨rfl, h3, -⟩ := only_one (P := isExecute) (no_execute (by rw [executions_did, Callbacks.executions_before]))
        (no_execute (by rw [executions_did, Callbacks.executions_ifGiven _ _ rfl])) rfl h2
      cases h3
      exact ⟨h, cur, tr, p, _, plan, i, j, hr, hp, hs, rfl, rfl, Callbacks.executions_before _ _ _ _ _ _⟩

/-- C117: when a primitive is executed, then since the last execution a plan was made from the outcomes of that execution (or from the start states),
the primitive said while it was made that it is a candidate in exactly this state, and the state is one of those outcomes; between the plan and the
execution only callbacks and the logging function are called. -/
theorem C117_only_candidates {W : World S C ε} (hW : W.Nonneg) {max : Int} (hmax : max < 2 ^ 31) {starts : List S} {H : Hist S C ε}
    {r : Except (Callbacks.Fail ε) (List S)} (hr : PerformRun W max starts r H) {pre post : Hist S C ε} {name : String} {s : S} {a : Except ε (List S)}
    (hH : H = pre ++ .inr (.execute name s a) :: post) :
    ∃ (h : Hist S C ε) (cur tr : List S) (p : Planning.Calls S C ε) (E : Callbacks.Hist S C ε) (j : Nat), Rounds W starts h cur tr ∧
      pre = h ++ asked p ++ did E ∧ (∀ e ∈ E, e.isExecute = false) ∧ s ∈ cur ∧ j < W.count h ∧ name = W.name h j ∧ .candidate j s (.ok true) ∈ p := by
  suffices hd : Due W starts pre name s by
    obtain ⟨h, cur, tr, p, E, plan, i, j, h1, h2, h3, h4, h5, h6⟩ := hd
    obtain ⟨k, s', h7, h8, -, -, h9⟩ := h2.here
    have hk : i = k := by exact_mod_cast h7
    subst hk
    rw [h3] at h8
    cases h8
    obtain ⟨h10, h11⟩ := h9 j rfl
    refine ⟨h, cur, tr, p, E, j, h1, h5, fun e he => ?_, List.mem_of_getElem? h3, h10, h4, h11⟩
    simpa using List.countP_eq_zero.mp h6 e he
  obtain ⟨h, cur, tr, E, h1, rfl, h3, -⟩ := C117_session hW hmax hr
  rcases split_append hH with ⟨c, h4, -⟩ | ⟨c, rfl, h4⟩
  · exact h1.due h4
  · have none_of : executions E = 0 → Due W starts (h ++ c) name s := by
      intro h0
      have := no_execute h0 (.inr (.execute name s a)) (by rw [h4]; simp)
      cases this
    cases h3 with
    | limit => exact none_of rfl
    | complete => exact none_of (by rw [executions_append, executions_asked, executions_did, Callbacks.executions_ifGiven _ _ rfl])
    | planning => exact none_of (executions_asked _)
    | overflow => exact none_of (by rw [executions_append, executions_asked, executions_did, Callbacks.executions_before])
    | @thrown p plan i j s' x E hl hp hs hb =>
      have none_of' : Callbacks.executions E = 0 → Due W starts (h ++ c) name s := fun h0 =>
        none_of (by rw [executions_append, executions_asked, executions_did, h0])
      cases hb with
      | outcome => exact none_of' (by simp [Callbacks.executions, Callbacks.Event.isExecute])
      | announce =>
        exact none_of' (by rw [Callbacks.executions_append, Callbacks.executions_ifGiven _ _ rfl]; simp [Callbacks.executions, Callbacks.Event.isExecute])
      | log =>
        exact none_of' (by
          rw [Callbacks.executions_append, Callbacks.executions_append, Callbacks.executions_ifGiven _ _ rfl, Callbacks.executions_ifGiven _ _ rfl]
          simp [Callbacks.executions, Callbacks.Event.isExecute])
      | @execute q hq =>
        obtain ⟨m, rfl, rfl⟩ := Option.map_eq_some_iff.mp hq
        rw [did_append, did_one, ← List.append_assoc] at h4
        obtain ⟨rfl, h5, -⟩ := only_one (P := isExecute) (b := []) (no_execute (by
          rw [executions_append, executions_asked, executions_did, Callbacks.executions_before])) (by simp) rfl h4
        cases h5
        exact ⟨h, cur, tr, p, _, plan, i, m, h1, hp, hs, rfl, by rw [List.append_assoc], Callbacks.executions_before _ _ _ _ _ _⟩
      | @executed q outs hq hg =>
        obtain ⟨m, rfl, rfl⟩ := Option.map_eq_some_iff.mp hq
        rw [did_append, did_append, did_one, ← List.append_assoc, ← List.append_assoc, List.append_assoc, List.singleton_append] at h4
        obtain ⟨rfl, h5, -⟩ := only_one (P := isExecute) (no_execute (by
          rw [executions_append, executions_asked, executions_did, Callbacks.executions_before])) (no_execute (by
          rw [executions_did]; simp [Callbacks.executions, Callbacks.Event.isExecute])) rfl h4
        cases h5
        exact ⟨h, cur, tr, p, _, plan, i, m, h1, hp, hs, rfl, by rw [List.append_assoc], Callbacks.executions_before _ _ _ _ _ _⟩

/-! ### Every answer is one that the function gave -/

/-- With the calls `h` made, this call gives this answer. -/
def Genuine (W : World S C ε) (h : Hist S C ε) : Planning.Call S C ε ⊕ Callbacks.Event S C ε → Prop
  | .inl (.complete s a) => W.complete h s = a
  | .inl (.heur s a) => ∃ f, W.heur = some f ∧ f h s = a
  | .inl (.candidate j s a) => W.candidate h j s = a
  | .inl (.outcomes j s a) => W.outcomes h j s = a
  | .inr (.outcome cur i plan a) => ∃ f, W.outcome = some f ∧ f h cur i plan = a
  | .inr (.announce s name plan a) => ∃ f, W.announce = some f ∧ f h s name plan = a
  | .inr (.log name a) => ∃ f, W.log = some f ∧ f h name = a
  | .inr (.execute name s a) => W.execute h name s = a
  | .inr (.executed outs a) => ∃ f, W.executed = some f ∧ f h outs = a

/-- From `h` to `H` only genuine calls were added. -/
inductive Adds (W : World S C ε) : Hist S C ε → Hist S C ε → Prop
  | refl (h : Hist S C ε) : Adds W h h
  | add {h H : Hist S C ε} {ev : Planning.Call S C ε ⊕ Callbacks.Event S C ε} (ha : Adds W h H) (hg : Genuine W H ev) : Adds W h (H ++ [ev])

theorem Adds.trans {W : World S C ε} {a b c : Hist S C ε} (h1 : Adds W a b) (h2 : Adds W b c) : Adds W a c := by
  induction h2 with
  | refl => exact h1
  | add _ hg ih => exact .add ih hg

theorem adds_asked {W : World S C ε} {h : Hist S C ε} {cur : List S} {p : Planning.Calls S C ε} (hp : Planning.History (W.fns h) cur p) :
    Adds W h (h ++ asked p) := by
  induction p using List.reverseRecOn with
  | nil => simpa [asked] using Adds.refl h
  | append_singleton p e ih =>
    rw [asked_append, ← List.append_assoc]
    refine .add (ih fun pre ev post he => hp pre ev (post ++ [e]) (by rw [he]; simp)) ?_
    have hs := (hp p e [] rfl).answer
    cases e with
    | complete s a => exact hs.symm
    | heur s a =>
      obtain ⟨g, h1, h2⟩ := hs
      obtain ⟨f, h3, rfl⟩ := Option.map_eq_some_iff.mp h1
      exact ⟨f, h3, h2.symm⟩
    | candidate j s a => exact hs.symm
    | outcomes j s a => exact hs.symm

theorem adds_did {W : World S C ε} {h : Hist S C ε} {A B : Callbacks.Hist S C ε} (ha : Callbacks.Adds (W.loop h) A B) :
    Adds W (h ++ did A) (h ++ did B) := by
  induction ha with
  | refl => exact .refl _
  | @add H ev ha hg ih =>
    rw [did_append, ← List.append_assoc]
    refine .add ih ?_
    cases ev with
    | outcome cur i plan a =>
      obtain ⟨g, h1, h2⟩ := hg
      obtain ⟨f, h3, rfl⟩ := Option.map_eq_some_iff.mp h1
      exact ⟨f, h3, h2⟩
    | announce s name plan a =>
      obtain ⟨g, h1, h2⟩ := hg
      obtain ⟨f, h3, rfl⟩ := Option.map_eq_some_iff.mp h1
      exact ⟨f, h3, h2⟩
    | log name a =>
      obtain ⟨g, h1, h2⟩ := hg
      obtain ⟨f, h3, rfl⟩ := Option.map_eq_some_iff.mp h1
      exact ⟨f, h3, h2⟩
    | execute name s a => exact hg
    | executed outs a =>
      obtain ⟨g, h1, h2⟩ := hg
      obtain ⟨f, h3, rfl⟩ := Option.map_eq_some_iff.mp h1
      exact ⟨f, h3, h2⟩

theorem adds_round {W : World S C ε} {h : Hist S C ε} {n : Int} {cur : List S} {plan : Callbacks.Plan S C} {i : Int} {p : Option (Primitive S C)}
    {x : Except (Callbacks.Fail ε) (S × Option (Int × List S))} {E : Callbacks.Hist S C ε} (hr : Callbacks.round (W.loop h) n cur plan i p [] = (x, E)) :
    Adds W h (h ++ did E) := by
  have := adds_did (Callbacks.adds_round (W.loop h) n cur plan i p [])
  rw [hr] at this
  simpa [did] using this

theorem adds_run {W : World S C ε} (hW : W.Nonneg) {max n : Int} {cur : List S} {h H : Hist S C ε} {r : Except (Callbacks.Fail ε) (List S)}
    (hr : ExecRun W max n cur h r H) : Adds W h H := by
  induction hr with
  | limit => exact .refl _
  | planFails hl hn => exact adds_asked (planned hW hn).right
  | fails hl hn hr => exact (adds_asked (planned hW hn).right).trans (adds_round hr)
  | done hl hn hr => exact (adds_asked (planned hW hn).right).trans (adds_round hr)
  | goOn hl hn hr hx ih => exact ((adds_asked (planned hW hn).right).trans (adds_round hr)).trans ih

/-- C117: every call in the list has the answer (or exception) that the function gives with the calls before it made. -/
theorem C117_answers {W : World S C ε} (hW : W.Nonneg) {max : Int} {starts : List S} {H : Hist S C ε} {r : Except (Callbacks.Fail ε) (List S)}
    (hr : PerformRun W max starts r H) {pre post : Hist S C ε} {ev : Planning.Call S C ε ⊕ Callbacks.Event S C ε} (hH : H = pre ++ ev :: post) :
    Genuine W pre ev := by
  have key : ∀ a b, Adds W a b → a = [] → ∀ pre ev post, b = pre ++ ev :: post → Genuine W pre ev := by
    intro a b hab
    induction hab with
    | refl => rintro rfl pre ev post h; simp at h
    | @add H ev' ha hg ih =>
      rintro rfl pre ev post hh
      rcases List.eq_nil_or_concat post with rfl | ⟨post', z, rfl⟩
      · obtain ⟨h1, h2⟩ := List.append_inj' hh rfl
        cases h2
        rw [← h1]
        exact hg
      · have h' : H ++ [ev'] = (pre ++ ev :: post') ++ [z] := by rw [hh]; simp
        exact ih rfl pre ev post' (List.append_inj' h' rfl).1
  exact key [] H (adds_run hW hr) rfl pre ev post hH

/-! ### Runs exist -/

/-- C117: if there are finitely many states and there is a limit, the call ends. -/
theorem C117_ends {W : World S C ε} (hW : W.Nonneg) {max : Int} (hmax : 0 ≤ max) {F : List S}
    (hp : ∀ h j, ∀ s ∈ F, ∀ l, W.outcomes h j s = .ok l → ∀ o ∈ l, o.1 ∈ F) (he : ∀ h name s outs, W.execute h name s = .ok outs → ∀ t ∈ outs, t ∈ F)
    {starts : List S} (hs : ∀ s ∈ starts, s ∈ F) : ∃ r H, PerformRun W max starts r H := by
  have plan : ∀ h cur, (∀ s ∈ cur, s ∈ F) → ∃ r p, Planning.NextCalls (W.fns h) cur r p := by
    intro h cur hc
    by_cases hcur : cur = []
    · exact ⟨_, _, .noStates hcur⟩
    · obtain ⟨⟨r, p, h1⟩, -⟩ := Planning.C115_ends (hW.fns h) (N := F) (starts := cur) ⟨hc, fun p i s l _ hsF hl => hp _ i s hsF l hl⟩
      cases r with
      | ok a => exact ⟨_, _, .planned hcur h1⟩
      | error x => exact ⟨_, _, .fails hcur h1⟩
  have key : ∀ (k : Nat) (n : Int), n + k = max → ∀ cur h, (∀ s ∈ cur, s ∈ F) → ∃ r H, ExecRun W max n cur h r H := by
    intro k
    induction k with
    | zero => intro n hn cur h hc; exact ⟨_, _, .limit (by omega)⟩
    | succ k ih =>
      intro n hn cur h hc
      have hl : n < max ∨ max < 0 := by omega
      obtain ⟨r, p, hr⟩ := plan h cur hc
      cases r with
      | error x => exact ⟨_, _, .planFails hl hr⟩
      | ok x =>
        obtain ⟨pl, i, j⟩ := x
        obtain ⟨i', s', rfl, h1, -⟩ := (planned hW hr).here
        rcases Callbacks.round_spec (W.loop (h ++ asked p)) n pl h1 (j.map (W.prim h)) [] with ⟨_, _, e, -⟩ | ⟨-, e⟩ | ⟨_, -, -, e⟩ | ⟨q, outs, -, -, hex, e⟩
        · exact ⟨_, _, .fails hl hr e⟩
        · exact ⟨_, _, .done hl hr e⟩
        · exact ⟨_, _, .fails hl hr e⟩
        · obtain ⟨r, H', hx⟩ := ih (n + 1) (by push_cast at hn; omega) outs _ (he _ _ _ _ hex)
          exact ⟨_, _, .goOn hl hr e hx⟩
  obtain ⟨r, H, h⟩ := key max.toNat 0 (by omega) starts [] hs
  exact ⟨r, H, h⟩

/-! ### Planning that keeps no state and throws nothing -/

/-- The calls made by the execution loop. -/
def events (h : Hist S C ε) : Callbacks.Hist S C ε := h.filterMap Sum.getRight?

/-- Functions of which those that are called while planning throw nothing and depend only on the calls made by the execution loop. -/
def lift (V : Callbacks.World S C ε) : World S C ε where
  complete := fun h s => .ok (V.complete (events h) s)
  heur := V.heuristic.map fun f h s => .ok (f (events h) s)
  count := fun h => (V.prims (events h)).length
  name := fun h j => match (V.prims (events h))[j]? with | some q => q.name | none => ""
  candidate := fun h j s => .ok (match (V.prims (events h))[j]? with | some q => q.candidate s | none => false)
  outcomes := fun h j s => .ok (match (V.prims (events h))[j]? with | some q => q.outcomes s | none => [])
  outcome := V.outcome.map fun f h => f (events h)
  announce := V.announce.map fun f h => f (events h)
  log := V.log.map fun f h => f (events h)
  execute := fun h => V.execute (events h)
  executed := V.executed.map fun f h => f (events h)

theorem events_asked (h : Hist S C ε) (p : Planning.Calls S C ε) : events (h ++ asked p) = events h := by
  unfold events asked
  rw [List.filterMap_append, List.filterMap_map]
  have : List.filterMap (Sum.getRight? ∘ (Sum.inl : Planning.Call S C ε → Planning.Call S C ε ⊕ Callbacks.Event S C ε)) p = [] := by
    rw [List.filterMap_eq_nil_iff]; intro a _; rfl
  rw [this, List.append_nil]

theorem events_did (h : Hist S C ε) (E : Callbacks.Hist S C ε) : events (h ++ did E) = events h ++ E := by
  unfold events did
  rw [List.filterMap_append, List.filterMap_map]
  congr 1
  exact List.filterMap_some

theorem fns_lift (V : Callbacks.World S C ε) (h : Hist S C ε) : (lift V).fns h =
    Planning.pureFns (V.prims (events h)) (V.complete (events h)) (V.heuristic.map fun f => f (events h)) := by
  unfold World.fns lift Planning.pureFns
  simp only [events_asked, Option.map_map, Function.comp_def, Planning.Fns.mk.injEq, true_and]
  refine ⟨?_, ?_⟩
  · funext _ j s
    cases (V.prims (events h))[j]? <;> rfl
  · funext _ j s
    cases (V.prims (events h))[j]? <;> rfl

/-- `m'` does with the calls `E` what `m` does with the calls `e ++ E`. -/
def Shift {α : Type} (e : Callbacks.Hist S C ε) (m' m : Callbacks.Run S C ε α) : Prop := ∀ E, m (e ++ E) = ((m' E).1, e ++ (m' E).2)

theorem shift_bind {α β : Type} {e : Callbacks.Hist S C ε} {m' m : Callbacks.Run S C ε α} {f' f : α → Callbacks.Run S C ε β} (hm : Shift e m' m)
    (hf : ∀ a, Shift e (f' a) (f a)) : Shift e (m' >>= f') (m >>= f) := by
  intro E
  rw [Callbacks.bind_def, Callbacks.bind_def, hm E]
  cases hx : m' E with
  | mk r H =>
    cases r with
    | ok a => exact hf a H
    | error x => rfl

theorem shift_ret {α : Type} (e : Callbacks.Hist S C ε) (a : α) : Shift e (Callbacks.ret a) (Callbacks.ret a) := fun _ => rfl

theorem shift_lib {α : Type} (e : Callbacks.Hist S C ε) (r : Res α) : Shift e (Callbacks.lib r) (Callbacks.lib r) := by
  cases r <;> exact fun _ => rfl

theorem shift_ask {α : Type} {e : Callbacks.Hist S C ε} {f' f : Callbacks.Hist S C ε → Except ε α} {ev : Except ε α → Callbacks.Event S C ε}
    (hf : ∀ E, f (e ++ E) = f' E) : Shift e (Callbacks.ask f' ev) (Callbacks.ask f ev) := by
  intro E
  unfold Callbacks.ask
  rw [hf E]
  cases f' E <;> simp

theorem shift_askIf {γ : Type} {e : Callbacks.Hist S C ε} {g : Option γ} {f' f : γ → Callbacks.Hist S C ε → Except ε Unit}
    {ev : Except ε Unit → Callbacks.Event S C ε} (hf : ∀ x E, f x (e ++ E) = f' x E) :
    Shift e (Callbacks.askIf (g.map f') ev) (Callbacks.askIf (g.map f) ev) := by
  cases g with
  | none => exact shift_ret e ()
  | some x => exact shift_ask (hf x)

theorem shift_round (V : Callbacks.World S C ε) (h : Hist S C ε) (n : Int) (cur : List S) (plan : Callbacks.Plan S C) (i : Int)
    {p' p : Option (Primitive S C)} (hp : p'.map (·.name) = p.map (·.name)) :
    Shift (events h) (Callbacks.round ((lift V).loop h) n cur plan i p') (Callbacks.round V n cur plan i p) := by
  unfold Callbacks.round lift World.loop
  simp only [Option.map_map]
  refine shift_bind (shift_lib _ _) fun s => ?_
  refine shift_bind (shift_askIf fun f E => by simp [events_did]) fun _ => ?_
  cases p with
  | none =>
    have := Option.map_eq_none_iff.mp hp
    subst this
    exact shift_ret _ _
  | some q =>
    obtain ⟨q', rfl, hq⟩ := Option.map_eq_some_iff.mp hp
    dsimp only at hq ⊢
    rw [hq]
    refine shift_bind (shift_askIf fun f E => by simp [events_did]) fun _ => ?_
    refine shift_bind (shift_askIf fun f E => by simp [events_did]) fun _ => ?_
    refine shift_bind (shift_lib _ _) fun m => ?_
    refine shift_bind (shift_ask fun E => by rw [events_did]) fun outs => ?_
    refine shift_bind (shift_askIf fun f E => by simp [events_did]) fun _ => ?_
    exact shift_ret _ _

theorem pick_same (prims : List (Primitive S C)) (starts : List S) (plan : List (S × Int) × C) :
    (∃ e, Planning.pickIndex prims.length starts plan = .throw e ∧ pickNext prims starts plan = .throw e) ∨
    (∃ i, Planning.pickIndex prims.length starts plan = .ok (i, none) ∧ pickNext prims starts plan = .ok (i, none)) ∨
    ∃ i m q, prims[m]? = some q ∧ Planning.pickIndex prims.length starts plan = .ok (i, some m) ∧ pickNext prims starts plan = .ok (i, some q) := by
  unfold Planning.pickIndex pickNext
  by_cases hc : plan.2 ≠ ⊤
  · rw [if_pos hc, if_pos hc]
    cases h1 : atChecked plan.1 0 with
    | throw e => left; exact ⟨e, rfl, rfl⟩
    | ub => unfold atChecked at h1; split at h1 <;> cases h1
    | ok first =>
      rw [Res.ok_bind, Res.ok_bind]
      cases h2 : starts.findIdx? (fun t => decide (first.1 = t)) with
      | none => left; exact ⟨_, rfl, rfl⟩
      | some i =>
        dsimp only
        by_cases hl : plan.1.length > 1
        · rw [if_pos hl, if_pos hl]
          cases h3 : atChecked plan.1 1 with
          | throw e => left; exact ⟨e, rfl, rfl⟩
          | ub => unfold atChecked at h3; split at h3 <;> cases h3
          | ok next =>
            rw [Res.ok_bind, Res.ok_bind]
            by_cases hneg : next.2 < 0
            · left
              exact ⟨.outOfRange, by unfold atInt; rw [if_pos hneg]; rfl, by unfold atInt; rw [if_pos hneg]; rfl⟩
            · unfold atInt
              rw [if_neg hneg, if_neg hneg]
              unfold atChecked
              cases hq : prims[next.2.toNat]? with
              | none =>
                have : (List.range prims.length)[next.2.toNat]? = none := by
                  rw [List.getElem?_eq_none_iff] at hq ⊢
                  simpa using hq
                rw [this]
                left; exact ⟨_, rfl, rfl⟩
              | some q =>
                have hlt : next.2.toNat < prims.length := (List.getElem?_eq_some_iff.mp hq).1
                rw [List.getElem?_range hlt]
                right; right
                exact ⟨i, next.2.toNat, q, hq, rfl, rfl⟩
        · rw [if_neg hl, if_neg hl]
          right; left
          exact ⟨i, rfl, rfl⟩
  · rw [if_neg hc, if_neg hc]
    left; exact ⟨_, rfl, rfl⟩

/-- The same primitive, or none. -/
def SamePrim (prims : List (Primitive S C)) : Option Nat → Option (Primitive S C) → Prop
  | none, none => True
  | some m, some q => prims[m]? = some q
  | _, _ => False

/-- Choosing the next primitive, with functions that keep no state and throw nothing: an outcome is possible in one model if it is in the other. -/
theorem next_pure (prims : List (Primitive S C)) (complete : S → Bool) (hh : Option (S → C)) (starts : List S) :
    (∀ plan i j (p : Planning.Calls S C ε), Planning.NextCalls (Planning.pureFns prims complete hh) starts (.ok (plan, i, j)) p →
      ∃ q, SamePrim prims j q ∧ NextRun prims complete hh starts (.ok (plan, i, q))) ∧
    (∀ x (p : Planning.Calls S C ε), Planning.NextCalls (Planning.pureFns prims complete hh) starts (.error x) p →
      ∃ r : Res (Callbacks.Plan S C × Int × Option (Primitive S C)), NextRun prims complete hh starts r ∧
        ((∃ e, r = .throw e ∧ x = .lib e) ∨ (r = .ub ∧ x = .ub))) ∧
    (∀ plan i q, NextRun prims complete hh starts (.ok (plan, i, q)) →
      ∃ j, SamePrim prims j q ∧ ∃ p : Planning.Calls S C ε, Planning.NextCalls (Planning.pureFns prims complete hh) starts (.ok (plan, i, j)) p) ∧
    (∀ e, NextRun prims complete hh starts (.throw e) →
      ∃ p : Planning.Calls S C ε, Planning.NextCalls (Planning.pureFns prims complete hh) starts (.error (.lib e)) p) ∧
    (NextRun prims complete hh starts .ub →
      ∃ p : Planning.Calls S C ε, Planning.NextCalls (Planning.pureFns prims complete hh) starts (.error .ub) p) := by
  have hcount : (Planning.pureFns prims complete hh : Planning.Fns S C ε).count = prims.length := rfl
  have fwd : ∀ r (p : Planning.Calls S C ε), Planning.NextCalls (Planning.pureFns prims complete hh) starts r p →
      (∃ plan i j q, r = .ok (plan, i, j) ∧ SamePrim prims j q ∧ NextRun prims complete hh starts (.ok (plan, i, q))) ∨
      ∃ x, r = .error x ∧ ∃ r' : Res (Callbacks.Plan S C × Int × Option (Primitive S C)), NextRun prims complete hh starts r' ∧
        ((∃ e, r' = .throw e ∧ x = .lib e) ∨ (r' = .ub ∧ x = .ub)) := by
    intro r p hr
    cases hr with
    | noStates hs => right; exact ⟨_, rfl, _, .empty hs, .inl ⟨_, rfl, rfl⟩⟩
    | @fails x p hs hp =>
      right
      obtain ⟨r', h1, h2⟩ := (Planning.C115_as_without prims complete hh starts _).mp ⟨p, hp⟩
      have h3 := NextRun.planned hs h2
      cases r' with
      | ok a => cases h1
      | throw e => cases h1; exact ⟨_, rfl, _, h3, .inl ⟨e, rfl, rfl⟩⟩
      | ub => cases h1; exact ⟨_, rfl, _, h3, .inr ⟨rfl, rfl⟩⟩
    | @planned plan p hs hp =>
      obtain ⟨r', h1, h2⟩ := (Planning.C115_as_without prims complete hh starts _).mp ⟨p, hp⟩
      have h3 := NextRun.planned hs h2
      cases r' with
      | throw e => cases h1
      | ub => cases h1
      | ok a =>
        cases h1
        rw [Res.ok_bind] at h3
        rw [hcount]
        rcases pick_same prims starts plan with ⟨e, k1, k2⟩ | ⟨i, k1, k2⟩ | ⟨i, m, q, k0, k1, k2⟩
        · rw [k2] at h3
          right
          exact ⟨_, by rw [k1]; rfl, _, h3, .inl ⟨e, rfl, rfl⟩⟩
        · rw [k2] at h3
          left
          exact ⟨plan, i, none, none, by rw [k1]; rfl, trivial, h3⟩
        · rw [k2] at h3
          left
          exact ⟨plan, i, some m, some q, by rw [k1]; rfl, k0, h3⟩
  have bwd : ∀ r, NextRun prims complete hh starts r →
      (∃ plan i j q, r = .ok (plan, i, q) ∧ SamePrim prims j q ∧
        ∃ p : Planning.Calls S C ε, Planning.NextCalls (Planning.pureFns prims complete hh) starts (.ok (plan, i, j)) p) ∨
      (∃ e, r = .throw e ∧ ∃ p : Planning.Calls S C ε, Planning.NextCalls (Planning.pureFns prims complete hh) starts (.error (.lib e)) p) ∨
      (r = .ub ∧ ∃ p : Planning.Calls S C ε, Planning.NextCalls (Planning.pureFns prims complete hh) starts (.error .ub) p) := by
    intro r hr
    cases hr with
    | empty hs => right; left; exact ⟨_, rfl, _, .noStates hs⟩
    | @planned r hs hp =>
      obtain ⟨p, h1⟩ := (Planning.C115_as_without (ε := ε) prims complete hh starts _).mpr ⟨r, rfl, hp⟩
      cases r with
      | throw e => right; left; exact ⟨e, rfl, p, .fails hs h1⟩
      | ub => right; right; exact ⟨rfl, p, .fails hs h1⟩
      | ok plan =>
        have h3 := Planning.NextCalls.planned hs h1
        rw [hcount] at h3
        rw [Res.ok_bind]
        rcases pick_same prims starts plan with ⟨e, k1, k2⟩ | ⟨i, k1, k2⟩ | ⟨i, m, q, k0, k1, k2⟩
        · rw [k1] at h3
          right; left
          exact ⟨e, by rw [k2]; rfl, p, h3⟩
        · rw [k1] at h3
          left
          exact ⟨plan, i, none, none, by rw [k2]; rfl, trivial, p, h3⟩
        · rw [k1] at h3
          left
          exact ⟨plan, i, some m, some q, by rw [k2]; rfl, k0, p, h3⟩
  refine ⟨fun plan i j p h => ?_, fun x p h => ?_, fun plan i q h => ?_, fun e h => ?_, fun h => ?_⟩
  · rcases fwd _ p h with ⟨_, _, _, q, h1, h2⟩ | ⟨x, h1, -⟩
    · cases h1; exact ⟨q, h2⟩
    · cases h1
  · rcases fwd _ p h with ⟨_, _, _, q, h1, h2⟩ | ⟨x, h1, h2⟩
    · cases h1
    · cases h1; exact h2
  · rcases bwd _ h with ⟨_, _, j, _, h1, h2⟩ | ⟨e, h1, -⟩ | ⟨h1, -⟩
    · cases h1; exact ⟨j, h2⟩
    · cases h1
    · cases h1
  · rcases bwd _ h with ⟨_, _, j, _, h1, h2⟩ | ⟨e, h1, h2⟩ | ⟨h1, -⟩
    · cases h1
    · cases h1; exact h2
    · cases h1
  · rcases bwd _ h with ⟨_, _, j, _, h1, h2⟩ | ⟨e, h1, h2⟩ | ⟨h1, h2⟩
    · cases h1
    · cases h1
    · exact h2

theorem same_name {V : Callbacks.World S C ε} {h : Hist S C ε} {j : Option Nat} {q : Option (Primitive S C)} (hs : SamePrim (V.prims (events h)) j q) :
    (j.map ((lift V).prim h)).map (·.name) = q.map (·.name) := by
  cases j with
  | none =>
    cases q with
    | none => rfl
    | some q => cases hs
  | some m =>
    cases q with
    | none => cases hs
    | some q =>
      have hs' : (V.prims (events h))[m]? = some q := hs
      simp only [Option.map_some, World.prim, lift, hs']

/-- The rest of a round, in both models. -/
theorem round_lift (V : Callbacks.World S C ε) (h : Hist S C ε) (p : Planning.Calls S C ε) (n : Int) (cur : List S) (plan : Callbacks.Plan S C) (i : Int)
    {j : Option Nat} {q : Option (Primitive S C)} (hs : SamePrim (V.prims (events h)) j q) :
    Callbacks.round V n cur plan i q (events h) =
      ((Callbacks.round ((lift V).loop (h ++ asked p)) n cur plan i (j.map ((lift V).prim h)) []).1,
        events h ++ (Callbacks.round ((lift V).loop (h ++ asked p)) n cur plan i (j.map ((lift V).prim h)) []).2) := by
  have := shift_round V (h ++ asked p) n cur plan i (same_name hs) []
  rwa [events_asked, List.append_nil] at this

theorem run_lift {V : Callbacks.World S C ε} {max n : Int} {cur : List S} {h H : Hist S C ε} {r : Except (Callbacks.Fail ε) (List S)}
    (hr : ExecRun (lift V) max n cur h r H) : Callbacks.ExecRun V max n cur (events h) r (events H) := by
  induction hr with
  | limit hl => exact .limit hl
  | @planFails n cur h x p hl hn =>
    rw [fns_lift] at hn
    rw [events_asked]
    obtain ⟨r, h1, ⟨e, rfl, rfl⟩ | ⟨rfl, rfl⟩⟩ := (next_pure _ _ _ _).2.1 _ _ hn
    · exact .planThrows hl h1
    · exact .planUb hl h1
  | @fails n cur h p E plan i j x hl hn hrd =>
    rw [fns_lift] at hn
    obtain ⟨q, h1, h2⟩ := (next_pure _ _ _ _).1 _ _ _ _ hn
    rw [events_did, events_asked]
    refine .fails hl h2 ?_
    rw [round_lift V h p n cur plan i h1, hrd]
  | @done n cur h p E plan i j s hl hn hrd =>
    rw [fns_lift] at hn
    obtain ⟨q, h1, h2⟩ := (next_pure _ _ _ _).1 _ _ _ _ hn
    rw [events_did, events_asked]
    refine .done hl h2 ?_
    rw [round_lift V h p n cur plan i h1, hrd]
  | @goOn n m cur outs h H p E plan i j s r hl hn hrd hx ih =>
    rw [fns_lift] at hn
    obtain ⟨q, h1, h2⟩ := (next_pure _ _ _ _).1 _ _ _ _ hn
    rw [events_did, events_asked] at ih
    refine .goOn hl h2 ?_ ih
    rw [round_lift V h p n cur plan i h1, hrd]

theorem lift_run {V : Callbacks.World S C ε} {max n : Int} {cur : List S} {e E : Callbacks.Hist S C ε} {r : Except (Callbacks.Fail ε) (List S)}
    (hr : Callbacks.ExecRun V max n cur e r E) : ∀ h, events h = e → ∃ H, events H = E ∧ ExecRun (lift V) max n cur h r H := by
  induction hr with
  | limit hl => exact fun h he => ⟨h, he, .limit hl⟩
  | planThrows hl hn =>
    rintro h rfl
    obtain ⟨p, h1⟩ := (next_pure (ε := ε) _ _ _ _).2.2.2.1 _ hn
    rw [← fns_lift] at h1
    exact ⟨_, events_asked h p, .planFails hl h1⟩
  | planUb hl hn =>
    rintro h rfl
    obtain ⟨p, h1⟩ := (next_pure (ε := ε) _ _ _ _).2.2.2.2 hn
    rw [← fns_lift] at h1
    exact ⟨_, events_asked h p, .planFails hl h1⟩
  | @fails n cur e E plan i q x hl hn hrd =>
    rintro h rfl
    obtain ⟨j, h1, p, h2⟩ := (next_pure (ε := ε) _ _ _ _).2.2.1 _ _ _ hn
    rw [← fns_lift] at h2
    rw [round_lift V h p n cur plan i h1] at hrd
    obtain ⟨h3, h4⟩ := Prod.mk.inj hrd
    exact ⟨h ++ asked p ++ did _, by rw [events_did, events_asked]; exact h4, .fails hl h2 (Prod.ext h3 rfl)⟩
  | @done n cur e E plan i q s hl hn hrd =>
    rintro h rfl
    obtain ⟨j, h1, p, h2⟩ := (next_pure (ε := ε) _ _ _ _).2.2.1 _ _ _ hn
    rw [← fns_lift] at h2
    rw [round_lift V h p n cur plan i h1] at hrd
    obtain ⟨h3, h4⟩ := Prod.mk.inj hrd
    exact ⟨h ++ asked p ++ did _, by rw [events_did, events_asked]; exact h4, .done hl h2 (Prod.ext h3 rfl)⟩
  | @goOn n m cur outs e e1 E plan i q s r hl hn hrd hx ih =>
    rintro h rfl
    obtain ⟨j, h1, p, h2⟩ := (next_pure (ε := ε) _ _ _ _).2.2.1 _ _ _ hn
    rw [← fns_lift] at h2
    rw [round_lift V h p n cur plan i h1] at hrd
    obtain ⟨h3, h4⟩ := Prod.mk.inj hrd
    obtain ⟨H, h5, h6⟩ := ih (h ++ asked p ++ did _) (by rw [events_did, events_asked]; exact h4)
    exact ⟨H, h5, .goOn hl h2 (Prod.ext h3 rfl) h6⟩

/-- C117: if what is called while planning throws nothing and depends only on the calls made by the execution loop, the possible outcomes, and the
calls made by the execution loop, are those of C111. -/
theorem C117_as_without (V : Callbacks.World S C ε) (max : Int) (starts : List S) (r : Except (Callbacks.Fail ε) (List S)) (E : Callbacks.Hist S C ε) :
    (∃ H, events H = E ∧ PerformRun (lift V) max starts r H) ↔ Callbacks.PerformRun V max starts r E := by
  constructor
  · rintro ⟨H, rfl, h⟩
    exact run_lift h
  · intro h
    exact lift_run h [] rfl

/-! ### Concrete cases -/

namespace Demo
/-- The functions of `Planning.Demo.counting`, which count the calls: the completion test accepts every state from the sixth call on; from the
seventh call on the second primitive would throw when asked. The first primitive is called "step"; executing it throws if `bad`. -/
def world (bad : Bool) : World Nat ℕ∞ String where
  complete := fun h _ => .ok (true && decide (5 ≤ h.length))
  heur := none
  count := fun _ => 2
  name := fun _ j => if j = 0 then "step" else "other"
  candidate := fun h i _ => if i = 1 ∧ 6 ≤ h.length then .error "tired" else .ok (decide (i = 0))
  outcomes := fun _ _ s => .ok [(s + 1, 1)]
  outcome := some fun _ _ _ _ => .ok ()
  announce := none
  log := none
  execute := fun _ _ s => if bad then .error "bad" else .ok [s + 5]
  executed := none

theorem world_nn (bad : Bool) : (world bad).Nonneg := fun _ _ _ _ _ _ _ => zero_le

theorem first_fns (bad : Bool) : (world bad).fns [] = CRU.Task.Planning.Demo.counting true := by
  unfold World.fns world CRU.Task.Planning.Demo.counting
  simp [asked]

theorem first_next (bad : Bool) : Planning.NextCalls ((world bad).fns []) [0] (.ok (([(0, -1), (1, 0)], 0 + 1), 0, some 0)) (CRU.Task.Planning.Demo.calls ++ [.complete 1 (.ok true)]) := by
  rw [first_fns]
  have := Planning.NextCalls.planned (by simp) CRU.Task.Planning.Demo.patient_plan
  have h1 : Planning.pickIndex (CRU.Task.Planning.Demo.counting true).count [0] ([((0 : Nat), (-1 : Int)), (1, 0)], (0 + 1 : ℕ∞)) = .ok (0, some 0) := by
    unfold Planning.pickIndex
    rw [if_pos (by simp)]
    rfl
  rw [h1] at this
  exact this

/-- The first plan's calls, then those of the execution loop. -/
def bad_calls : Hist Nat ℕ∞ String :=
  asked (CRU.Task.Planning.Demo.calls ++ [.complete 1 (.ok true)]) ++ did [.outcome [0] 0 ([(0, -1), (1, 0)], 0 + 1) (.ok ()), .execute "step" 0 (.error "bad")]

/-- The primitive throws when it is executed. -/
theorem run_bad : PerformRun (world true) 3 [0] (.error (.user "bad")) bad_calls :=
  ExecRun.fails (W := world true) (h := []) (.inl (by decide)) (first_next true) rfl

def good_calls : Hist Nat ℕ∞ String :=
  asked (CRU.Task.Planning.Demo.calls ++ [.complete 1 (.ok true)]) ++ did [.outcome [0] 0 ([(0, -1), (1, 0)], 0 + 1) (.ok ()), .execute "step" 0 (.ok [5])]

/-- The state that the execution gives, 5, was not predicted; the completion test accepts it. -/
theorem second_next : Planning.NextCalls ((world false).fns good_calls) [5] (.ok (([(5, -1)], 0), 0, none)) [.complete 5 (.ok true)] := by
  have hrun : Planning.PlanCalls ((world false).fns good_calls) [5] (.ok ([(5, -1)], 0)) [.complete 5 (.ok true)] := by
    refine ⟨[.goal (5, -1) (.ok true)], ?_, rfl⟩
    exact Astar.Callbacks.AstarRun.early (W := Astar.Callbacks.world1 (Planning.lambdas ((world false).fns good_calls)) true)
      (starts := planStarts [5]) (s := ((5, -1), 0)) (by simp [planStarts]) rfl
  have := Planning.NextCalls.planned (by simp) hrun
  have h1 : Planning.pickIndex ((world false).fns good_calls).count [5] ([((5 : Nat), (-1 : Int))], (0 : ℕ∞)) = .ok (0, none) := by
    unfold Planning.pickIndex
    rw [if_pos (by simp)]
    rfl
  rw [h1] at this
  exact this

/-- Two rounds of planning, one execution. -/
theorem run_good : PerformRun (world false) 3 [0] (.ok [0, 5])
    (good_calls ++ asked [.complete 5 (.ok true)] ++ did [.outcome [5] 0 ([(5, -1)], 0) (.ok ())]) :=
  ExecRun.goOn (W := world false) (h := []) (m := 1) (outs := [5]) (s := 0) (r := .ok [5]) (.inl (by decide)) (first_next false) rfl
    (.done (.inl (by decide)) second_next rfl)

/-- A primitive throws while a plan is made. -/
def tired : World Nat ℕ∞ String where
  complete := fun h _ => .ok (false && decide (5 ≤ h.length))
  heur := none
  count := fun _ => 2
  name := fun _ _ => "step"
  candidate := fun h i _ => if i = 1 ∧ 6 ≤ h.length then .error "tired" else .ok (decide (i = 0))
  outcomes := fun _ _ s => .ok [(s + 1, 1)]
  outcome := none
  announce := none
  log := none
  execute := fun _ _ _ => .ok []
  executed := none

theorem run_tired : PerformRun tired 3 [0] (.error (.user "tired")) (asked (CRU.Task.Planning.Demo.calls ++
    [.complete 1 (.ok false), .candidate 0 1 (.ok true), .outcomes 0 1 (.ok [(2, 1)]), .candidate 1 1 (.error "tired")])) := by
  have hf : tired.fns [] = CRU.Task.Planning.Demo.counting false := by
    unfold World.fns tired CRU.Task.Planning.Demo.counting
    simp [asked]
  have := Planning.NextCalls.fails (by simp) CRU.Task.Planning.Demo.tired_plan
  rw [← hf] at this
  exact ExecRun.planFails (W := tired) (h := []) (.inl (by decide)) this

example := C117_session (world_nn false) (by decide) run_good
example := (C117_exceptions (world_nn true) (by decide) run_bad).1 _ rfl
example := (C117_exceptions (W := tired) (fun _ _ _ _ _ _ _ => zero_le) (by decide) run_tired).1 _ rfl
example := (C117_executions (world_nn false) (by decide) run_good).1 (by decide)
example := C117_only_candidates (world_nn false) (by decide) run_good (pre := asked (CRU.Task.Planning.Demo.calls ++ [.complete 1 (.ok true)]) ++ did [_])
  (name := "step") (s := 0) (a := .ok [5]) rfl
example : (world false).execute (asked (CRU.Task.Planning.Demo.calls ++ [.complete 1 (.ok true)]) ++ did [.outcome [0] 0 ([(0, -1), (1, 0)], 0 + 1) (.ok ())]) "step" 0 = .ok [5] :=
  C117_answers (world_nn false) run_good (ev := .inr (.execute "step" 0 (.ok [5]))) rfl

/-- Two states: the primitive predicts one of them at random, at a cost that depends on the number of calls; executing it gives the other one. -/
example := C117_ends (W := ⟨fun _ _ => .ok false, some fun h _ => .ok (h.length : ℕ∞), fun _ => 1, fun _ _ => "p", fun h _ _ => .ok (decide (h.length < 50)),
    fun h _ _ => .ok [(h.length % 2, (h.length : ℕ∞))], none, none, none, fun _ _ s => .ok [(s + 1) % 2], none⟩) (ε := String) (F := [0, 1]) (max := 3)
  (fun _ _ _ _ _ _ _ => zero_le) (by decide) (by
    intro h j s _ l hl x hx
    simp only [Except.ok.injEq] at hl
    subst hl
    simp only [List.mem_singleton] at hx
    subst hx
    rcases Nat.mod_two_eq_zero_or_one h.length with h | h <;> simp [h]) (by
    intro h name s outs ho t ht
    simp only [Except.ok.injEq] at ho
    subst ho
    simp only [List.mem_singleton] at ht
    subst ht
    rcases Nat.mod_two_eq_zero_or_one (s + 1) with h | h <;> simp [h]) (starts := [0]) (by simp)

/-- The run of `Callbacks.Demo`, in both models. -/
example : ∃ H, events H = Callbacks.Demo.calls ∧ PerformRun (lift (Callbacks.Demo.world false)) 5 [1] (.ok [1, 2]) H :=
  (C117_as_without _ _ _ _ _).mpr Callbacks.Demo.run_good

end Demo

end CRU.Task.Session
