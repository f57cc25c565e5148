import Verif.TaskPlanner.PlanningLemmas
import Verif.TaskPlanner.Props
/-
  C115: planning a task, and choosing the next primitive, with primitives and functions that keep state and that may throw.
-/
namespace CRU.Task.Planning
open CRU.Task
set_option linter.unusedSectionVars false

variable {S C ε : Type} [DecidableEq S] [LinearOrder C] [Add C] [Zero C] [OrderTop C]
variable {F : Fns S C ε} {starts : List S}

/-! ### Specification -/

/-- The predicted costs are not negative: the constructor of `StateWithCost` ensures this. -/
def Nonneg (F : Fns S C ε) : Prop := ∀ p i s l, F.outcomes p i s = .ok l → ∀ x ∈ l, 0 ≤ x.2

/-- The completion test refused `s`, and all primitives were asked about it. -/
def Tried (n : Nat) (p : Calls S C ε) (s : S) : Prop := Call.complete s (.ok false) ∈ p ∧ ∀ i < n, AskedPrimitive p i s

/-- How planning can end, given what was asked and answered. -/
inductive Ending (n : Nat) (starts : List S) (p : Calls S C ε) : Except (Astar.Callbacks.Fail ε) (List (S × Int) × C) → Prop
  /-- a plan: every step was predicted, the completion test accepted its last state; what was predicted costs at most what is reported, which is
  finite -/
  | plan {plan : List (S × Int)} {c cost : C} {x : S × Int} (hcalm : Calm p) (hp : WasPlan starts p plan c) (hle : c ≤ cost)
      (hlast : plan.getLast? = some x) (hx : Call.complete x.1 (.ok true) ∈ p) (hfin : cost < ⊤) : Ending n starts p (.ok (plan, cost))
  /-- no plan: the completion test refused every start and every predicted state, and all primitives were asked about them -/
  | none (hcalm : Calm p) (hall : ∀ s, Known starts p s → Tried n p s) : Ending n starts p (.ok ([], ⊤))
  /-- the exception of the last call -/
  | thrown {x : ε} {ev : Call S C ε} {pre : Calls S C ε} (he : p = pre ++ [ev]) (ht : ev.thrown = some x) : Ending n starts p (.error (.user x))
  | noStarts (hs : starts = []) (hn : p = []) : Ending n starts p (.error (.lib .invalidArgument))
  /-- the plan that was found costs infinity -/
  | infinite {plan : List (S × Int)} {x : S × Int} (hcalm : Calm p) (hp : WasPlan starts p plan ⊤) (hlast : plan.getLast? = some x)
      (hx : Call.complete x.1 (.ok true) ∈ p) : Ending n starts p (.error (.lib .invalidArgument))

/-- How choosing the next primitive can end. -/
inductive NextEnding (n : Nat) (starts : List S) (p : Calls S C ε) :
    Except (Astar.Callbacks.Fail ε) ((List (S × Int) × C) × Int × Option Nat) → Prop
  /-- the primitive that the plan begins with; the index is that of the first start that is the plan's first state. The primitive said that it is a
  candidate in that state and predicted the next one -/
  | next {s t : S} {i j : Nat} {w c cost : C} {rest : List (S × Int)} {x : S × Int} (hcalm : Calm p)
      (hp : WasPlan starts p ((s, -1) :: (t, (j : Int)) :: rest) c) (hle : c ≤ cost) (hlast : ((s, -1) :: (t, (j : Int)) :: rest).getLast? = some x)
      (hx : Call.complete x.1 (.ok true) ∈ p) (hfin : cost < ⊤) (hi : starts[i]? = some s) (hfirst : ∀ k < i, starts[k]? ≠ some s) (hj : j < n)
      (hcand : Call.candidate j s (.ok true) ∈ p) (ht : Foretold p s t j w) :
      NextEnding n starts p (.ok (((s, -1) :: (t, (j : Int)) :: rest, cost), (i : Int), some j))
  /-- a start that the completion test accepted: nothing to execute -/
  | done {s : S} {i : Nat} {cost : C} (hcalm : Calm p) (hx : Call.complete s (.ok true) ∈ p) (hi : starts[i]? = some s)
      (hfirst : ∀ k < i, starts[k]? ≠ some s) (hfin : cost < ⊤) : NextEnding n starts p (.ok (([(s, -1)], cost), (i : Int), none))
  /-- no plan -/
  | none (hs : starts ≠ []) (hcalm : Calm p) (hall : ∀ s, Known starts p s → Tried n p s) : NextEnding n starts p (.error (.lib .runtimeError))
  | thrown {x : ε} {ev : Call S C ε} {pre : Calls S C ε} (he : p = pre ++ [ev]) (ht : ev.thrown = some x) : NextEnding n starts p (.error (.user x))
  | noStarts (hs : starts = []) (hn : p = []) : NextEnding n starts p (.error (.lib .invalidArgument))
  | infinite {plan : List (S × Int)} {x : S × Int} (hcalm : Calm p) (hp : WasPlan starts p plan ⊤) (hlast : plan.getLast? = some x)
      (hx : Call.complete x.1 (.ok true) ∈ p) : NextEnding n starts p (.error (.lib .invalidArgument))

/-! ### Proofs -/

theorem askPrimitives_nonneg (hnn : Nonneg F) (s : S) (is : List Nat) (p : Calls S C ε) (l : List ((S × Int) × C))
    (hl : (askPrimitives F s is p).1 = .ok l) : ∀ x ∈ l, 0 ≤ x.2 := by
  induction is generalizing p l with
  | nil => cases hl; simp
  | cons i is ih =>
    unfold askPrimitives at hl
    cases ha : F.candidate p i s with
    | error x => rw [bind_err (ask_eq ha)] at hl; cases hl
    | ok a =>
      rw [bind_ok (ask_eq ha)] at hl
      cases a with
      | false => rw [if_neg (by simp)] at hl; exact ih _ _ hl
      | true =>
        rw [if_pos rfl] at hl
        cases ho : F.outcomes (p ++ [.candidate i s (.ok true)]) i s with
        | error x => rw [bind_err (ask_eq ho)] at hl; cases hl
        | ok outs =>
          rw [bind_ok (ask_eq ho)] at hl
          cases hr : askPrimitives F s is (p ++ [.candidate i s (.ok true)] ++ [.outcomes i s (.ok outs)]) with
          | mk r p' =>
            cases r with
            | error x => rw [bind_err hr] at hl; cases hl
            | ok l' =>
              rw [bind_ok hr] at hl
              cases hl
              intro x hx
              rcases List.mem_append.mp hx with hx | hx
              · obtain ⟨o, h1, rfl⟩ := List.mem_map.mp hx
                exact hnn _ _ _ _ ho o h1
              · exact ih _ _ (by rw [hr]) x hx

theorem lambdas_nonneg (hnn : Nonneg F) : Astar.Callbacks.Nonneg (lambdas F) :=
  fun _ _ _ hl => askPrimitives_nonneg hnn _ _ _ _ hl

theorem Match.plan {h : Astar.Callbacks.Hist (S × Int) C ε} (hm : Match F starts h) {path : List (S × Int)} {c : C}
    (hw : Astar.Walk (planStarts starts) (Astar.Callbacks.Offered h) path c) : WasPlan starts (replay F h) path c := by
  induction hw with
  | @start s c hs =>
    unfold planStarts at hs
    obtain ⟨t, h1, h2⟩ := List.mem_map.mp hs
    cases h2
    exact .start h1
  | @step l s t c w _ he ih =>
    exact .step ih (hm.offered s t w he)

theorem planStarts_nil {starts : List S} (h : (planStarts starts : List ((S × Int) × C)) = []) : starts = [] := by
  unfold planStarts at h
  exact List.map_eq_nil_iff.mp h

variable [CostLaws C]

/-- C115: whatever state the primitives and functions keep and whatever they throw, the calls made while a plan is made are a right sequence
(`History`), and planning ends in one of the ways of `Ending`. -/
theorem C115_plan (hnn : Nonneg F) {r : Except (Astar.Callbacks.Fail ε) (List (S × Int) × C)} {p : Calls S C ε} (hr : PlanCalls F starts r p) :
    History F starts p ∧ Ending F.count starts p r := by
  obtain ⟨h, hr, rfl⟩ := hr
  obtain ⟨hh, he⟩ := Astar.Callbacks.C113_search (lambdas_nonneg hnn) true hr
  have hm := match_history h hh
  refine ⟨hm.history, ?_⟩
  cases he with
  | path hcalm hw hle hlast hg hfin => exact .plan (hm.calm hcalm).1 (hm.plan hw) hle hlast (hm.goal _ _ hg) hfin
  | none hcalm hall =>
    refine .none (hm.calm hcalm).1 (fun s hs => ?_)
    have hk : ∃ j, Astar.Callbacks.Known (planStarts starts) h (s, j) := by
      rcases hs with hs | ⟨s0, j, w, hf⟩
      · exact ⟨-1, .inl ⟨0, List.mem_map.mpr ⟨s, hs, rfl⟩⟩⟩
      · obtain ⟨j0, ho⟩ := hm.foretold hcalm s0 s j w hf
        exact ⟨j, .inr ⟨(s0, j0), w, ho⟩⟩
    obtain ⟨j, hk⟩ := hk
    obtain ⟨h1, h2⟩ := hall _ hk
    refine ⟨hm.goal _ _ h1, fun i hi => ?_⟩
    rcases h2 with ⟨a, h2⟩ | ⟨a, h2⟩
    · cases a with
      | ok l => exact hm.asked _ l h2 i hi
      | error x => exact absurd (hcalm _ h2) (by simp [Astar.Callbacks.Event.thrown])
    · obtain ⟨pre, post, rfl⟩ := List.append_of_mem h2
      exact absurd (hh pre _ post rfl).answer.1 (by simp)
  | thrown he ht =>
    obtain ⟨pre', ev', h1, h2⟩ := hm.thrown _ _ _ he ht
    exact .thrown h1 h2
  | noStarts hs hn => subst hn; exact .noStarts (planStarts_nil hs) rfl
  | infinite hcalm hw hlast hg => exact .infinite (hm.calm hcalm).1 (hm.plan hw) hlast (hm.goal _ _ hg)
  | negative hcalm he hw => exact absurd (hh _ _ [] he).answer.1 (by simp)

theorem WasPlan.head {p : Calls S C ε} {l : List (S × Int)} {c : C} (h : WasPlan starts p l c) :
    ∃ s ∈ starts, l = [(s, -1)] ∨ ∃ t j w rest, l = (s, -1) :: (t, j) :: rest ∧ Foretold p s t j w := by
  induction h with
  | @start s hs => exact ⟨s, hs, .inl rfl⟩
  | @step l x t j c w hp hf ih =>
    obtain ⟨s, hs, h1 | ⟨t', j', w', rest, h1, h2⟩⟩ := ih
    · refine ⟨s, hs, .inr ⟨t, j, w, [], by rw [h1]; rfl, ?_⟩⟩
      obtain ⟨rfl, h3⟩ : l = [] ∧ x = (s, -1) := by
        cases l with
        | nil => simpa using h1
        | cons a l => simp at h1
      subst h3
      exact hf
    · exact ⟨s, hs, .inr ⟨t', j', w', rest ++ [(t, j)], by rw [h1]; rfl, h2⟩⟩

/-- A prediction comes from a primitive that exists and that said right before that it is a candidate. -/
theorem History.foretold {p : Calls S C ε} (hh : History F starts p) {s t : S} {j : Int} {w : C} (hf : Foretold p s t j w) :
    ∃ i : Nat, j = i ∧ i < F.count ∧ Call.candidate i s (.ok true) ∈ p := by
  obtain ⟨i, l, h1, h2, _⟩ := hf
  obtain ⟨pre, post, rfl⟩ := List.append_of_mem h2
  obtain ⟨pre', rfl⟩ := (hh pre _ post rfl).allowed
  have := (hh pre' (.candidate i s (.ok true)) (Call.outcomes i s (.ok l) :: post) (by simp)).allowed
  exact ⟨i, h1, this.1, by simp⟩

theorem findIdx_first {s : S} {starts : List S} (hs : s ∈ starts) : ∃ i, starts.findIdx? (fun t => decide (s = t)) = some i ∧ starts[i]? = some s ∧
    ∀ k < i, starts[k]? ≠ some s := by
  induction starts with
  | nil => simp at hs
  | cons a l ih =>
    rw [List.findIdx?_cons]
    by_cases h : s = a
    · subst h
      exact ⟨0, by simp, rfl, by simp⟩
    · obtain ⟨i, h1, h2, h3⟩ := ih (by simpa [h] using hs)
      refine ⟨i + 1, by simp [h, h1], by simpa using h2, ?_⟩
      intro k hk
      cases k with
      | zero => simpa using fun h4 => h h4.symm
      | succ k => simpa using h3 k (by omega)

/-- C115: choosing the next primitive ends in one of the ways of `NextEnding`; it never has undefined behaviour. -/
theorem C115_next (hnn : Nonneg F) {r : Except (Astar.Callbacks.Fail ε) ((List (S × Int) × C) × Int × Option Nat)} {p : Calls S C ε}
    (hr : NextCalls F starts r p) : History F starts p ∧ NextEnding F.count starts p r := by
  cases hr with
  | noStates hs => exact ⟨history_nil, .noStarts hs rfl⟩
  | fails hs hp =>
    obtain ⟨h1, h2⟩ := C115_plan hnn hp
    refine ⟨h1, ?_⟩
    cases h2 with
    | thrown he ht => exact .thrown he ht
    | noStarts hs hn => exact .noStarts hs hn
    | infinite hcalm hw hlast hx => exact .infinite hcalm hw hlast hx
  | @planned plan p hs hp =>
    obtain ⟨h1, h2⟩ := C115_plan hnn hp
    refine ⟨h1, ?_⟩
    cases h2 with
    | none hcalm hall =>
      have : pickIndex F.count starts ([], (⊤ : C)) = .throw .runtimeError := by unfold pickIndex; rw [if_neg (by simp)]
      rw [this]
      exact .none hs hcalm hall
    | @plan path c cost x hcalm hw hle hlast hx hfin =>
      obtain ⟨s, hmem, h3 | ⟨t, j, w, rest, h3, h4⟩⟩ := hw.head
      · obtain ⟨i, k1, k2, k3⟩ := findIdx_first hmem
        subst h3
        have : pickIndex F.count starts ([(s, -1)], cost) = .ok ((i : Int), Option.none) := by
          unfold pickIndex
          rw [if_pos hfin.ne]
          simp [atChecked, Res.ok_bind, k1, Res.pure_eq]
        rw [this]
        simp only [List.getLast?_singleton, Option.some.injEq] at hlast
        subst hlast
        exact .done hcalm hx k2 k3 hfin
      · obtain ⟨i, k1, k2, k3⟩ := findIdx_first hmem
        obtain ⟨n, rfl, k4, k5⟩ := h1.foretold h4
        subst h3
        have : pickIndex F.count starts ((s, -1) :: (t, (n : Int)) :: rest, cost) = .ok ((i : Int), some n) := by
          unfold pickIndex
          rw [if_pos hfin.ne]
          have hn : ¬ (n : Int) < 0 := by omega
          simp [atChecked, atInt, Res.ok_bind, k1, Res.pure_eq, hn, List.getElem?_range k4]
        rw [this]
        exact .next hcalm hw hle hlast hx hfin k2 k3 k4 k5 h4

/-! ### Termination -/

/-- The states that can be predicted are among `N`, whatever the primitives answer at different times. -/
structure Within (F : Fns S C ε) (starts N : List S) : Prop where
  first_states : ∀ s ∈ starts, s ∈ N
  outcomes : ∀ p i s l, History F starts p → s ∈ N → F.outcomes p i s = .ok l → ∀ x ∈ l, x.1 ∈ N

theorem Within.lambdas {N : List S} (hN : Within F starts N) :
    Astar.Callbacks.Within (lambdas F) true (planStarts starts) (N.flatMap fun s => (s, -1) :: (List.range F.count).map fun i : Nat => (s, (i : Int))) := by
  constructor
  · intro x hx
    unfold planStarts at hx
    obtain ⟨t, h1, rfl⟩ := List.mem_map.mp hx
    exact List.mem_flatMap.mpr ⟨t, hN.first_states t h1, by simp⟩
  · intro h hh x hx y w ho
    have hm := match_history h hh
    have hf := hm.offered x y w ho
    obtain ⟨s, h1, h2⟩ := List.mem_flatMap.mp hx
    have hs : x.1 = s := by
      rcases List.mem_cons.mp h2 with h2 | h2
      · rw [h2]
      · obtain ⟨i, _, rfl⟩ := List.mem_map.mp h2
        rfl
    obtain ⟨i, h3, h4, _⟩ := hm.history.foretold hf
    obtain ⟨i', l, h5, h6, h7⟩ := hf
    obtain ⟨pre, post, hp⟩ := List.append_of_mem h6
    have hpre : History F starts pre := fun a ev b hab => hm.history a ev (b ++ Call.outcomes i' x.1 (.ok l) :: post) (by rw [hp, hab]; simp)
    have := (hm.history pre _ post hp).answer
    refine List.mem_flatMap.mpr ⟨y.1, hN.outcomes pre i' x.1 l hpre (hs ▸ h1) this.symm (y.1, w) h7, ?_⟩
    refine List.mem_cons_of_mem _ (List.mem_map.mpr ⟨i, List.mem_range.mpr h4, ?_⟩)
    rw [← h3]

/-- C115: if the states that are ever predicted come from a finite list, planning ends, with every tie-breaking. -/
theorem C115_ends (hnn : Nonneg F) {N : List S} (hN : Within F starts N) :
    (∃ r p, PlanCalls F starts r p) ∧
    ¬ ∃ f : Nat → Astar.St (S × Int) C × Astar.Callbacks.Hist (S × Int) C ε,
      (∃ h, Astar.Callbacks.bestStarts (Astar.Callbacks.world1 (lambdas F) true) none (planStarts starts) [] = (.ok none, h) ∧
        Astar.Callbacks.pushStarts (Astar.Callbacks.world1 (lambdas F) true) ⟨[], fun _ => none, fun _ => none⟩ (planStarts starts) h =
          (.ok (f 0).1, (f 0).2)) ∧ ∀ n, Astar.Callbacks.Step (Astar.Callbacks.world1 (lambdas F) true) (f n) (f (n + 1)) := by
  obtain ⟨⟨r, h, h1⟩, h2⟩ := Astar.Callbacks.C113_ends (F := lambdas F) true (fun _ => lambdas_nonneg hnn) true hN.lambdas
  exact ⟨⟨r, _, h, h1, rfl⟩, h2⟩

/-! ### Functions without state and exceptions -/

/-- Primitives and functions that keep no state and throw nothing. -/
def pureFns (prims : List (Primitive S C)) (complete : S → Bool) (h : Option (S → C)) : Fns S C ε where
  complete := fun _ s => .ok (complete s)
  heur := h.map fun f _ s => .ok (f s)
  count := prims.length
  candidate := fun _ i s => .ok (match prims[i]? with | some q => q.candidate s | none => false)
  outcomes := fun _ i s => .ok (match prims[i]? with | some q => q.outcomes s | none => [])

theorem askPrimitives_pure (complete : S → Bool) (h : Option (S → C)) (s : S) (l pre : List (Primitive S C)) (p : Calls S C ε) :
    ∃ p', askPrimitives (pureFns (pre ++ l) complete h) s (List.range' pre.length l.length) p =
      (.ok ((l.zipIdx pre.length).flatMap fun pi => if pi.1.candidate s then (pi.1.outcomes s).map fun o => ((o.1, (pi.2 : Int)), o.2) else []), p') := by
  induction l generalizing pre p with
  | nil => exact ⟨p, rfl⟩
  | cons q l ih =>
    have hq : (pre ++ q :: l)[pre.length]? = some q := by simp
    rw [List.length_cons, List.range'_succ]
    unfold askPrimitives
    have ha : (pureFns (pre ++ q :: l) complete h : Fns S C ε).candidate p pre.length s = .ok (q.candidate s) := by
      unfold pureFns; dsimp only; rw [hq]
    rw [bind_ok (ask_eq ha)]
    have ih' := ih (pre ++ [q])
    rw [List.append_assoc, List.singleton_append, List.length_append, List.length_singleton] at ih'
    rw [List.zipIdx_cons, List.flatMap_cons]
    cases hc : q.candidate s with
    | false =>
      rw [if_neg (by simp), if_neg (by simp)]
      exact ih' _
    | true =>
      rw [if_pos rfl, if_pos rfl]
      have ho : (pureFns (pre ++ q :: l) complete h : Fns S C ε).outcomes (p ++ [.candidate pre.length s (.ok true)]) pre.length s = .ok (q.outcomes s) := by
        unfold pureFns; dsimp only; rw [hq]
      rw [bind_ok (ask_eq ho)]
      obtain ⟨p', hp'⟩ := ih' (p ++ [.candidate pre.length s (.ok true)] ++ [.outcomes pre.length s (.ok (q.outcomes s))])
      exact ⟨p', by rw [bind_ok hp']; rfl⟩

/-- C115: with primitives and functions that keep no state and throw nothing, the outcomes are those of C24. -/
theorem C115_as_without (prims : List (Primitive S C)) (complete : S → Bool) (h : Option (S → C)) (starts : List S)
    (r : Except (Astar.Callbacks.Fail ε) (List (S × Int) × C)) :
    (∃ p, PlanCalls (pureFns prims complete h) starts r p) ↔ ∃ r', r = Astar.Callbacks.ofRes r' ∧ PlanRun prims complete h starts r' := by
  have hP : Astar.Callbacks.Pure (Astar.Callbacks.world1 (lambdas (pureFns prims complete h) : Astar.Callbacks.Fns (S × Int) C ε) true)
      (planProblem prims complete h) := by
    refine ⟨fun _ _ => rfl, fun hh x => ?_, fun x hh => ?_, rfl⟩
    · unfold Astar.Callbacks.world1 lambdas heuristic pureFns planProblem
      cases h <;> rfl
    · obtain ⟨p', hp⟩ := askPrimitives_pure (ε := ε) complete h x.1 prims [] (replay (pureFns prims complete h) hh)
      have hk : (lambdas (pureFns prims complete h) : Astar.Callbacks.Fns (S × Int) C ε).kids hh x = .ok (children prims x.1) := by
        unfold lambdas generateChildren
        dsimp only
        rw [List.range_eq_range']
        rw [List.nil_append] at hp
        change (askPrimitives _ x.1 (List.range' 0 prims.length) _).1 = _
        rw [show (0 : Nat) = ([] : List (Primitive S C)).length from rfl, hp]
        rfl
      refine ⟨hh ++ [.kids x (.ok (children prims x.1))], ?_⟩
      change Astar.Callbacks.ask (fun h' => (lambdas (pureFns prims complete h) : Astar.Callbacks.Fns (S × Int) C ε).kids h' x) _ hh = _
      unfold Astar.Callbacks.ask
      dsimp only
      rw [hk]
      rfl
  refine Iff.trans ?_ (Astar.Callbacks.run_pure hP (planStarts starts) r)
  constructor
  · rintro ⟨p, hh, h1, _⟩; exact ⟨hh, h1⟩
  · rintro ⟨hh, h1⟩; exact ⟨_, hh, h1, rfl⟩

/-! ### Non-vacuity -/
namespace Demo

/-- Functions that count the calls: any state completes the task from the sixth call on if `patient`. The first primitive adds one, the second one is
never a candidate and throws from the seventh call on. -/
def counting (patient : Bool) : Fns Nat ℕ∞ String where
  complete := fun p _ => .ok (patient && decide (5 ≤ p.length))
  heur := none
  count := 2
  candidate := fun p i _ => if i = 1 ∧ 6 ≤ p.length then .error "tired" else .ok (decide (i = 0))
  outcomes := fun _ _ s => .ok [(s + 1, 1)]

theorem counting_nonneg (b : Bool) : Nonneg (counting b) := fun _ _ _ _ _ _ _ => zero_le

/-- The calls before the completion test of the predicted state. -/
def calls : Calls Nat ℕ∞ String :=
  [.complete 0 (.ok false), .complete 0 (.ok false), .candidate 0 0 (.ok true), .outcomes 0 0 (.ok [(1, 1)]), .candidate 1 0 (.ok false)]

/-- The calls of the lambdas that make them. -/
def outer : Astar.Callbacks.Hist (Nat × Int) ℕ∞ String :=
  [.goal (0, -1) (.ok false), .heur (0, -1) (.ok 0), .goal (0, -1) (.ok false), .kids (0, -1) (.ok [((1, 0), 1)]), .heur (1, 0) (.ok 0)]

theorem first_steps (b : Bool) : Astar.Callbacks.Steps (Astar.Callbacks.world1 (lambdas (counting b)) true)
    (⟨[⟨(0, -1), none, 0, 0⟩], Astar.upd (fun _ => none) (0, -1) (some 0), fun _ => none⟩, [.goal (0, -1) (.ok false), .heur (0, -1) (.ok 0)])
    (⟨[⟨(1, 0), some (0, -1), 0 + 1, 0 + 1 + 0⟩], Astar.upd (Astar.upd (Astar.upd (fun _ => none) (0, -1) (some 0)) (0, -1) none) (1, 0) (some (0 + 1)),
      Astar.upd (fun _ => none) (0, -1) (some (0, none))⟩, outer) := by
  refine .step (.expand (h1 := [.goal (0, -1) (.ok false), .heur (0, -1) (.ok 0), .goal (0, -1) (.ok false)]) (top := ⟨(0, -1), none, 0, 0⟩) (rest := [])
    ⟨List.Perm.refl _, by simp⟩ rfl ?_ ?_) (.refl _)
  · cases b <;> rfl
  · cases b <;> rfl

theorem patient_plan : PlanCalls (counting true) [0] (.ok ([(0, -1), (1, 0)], 0 + 1)) (calls ++ [.complete 1 (.ok true)]) := by
  refine ⟨outer ++ [.goal (1, 0) (.ok true)], .search (by simp [planStarts]) (h := [.goal (0, -1) (.ok false)]) rfl rfl (first_steps true) ?_, rfl⟩
  have := Astar.Callbacks.Ends.goal (W := Astar.Callbacks.world1 (lambdas (counting true)) true) (h := outer) (h1 := outer ++ [.goal (1, 0) (.ok true)])
    (st := ⟨[⟨(1, 0), some (0, -1), 0 + 1, 0 + 1 + 0⟩], Astar.upd (Astar.upd (Astar.upd (fun _ => none) (0, -1) (some 0)) (0, -1) none) (1, 0) (some (0 + 1)),
      Astar.upd (fun _ => none) (0, -1) (some (0, none))⟩)
    (top := ⟨(1, 0), some (0, -1), 0 + 1, 0 + 1 + 0⟩) (rest := []) ⟨List.Perm.refl _, by simp⟩ rfl rfl
    (Astar.Extract.found (c := 0 + 1) (b := some (0, -1)) (r := .ok [(0, -1)]) rfl (.cons (c := 0) (b := none) rfl .nil))
  exact this

/-- The second primitive throws when it is asked about the predicted state. -/
theorem tired_plan : PlanCalls (counting false) [0] (.error (.user "tired"))
    (calls ++ [.complete 1 (.ok false), .candidate 0 1 (.ok true), .outcomes 0 1 (.ok [(2, 1)]), .candidate 1 1 (.error "tired")]) := by
  refine ⟨outer ++ [.goal (1, 0) (.ok false), .kids (1, 0) (.error "tired")],
    .search (by simp [planStarts]) (h := [.goal (0, -1) (.ok false)]) rfl rfl (first_steps false) ?_, rfl⟩
  exact .childrenThrow (h1 := outer ++ [.goal (1, 0) (.ok false)]) (top := ⟨(1, 0), some (0, -1), 0 + 1, 0 + 1 + 0⟩) (rest := [])
    ⟨List.Perm.refl _, by simp⟩ rfl rfl rfl

example := C115_plan (counting_nonneg true) patient_plan
example := C115_plan (counting_nonneg false) tired_plan
example := C115_next (counting_nonneg true) (.planned (by simp) patient_plan)
example := C115_next (counting_nonneg false) (.fails (by simp) tired_plan)

/-- The next primitive is the first one, from the only start. -/
example : NextCalls (counting true) [0] (.ok (([(0, -1), (1, 0)], 0 + 1), 0, some 0)) (calls ++ [.complete 1 (.ok true)]) := by
  have := NextCalls.planned (by simp) patient_plan
  have h1 : pickIndex (counting true).count [0] ([((0 : Nat), (-1 : Int)), (1, 0)], (0 + 1 : ℕ∞)) = .ok (0, some 0) := by
    unfold pickIndex
    rw [if_pos (by simp)]
    rfl
  rw [h1] at this
  exact this

/-- Two states: the primitive predicts them by turns, at a cost that depends on the number of calls. -/
example := C115_ends (F := ⟨fun _ _ => .ok false, some fun p _ => .ok (p.length : ℕ∞), 1, fun p _ _ => .ok (decide (p.length < 50)),
    fun p _ _ => .ok [(p.length % 2, (p.length : ℕ∞))]⟩) (ε := String) (starts := [0]) (N := [0, 1]) (fun _ _ _ _ _ _ _ => zero_le) (by
  refine ⟨by simp, fun p i s l _ _ hl x hx => ?_⟩
  simp only [Except.ok.injEq] at hl
  subst hl
  simp only [List.mem_singleton] at hx
  subst hx
  rcases Nat.mod_two_eq_zero_or_one p.length with h | h <;> simp [h])

/-- A primitive without state. -/
example := C115_as_without (ε := String) [(⟨"inc", fun s => decide (s < 3), fun s => [(s + 1, (1 : ℕ∞))], fun _ _ => True⟩ : Primitive Nat ℕ∞)]
  (fun s => decide (s = 3)) none [0]

end Demo

end CRU.Task.Planning
