import Verif.TaskPlanner.Model
import Verif.Astar.Props
/-
  C24, C25: task planning.
-/
namespace CRU.Task
set_option linter.unusedSectionVars false

variable {S C : Type} [DecidableEq S] [LinearOrder C] [Add C] [Zero C] [OrderTop C] [CostLaws C]

theorem mem_children (prims : List (Primitive S C)) (s t : S) (j : Int) (w : C) :
    ((t, j), w) ∈ children prims s ↔ Predicted prims s t j w := by
  unfold children Predicted
  rw [List.mem_flatMap]
  constructor
  · rintro ⟨⟨p, i⟩, hpi, hm⟩
    rw [List.mk_mem_zipIdx_iff_getElem?] at hpi
    dsimp only at hm
    split at hm
    · rename_i hc
      obtain ⟨o, ho, heq⟩ := List.mem_map.mp hm
      cases heq
      exact ⟨p, by omega, by simpa using hpi, hc, ho⟩
    · simp at hm
  · rintro ⟨p, h0, hp, hc, ho⟩
    refine ⟨(p, j.toNat), by rw [List.mk_mem_zipIdx_iff_getElem?]; exact hp, ?_⟩
    dsimp only
    rw [if_pos hc]
    refine List.mem_map.mpr ⟨(t, w), ho, ?_⟩
    simp [Int.toNat_of_nonneg h0]

/-- Costs of outcomes are non-negative: `OutcomesWithCosts` is a vector of `StateWithCost`, whose constructor throws
otherwise (simple_astar_search.hpp:193-200). -/
def NonnegOutcomes (prims : List (Primitive S C)) : Prop := ∀ p ∈ prims, ∀ s, ∀ o ∈ p.outcomes s, (0 : C) ≤ o.2

theorem childEdge_iff (prims : List (Primitive S C)) (complete : S → Bool) (h : Option (S → C)) (x y : S × Int) (w : C) :
    Astar.ChildEdge (planProblem prims complete h).expand x y w ↔ Predicted prims x.1 y.1 y.2 w := by
  rw [← mem_children]
  constructor
  · rintro ⟨kids, hk, hm⟩; cases hk; exact hm
  · intro hm; exact ⟨_, rfl, hm⟩

theorem plan_nn {prims : List (Primitive S C)} (hn : NonnegOutcomes prims) (complete : S → Bool) (h : Option (S → C)) :
    Astar.NonnegChildren (planProblem prims complete h).expand := by
  intro x y w he
  obtain ⟨p, _, hp, _, ho⟩ := (childEdge_iff prims complete h x y w).mp he
  exact hn p (List.mem_of_getElem? hp) _ _ ho

theorem walk_plan {prims : List (Primitive S C)} {complete : S → Bool} {h : Option (S → C)} {starts : List S}
    {l : List (S × Int)} {c : C} (hw : Astar.Walk (planStarts starts) (Astar.ChildEdge (planProblem prims complete h).expand) l c) :
    IsPlan prims starts l c := by
  induction hw with
  | start hm =>
    obtain ⟨s, hs, heq⟩ := List.mem_map.mp hm
    cases heq
    exact .start hs
  | step _ he ih => exact .step ih ((childEdge_iff _ _ _ _ _ _).mp he)

theorem plan_walk {prims : List (Primitive S C)} {complete : S → Bool} {h : Option (S → C)} {starts : List S}
    {l : List (S × Int)} {c : C} (hp : IsPlan prims starts l c) :
    Astar.Walk (planStarts starts) (Astar.ChildEdge (planProblem prims complete h).expand) l c := by
  induction hp with
  | start hs => exact .start (List.mem_map.mpr ⟨_, hs, rfl⟩)
  | step _ he ih => exact .step ih ((childEdge_iff _ _ _ _ _ _).mpr he)

theorem isPlan_head {prims : List (Primitive S C)} {starts : List S} {l : List (S × Int)} {c : C} (hp : IsPlan prims starts l c) :
    ∃ s ∈ starts, l.head? = some (s, -1) := by
  induction hp with
  | start hs => exact ⟨_, hs, rfl⟩
  | step _ _ ih =>
    obtain ⟨s, hs, hh⟩ := ih
    exact ⟨s, hs, by rw [List.head?_append, hh]; rfl⟩

theorem isPlan_second {prims : List (Primitive S C)} {starts : List S} {l : List (S × Int)} {c : C} (hp : IsPlan prims starts l c)
    {x y : S × Int} {rest : List (S × Int)} (hl : l = x :: y :: rest) : ∃ w, Predicted prims x.1 y.1 y.2 w := by
  induction hp generalizing x y rest with
  | start => simp at hl
  | @step l0 z t j c w h he ih =>
    cases l0 with
    | nil => simp at hl; obtain ⟨rfl, rfl, rfl⟩ := hl; exact ⟨w, he⟩
    | cons a l1 =>
      cases l1 with
      | nil => simp at hl; obtain ⟨rfl, rfl, rfl⟩ := hl; exact ih (rest := []) rfl
      | cons b l2 => simp at hl; obtain ⟨rfl, rfl, rfl⟩ := hl; exact ih (rest := l2 ++ [z]) rfl

/-- C24: a non-empty result of `PlanTaskStateSequence` is an executable plan from one of the given states to a completed
state, of finite cost. Any heuristic, any tie-breaking. -/
theorem C24_plan_is_executable {prims : List (Primitive S C)} (hn : NonnegOutcomes prims) {complete : S → Bool}
    {h : Option (S → C)} {starts : List S} {path : List (S × Int)} {cost : C}
    (hr : PlanRun prims complete h starts (.ok (path, cost))) (hne : path ≠ []) :
    (∃ c, IsPlan prims starts path c ∧ c ≤ cost) ∧ cost ≠ ⊤ ∧ (∃ s ∈ starts, path.head? = some (s, -1)) ∧
    ∃ x, path.getLast? = some x ∧ complete x.1 = true := by
  obtain ⟨⟨c, hw, hc⟩, hg, ht⟩ := Astar.C19_path_is_real (plan_nn hn complete h) hr hne
  exact ⟨⟨c, walk_plan hw, hc⟩, ht, isPlan_head (walk_plan hw), hg⟩

/-- The heuristic never overestimates the cost of completing the task. -/
def AdmissibleTask (prims : List (Primitive S C)) (complete : S → Bool) (h : S → C) : Prop :=
  Astar.Admissible (fun x y w => Predicted prims x.1 y.1 y.2 w) (fun x : S × Int => complete x.1) (fun x => h x.1)

/-- C24: with an admissible heuristic the plan is the cheapest completion from *any* of the given states: the planner picks
the easiest outcome. -/
theorem C24_plan_is_cheapest {prims : List (Primitive S C)} (hn : NonnegOutcomes prims) {complete : S → Bool} {h : S → C}
    (hadm : AdmissibleTask prims complete h) {starts : List S} {path : List (S × Int)} {cost : C}
    (hr : PlanRun prims complete (some h) starts (.ok (path, cost))) (hne : path ≠ []) :
    IsPlan prims starts path cost ∧
    ∀ p c x, IsPlan prims starts p c → p.getLast? = some x → complete x.1 = true → cost ≤ c := by
  have hed : Astar.ChildEdge (planProblem prims complete (some h)).expand = fun x y w => Predicted prims x.1 y.1 y.2 w := by
    funext x y w; exact propext (childEdge_iff _ _ _ _ _ _)
  have hz : ∀ x ∈ planStarts (C := C) starts, x.2 = 0 := by
    intro x hx; obtain ⟨s, _, rfl⟩ := List.mem_map.mp hx; rfl
  obtain ⟨h1, h2⟩ := Astar.C20_optimal_partial (plan_nn hn complete (some h)) (starts := planStarts starts)
    (fun x hx => by rw [hz x hx]) (by rw [hed]; exact hadm)
    (by
      by_cases hex : ∃ x ∈ planStarts (C := C) starts, complete x.1.1 = true
      · obtain ⟨x, hx, hg⟩ := hex
        exact .inr ⟨x, hx, hg, fun y hy => by rw [hz x hx, hz y hy]⟩
      · refine .inl fun x hx => ?_
        rw [Bool.eq_false_iff]
        exact fun hg => hex ⟨x, hx, hg⟩) hr hne
  exact ⟨walk_plan h1, fun p c x hp hl hc => h2 p c (plan_walk hp) ⟨x, hl, hc⟩⟩

/-- C24: without a heuristic function the plan is the cheapest completion from any of the given states. -/
theorem C24_plan_is_cheapest_no_heuristic {prims : List (Primitive S C)} (hn : NonnegOutcomes prims) {complete : S → Bool}
    {starts : List S} {path : List (S × Int)} {cost : C}
    (hr : PlanRun prims complete none starts (.ok (path, cost))) (hne : path ≠ []) :
    IsPlan prims starts path cost ∧
    ∀ p c x, IsPlan prims starts p c → p.getLast? = some x → complete x.1 = true → cost ≤ c := by
  have hnn : Astar.NonnegChildren (planProblem prims complete (some fun _ => 0)).expand := plan_nn hn complete (some fun _ => 0)
  have hed : Astar.ChildEdge (planProblem prims complete (some fun _ => (0 : C))).expand = fun x y w => Predicted prims x.1 y.1 y.2 w := by
    funext x y w; exact propext (childEdge_iff _ _ _ _ _ _)
  refine C24_plan_is_cheapest (h := fun _ => 0) hn ?_ (show PlanRun prims complete (some fun _ => 0) starts _ from hr) hne
  intro s
  refine ⟨le_refl _, fun x p c _ hw _ => ?_⟩
  rw [CostLaws.add_zero]
  rw [← hed] at hw
  obtain ⟨y, hy, hle⟩ := Astar.rwalk_ge_start hnn hw.rwalk
  rw [List.mem_singleton] at hy
  subst hy
  exact hle

/-- C24: an empty result means that no given state can be completed. -/
theorem C24_empty_means_impossible {prims : List (Primitive S C)} (hn : NonnegOutcomes prims) {complete : S → Bool}
    {h : Option (S → C)} {starts : List S} {cost : C} (hr : PlanRun prims complete h starts (.ok ([], cost))) :
    cost = ⊤ ∧ ∀ p c x, IsPlan prims starts p c → p.getLast? = some x → complete x.1 = false := by
  obtain ⟨h1, h2⟩ := Astar.C21_empty_means_unreachable (plan_nn hn complete h) hr
  refine ⟨h1, fun p c x hp hl => ?_⟩
  rw [Bool.eq_false_iff]
  exact fun hc => h2 p c (plan_walk hp) ⟨x, hl, hc⟩

/-- The outcome of a planning run is a plan, "no plan", or `invalid_argument`. -/
theorem plan_outcome {prims : List (Primitive S C)} (hn : NonnegOutcomes prims) {complete : S → Bool} {h : Option (S → C)}
    {starts : List S} {r : Res (List (S × Int) × C)} (hr : PlanRun prims complete h starts r) :
    (∃ p, r = .ok p) ∨ r = .throw .invalidArgument := by
  obtain ⟨h1, h2⟩ := Astar.C19_failures (plan_nn hn complete h) hr
  cases r with
  | ok p => exact .inl ⟨p, rfl⟩
  | throw e =>
    rcases h2 e rfl with rfl | ⟨s, hs⟩
    · exact .inr rfl
    · cases hs
  | ub => obtain ⟨s, hs⟩ := h1 rfl; cases hs

/-- What `GetNextPrimitiveToExecute` does with a planning result. -/
theorem pickNext_spec {prims : List (Primitive S C)} (hn : NonnegOutcomes prims) {complete : S → Bool} {h : Option (S → C)}
    {starts : List S} {path : List (S × Int)} {cost : C} (hr : PlanRun prims complete h starts (.ok (path, cost))) :
    (path = [] ∧ pickNext prims starts (path, cost) = .throw .runtimeError) ∨
    ∃ (i : Nat) (s : S) (p : Option (Primitive S C)), pickNext prims starts (path, cost) = .ok ((i : Int), p) ∧
      starts[i]? = some s ∧ path.head? = some (s, -1) ∧ (p = none → complete s = true) ∧
      ∀ q, p = some q → q ∈ prims ∧ q.candidate s = true := by
  by_cases hne : path = []
  · subst hne
    obtain ⟨rfl, _⟩ := C24_empty_means_impossible hn hr
    exact .inl ⟨rfl, by unfold pickNext; rw [if_neg (by simp)]⟩
  · right
    obtain ⟨⟨c, hplan, _⟩, hcost, ⟨s, hs, hhead⟩, x, hlast, hcomp⟩ := C24_plan_is_executable hn hr hne
    obtain ⟨rest, rfl⟩ : ∃ rest, path = (s, -1) :: rest := by
      cases path with
      | nil => simp at hhead
      | cons a l => simp at hhead; exact ⟨l, by rw [hhead]⟩
    unfold pickNext
    rw [if_pos hcost]
    have h0 : atChecked ((s, (-1 : Int)) :: rest) 0 = .ok (s, -1) := rfl
    dsimp only
    rw [h0, Res.ok_bind]
    cases hf : starts.findIdx? (fun t => (s, (-1 : Int)).1 = t) with
    | none =>
      rw [List.findIdx?_eq_none_iff] at hf
      have := hf s hs
      simp at this
    | some i =>
      obtain ⟨hi, hpi, _⟩ := List.findIdx?_eq_some_iff_getElem.mp hf
      have hsi : starts[i]? = some s := by
        rw [List.getElem?_eq_getElem hi]
        rw [← of_decide_eq_true hpi]
      cases rest with
      | nil =>
        refine ⟨i, s, none, by rfl, hsi, rfl, fun _ => ?_, by intro q hq; cases hq⟩
        simp at hlast
        rw [← hlast] at hcomp
        exact hcomp
      | cons y rest =>
        obtain ⟨w, q, hj0, hq, hcand, _⟩ := isPlan_second hplan rfl
        have hat : atInt prims y.2 = .ok q := by
          unfold atInt atChecked
          rw [if_neg (by omega), hq]
        have h1 : atChecked ((s, (-1 : Int)) :: y :: rest) 1 = .ok y := rfl
        refine ⟨i, s, some q, ?_, hsi, rfl, (by intro hc; cases hc), ?_⟩
        · dsimp only
          rw [if_pos (by simp), h1, Res.ok_bind, hat]
          rfl
        · intro q' hq'
          cases hq'
          exact ⟨List.mem_of_getElem? hq, hcand⟩

/-- C24: `GetNextPrimitiveToExecute` returns the index of one of the given states and a registered primitive that is a
candidate in it (none exactly if that state already completes the task: then the plan has length 1); otherwise it throws,
always if no given state can be completed. It never fails in another way. -/
theorem C24_next_primitive {prims : List (Primitive S C)} (hn : NonnegOutcomes prims) {complete : S → Bool}
    {h : Option (S → C)} {starts : List S} {r : Res ((List (S × Int) × C) × Int × Option (Primitive S C))}
    (hr : NextRun prims complete h starts r) :
    (∃ (plan : List (S × Int) × C) (i : Nat) (s : S) (p : Option (Primitive S C)), r = .ok (plan, (i : Int), p) ∧ starts[i]? = some s ∧ plan.1.head? = some (s, -1) ∧
      (∃ c, IsPlan prims starts plan.1 c) ∧ (p = none → complete s = true) ∧
      ∀ q, p = some q → q ∈ prims ∧ q.candidate s = true) ∨
    (r = .throw .invalidArgument) ∨
    (r = .throw .runtimeError ∧ ∀ p c x, IsPlan prims starts p c → p.getLast? = some x → complete x.1 = false) := by
  cases hr with
  | empty hs => exact .inr (.inl rfl)
  | @planned r hs hp =>
    rcases plan_outcome hn hp with ⟨⟨path, cost⟩, rfl⟩ | rfl
    · rw [Res.ok_bind]
      rcases pickNext_spec hn hp with ⟨rfl, ht⟩ | ⟨i, s, p, hk, h1, h2, h3, h4⟩
      · rw [ht]
        exact .inr (.inr ⟨rfl, (C24_empty_means_impossible hn hp).2⟩)
      · rw [hk]
        refine .inl ⟨(path, cost), i, s, p, rfl, h1, h2, ?_, h3, h4⟩
        obtain ⟨⟨c, hc, _⟩, _⟩ := C24_plan_is_executable hn hp (by intro hc; rw [hc] at h2; simp at h2)
        exact ⟨c, hc⟩
    · exact .inr (.inl rfl)

/-- C24: the primitive returned by `GetNextPrimitiveToExecute` is the one that leads to the second state of the plan. -/
theorem C24_next_is_first_step {prims : List (Primitive S C)} {complete : S → Bool} {h : Option (S → C)} {starts : List S}
    {plan : List (S × Int) × C} {i : Int} {q : Primitive S C} (hr : NextRun prims complete h starts (.ok (plan, i, some q))) :
    ∃ y, plan.1[1]? = some y ∧ 0 ≤ y.2 ∧ prims[y.2.toNat]? = some q := by
  generalize hrr : Res.ok (plan, i, some q) = r' at hr
  cases hr with
  | empty hs => cases hrr
  | @planned r hs hp =>
    cases r with
    | throw e => cases hrr
    | ub => cases hrr
    | ok pl =>
      rw [Res.ok_bind] at hrr
      unfold pickNext at hrr
      split at hrr
      · cases h0 : atChecked pl.1 0 with
        | throw e => rw [h0] at hrr; cases hrr
        | ub => rw [h0] at hrr; cases hrr
        | ok first =>
          rw [h0, Res.ok_bind] at hrr
          cases hf : starts.findIdx? (fun t => first.1 = t) with
          | none => rw [hf] at hrr; cases hrr
          | some k =>
            rw [hf] at hrr
            dsimp only at hrr
            split at hrr
            · cases h1 : atChecked pl.1 1 with
              | throw e => rw [h1] at hrr; cases hrr
              | ub => rw [h1] at hrr; cases hrr
              | ok y =>
                rw [h1, Res.ok_bind] at hrr
                cases h2 : atInt prims y.2 with
                | throw e => rw [h2] at hrr; cases hrr
                | ub => rw [h2] at hrr; cases hrr
                | ok q' =>
                  rw [h2, Res.ok_bind] at hrr
                  cases hrr
                  unfold atInt atChecked at h2
                  unfold atChecked at h1
                  split at h2
                  · cases h2
                  · rename_i hneg
                    refine ⟨y, ?_, by omega, ?_⟩
                    · cases hx : plan.1[1]? with
                      | none => rw [hx] at h1; cases h1
                      | some z => rw [hx] at h1; cases h1; rfl
                    · cases hx : prims[y.2.toNat]? with
                      | none => rw [hx] at h2; cases h2
                      | some z => rw [hx] at h2; cases h2; rfl
            · cases hrr
      · cases hrr

/-- C24: without a heuristic, or with one that never overestimates, the plan that the answer is based on is a cheapest one. -/
theorem C24_next_is_cheapest {prims : List (Primitive S C)} (hn : NonnegOutcomes prims) {complete : S → Bool} {h : Option (S → C)} {starts : List S}
    (hadm : ∀ f, h = some f → AdmissibleTask prims complete f) {plan : List (S × Int) × C} {i : Int} {p : Option (Primitive S C)}
    (hr : NextRun prims complete h starts (.ok (plan, i, p))) :
    IsPlan prims starts plan.1 plan.2 ∧ ∀ l c x, IsPlan prims starts l c → l.getLast? = some x → complete x.1 = true → plan.2 ≤ c := by
  generalize hrr : Res.ok (plan, i, p) = r' at hr
  cases hr with
  | empty hs => cases hrr
  | @planned r hs hp =>
    rcases plan_outcome hn hp with ⟨⟨path, cost⟩, rfl⟩ | rfl
    · rw [Res.ok_bind] at hrr
      rcases pickNext_spec hn hp with ⟨rfl, ht⟩ | ⟨i', s', p', hk, h1, h2, -⟩
      · rw [ht] at hrr; cases hrr
      · rw [hk] at hrr
        cases hrr
        have hne : path ≠ [] := by intro hc; rw [hc] at h2; simp at h2
        cases h with
        | none => exact C24_plan_is_cheapest_no_heuristic hn hp hne
        | some f => exact C24_plan_is_cheapest hn (hadm f rfl) hp hne
    · cases hrr

/-- C24: `std::invalid_argument` comes out only if there is no state to plan from, or if the task can be completed but at an infinite cost. -/
theorem C24_refused {prims : List (Primitive S C)} (hn : NonnegOutcomes prims) {complete : S → Bool}
    {h : Option (S → C)} {starts : List S} (hr : NextRun prims complete h starts (.throw .invalidArgument)) :
    starts = [] ∨ ∃ p x, IsPlan prims starts p ⊤ ∧ p.getLast? = some x ∧ complete x.1 = true := by
  generalize hrr : Res.throw Exc.invalidArgument = r' at hr
  cases hr with
  | empty hs => exact .inl hs
  | @planned r hs hp =>
    rcases plan_outcome hn hp with ⟨⟨path, cost⟩, rfl⟩ | rfl
    · rw [Res.ok_bind] at hrr
      rcases pickNext_spec hn hp with ⟨rfl, ht⟩ | ⟨i, s, p, hk, h1, h2, h3, h4⟩
      · rw [ht] at hrr; cases hrr
      · rw [hk] at hrr; cases hrr
    · rcases Astar.C19_refusals (plan_nn hn complete h) hp with ⟨-, h1⟩ | ⟨-, p, h1, x, h2, h3⟩ | ⟨s, h1⟩
      · exact absurd (List.map_eq_nil_iff.mp h1) hs
      · exact .inr ⟨p, x, walk_plan h1, h2, h3⟩
      · cases h1

/-- C24: if the task cannot be completed from any of the given states, the call throws. -/
theorem C24_throws_when_impossible {prims : List (Primitive S C)} (hn : NonnegOutcomes prims) {complete : S → Bool}
    {h : Option (S → C)} {starts : List S} {r : Res ((List (S × Int) × C) × Int × Option (Primitive S C))}
    (himp : ∀ p c x, IsPlan prims starts p c → p.getLast? = some x → complete x.1 = false)
    (hr : NextRun prims complete h starts r) : ∃ e, r = .throw e := by
  cases hr with
  | empty hs => exact ⟨_, rfl⟩
  | planned hs hp =>
    rcases plan_outcome hn hp with ⟨⟨path, cost⟩, rfl⟩ | rfl
    · by_cases hne : path = []
      · subst hne
        rcases pickNext_spec hn hp with ⟨_, ht⟩ | ⟨i, s, p, hk, h1, h2, _⟩
        · rw [Res.ok_bind, ht]; exact ⟨_, rfl⟩
        · simp at h2
      · obtain ⟨⟨c, hplan, _⟩, _, _, x, hx, hc⟩ := C24_plan_is_executable hn hp hne
        rw [himp _ _ _ hplan hx] at hc
        cases hc
    · exact ⟨_, rfl⟩

/-- The plan chosen when the first given state selected is complete has no primitive to run. -/
theorem next_not_complete (h0 : (0 : C) ≠ ⊤) {prims : List (Primitive S C)} {complete : S → Bool}
    {h : Option (S → C)} {starts : List S} {plan : List (S × Int) × C} {i : Int} {q : Primitive S C}
    (hr : NextRun prims complete h starts (.ok (plan, i, some q))) : ∀ s ∈ starts, complete s = false := by
  generalize hrr : Res.ok (plan, i, some q) = r at hr
  cases hr with
  | empty => cases hrr
  | @planned r hs hp =>
    intro s hs
    rw [Bool.eq_false_iff]
    intro hc
    have hmem : ((s, (-1 : Int)), (0 : C)) ∈ planStarts starts := List.mem_map.mpr ⟨s, hs, rfl⟩
    generalize hP : planProblem prims complete h = P at hp
    generalize hst : planStarts (C := C) starts = starts' at hp
    cases hp with
    | noStarts h => cases hrr
    | @early b hs' hb =>
      unfold Astar.mkResult at hrr
      split at hrr
      · cases hrr
      · rw [Res.ok_bind] at hrr
        unfold pickNext at hrr
        dsimp only at hrr
        split at hrr
        · have h0 : atChecked [b.1] 0 = .ok b.1 := rfl
          rw [h0, Res.ok_bind] at hrr
          split at hrr
          · cases hrr
          · rw [if_neg (by simp)] at hrr; cases hrr
        · cases hrr
    | search hs' hb hrun he =>
      subst hP
      exact absurd (Astar.bestStart_none hb ((s, -1), 0) (hst ▸ hmem) hc) h0

theorem atInt_nat_get {α : Type} {l : List α} {i : Nat} {a : α} (h : l[i]? = some a) : atInt l (i : Int) = .ok a := by
  unfold atInt atChecked
  rw [if_neg (by omega)]
  simp [h]

/-- C24: a trace returned by `PerformSingleTaskExecution` is a good trace: every state in it was actually produced (or
given at the start), every primitive executed was registered and a candidate in its state, nothing is executed from a
completed state, and it ends in a completed state or at the execution limit. -/
theorem C24_execution_trace (h0 : (0 : C) ≠ ⊤) {prims : List (Primitive S C)} (hn : NonnegOutcomes prims)
    {complete : S → Bool} {h : Option (S → C)} {max : Int} {n : Int} {cur : List S} {r : Res (List S)}
    (hr : ExecRun prims complete h max n cur r) : ∀ tr, r = .ok tr → GoodTrace prims complete max n cur tr := by
  induction hr with
  | limit hl =>
    intro tr ht
    cases ht
    exact .limit (by omega) (by omega)
  | planThrows => intro tr ht; cases ht
  | planUb => intro tr ht; cases ht
  | badIndex => intro tr ht; cases ht
  | execThrows => intro tr ht; cases ht
  | @done n cur plan i s hl hnx hi =>
    intro tr ht
    cases ht
    rcases C24_next_primitive hn hnx with ⟨plan', i', s', p, he, h1, _, _, h4, _⟩ | hx | ⟨hx, _⟩
    · cases he
      rw [atInt_nat_get h1] at hi
      cases hi
      exact .done (List.mem_of_getElem? h1) (h4 rfl)
    · cases hx
    · cases hx
  | @exec n cur outs plan i s p r hl hnx hi he hr ih =>
    intro tr ht
    cases r with
    | ok tr' =>
      cases ht
      have hnc := next_not_complete h0 hnx
      rcases C24_next_primitive hn hnx with ⟨plan', i', s', p', heq, h1, _, _, _, h5⟩ | hx | ⟨hx, _⟩
      · cases heq
        rw [atInt_nat_get h1] at hi
        cases hi
        obtain ⟨hp, hcand⟩ := h5 _ rfl
        exact .step (List.mem_of_getElem? h1) hp hcand (hnc _ (List.mem_of_getElem? h1)) (by omega) he (ih tr' rfl)
      · cases hx
      · cases hx
    | throw e => cases ht
    | ub => cases ht

/-- C24: the ways `PerformSingleTaskExecution` can fail: no outcome to continue from (`invalid_argument`), planning found no
completion (`runtime_error`), or an executed primitive threw. There is no undefined behaviour and no out-of-range access. -/
theorem C24_execution_failures {prims : List (Primitive S C)} (hn : NonnegOutcomes prims)
    {complete : S → Bool} {h : Option (S → C)} {max : Int} {n : Int} {cur : List S} {r : Res (List S)}
    (hr : ExecRun prims complete h max n cur r) :
    r ≠ .ub ∧ ∀ e, r = .throw e → e = .invalidArgument ∨ e = .runtimeError ∨
      ∃ p ∈ prims, ∃ s, p.candidate s = true ∧ p.execute s (.throw e) := by
  induction hr with
  | limit hl => exact ⟨(by intro hc; cases hc), by intro e hc; cases hc⟩
  | planThrows hl hnx =>
    refine ⟨(by intro hc; cases hc), fun e' he => ?_⟩
    cases he
    rcases C24_next_primitive hn hnx with ⟨_, _, _, _, he, _⟩ | he | ⟨he, _⟩
    · cases he
    · cases he; exact .inl rfl
    · cases he; exact .inr (.inl rfl)
  | planUb hl hnx =>
    rcases C24_next_primitive hn hnx with ⟨_, _, _, _, he, _⟩ | he | ⟨he, _⟩ <;> cases he
  | badIndex hl hnx hi =>
    rcases C24_next_primitive hn hnx with ⟨_, _, _, _, he, h1, _⟩ | he | ⟨he, _⟩
    · cases he; rw [atInt_nat_get h1] at hi; cases hi
    · cases he
    · cases he
  | done hl hnx hi => exact ⟨(by intro hc; cases hc), by intro e hc; cases hc⟩
  | execThrows hl hnx hi he =>
    refine ⟨(by intro hc; cases hc), fun e' he' => ?_⟩
    cases he'
    rcases C24_next_primitive hn hnx with ⟨_, _, _, _, heq, h1, _, _, _, h5⟩ | hx | ⟨hx, _⟩
    · cases heq
      obtain ⟨hp, hcand⟩ := h5 _ rfl
      rw [atInt_nat_get h1] at hi
      cases hi
      exact .inr (.inr ⟨_, hp, _, hcand, he⟩)
    · cases hx
    · cases hx
  | @exec n cur outs plan i s p r hl hnx hi he hr ih =>
    cases r with
    | ok tr => exact ⟨(by intro hc; cases hc), by intro e hc; cases hc⟩
    | throw e => exact ⟨(by intro hc; cases hc), fun e' he' => by cases he'; exact ih.2 e rfl⟩
    | ub => exact absurd rfl ih.1

/-- C25: `RegisterPrimitive` of a name already present throws and changes nothing; otherwise the primitive is added at the
end and nothing else changes. -/
theorem C25_register (prims : List (Primitive S C)) (p : Primitive S C) :
    ((∃ q ∈ prims, q.name = p.name) → register prims p = (prims, .throw .invalidArgument)) ∧
    ((∀ q ∈ prims, q.name ≠ p.name) → register prims p = (prims ++ [p], .ok ())) := by
  unfold register
  constructor
  · rintro ⟨q, hq, he⟩
    rw [if_pos (List.any_eq_true.mpr ⟨q, hq, decide_eq_true he⟩)]
  · intro hall
    rw [if_neg]
    intro hc
    obtain ⟨q, hq, he⟩ := List.any_eq_true.mp hc
    exact hall q hq (of_decide_eq_true he)

/-- C25: unregistering removes exactly the named primitives and keeps the order of the others. -/
theorem C25_unregister (prims : List (Primitive S C)) (names : List String) :
    (unregister prims names).Sublist prims ∧
    ∀ p, p ∈ unregister prims names ↔ p ∈ prims ∧ p.name ∉ names := by
  unfold unregister
  exact ⟨List.filter_sublist, fun p => by simp [List.mem_filter]⟩

/-- C25: whatever sequence of (successful or failing) calls was made on a collection that started empty, the names of the
registered primitives are distinct. -/
theorem C25_names_unique (ops : List (CollOp S C)) : ((ops.foldl CollOp.run []).map (·.name)).Nodup := by
  suffices ∀ prims : List (Primitive S C), (prims.map (·.name)).Nodup → ((ops.foldl CollOp.run prims).map (·.name)).Nodup from
    this [] List.nodup_nil
  induction ops with
  | nil => exact fun prims h => h
  | cons o ops ih =>
    intro prims hnd
    refine ih _ ?_
    cases o with
    | register p =>
      show ((register prims p).1.map (·.name)).Nodup
      by_cases hex : ∃ q ∈ prims, q.name = p.name
      · rw [(C25_register prims p).1 hex]; exact hnd
      · rw [(C25_register prims p).2 fun q hq he => hex ⟨q, hq, he⟩]
        rw [List.map_append, List.nodup_append]
        refine ⟨hnd, by simp, ?_⟩
        intro a ha b hb
        simp at hb
        subst hb
        obtain ⟨q, hq, rfl⟩ := List.mem_map.mp ha
        exact fun he => hex ⟨q, hq, he⟩
    | unregister names => exact hnd.sublist ((List.filter_sublist).map _)
    | clear => exact List.nodup_nil

/-! ## Concrete cases -/

/-- A counter to be raised from 0 to 2: one primitive adds one (and really does), one skips to 3 at a higher cost. -/
private def inc : Primitive Nat ℕ∞ where
  name := "inc"
  candidate := fun s => decide (s < 2)
  outcomes := fun s => [(s + 1, 1)]
  execute := fun s r => r = .ok [s + 1]

private theorem inc_nn : NonnegOutcomes [inc] := by
  intro p hp s o ho
  simp at hp
  subst hp
  simp [inc] at ho
  subst ho
  exact bot_le

example : Predicted [inc] 0 1 0 1 := ⟨inc, by decide, rfl, rfl, by simp [inc]⟩

example : IsPlan [inc] [0] [(0, -1), (1, 0), (2, 0)] ((0 + 1) + 1 : ℕ∞) :=
  .step (l := [(0, -1)]) (.step (l := []) (.start (by simp)) ⟨inc, by decide, rfl, rfl, by simp [inc]⟩)
    ⟨inc, by decide, rfl, rfl, by simp [inc]⟩

/-- A planning run that meets the hypotheses: state 2 is already complete. -/
private theorem run_done : PlanRun [inc] (fun s => decide (s = 2)) none [0, 2] (.ok ([(2, -1)], 0)) := by
  have : (Res.ok ([((2 : Nat), (-1 : Int))], (0 : ℕ∞))) = Astar.mkResult [((2 : Nat), (-1 : Int))] (0 : ℕ∞) := rfl
  unfold PlanRun
  rw [this]
  exact Astar.AstarRun.early (P := planProblem [inc] (fun s => decide (s = 2)) none) (starts := planStarts [0, 2]) (s := ((2, -1), 0)) (by simp [planStarts]) (by rfl)

/-- Nothing to plan from. -/
example : ([] : List Nat) = [] ∨ ∃ p x, IsPlan [inc] ([] : List Nat) p ⊤ ∧ p.getLast? = some x ∧ (fun s => decide (s = 2)) x.1 = true :=
  C24_refused (complete := fun s => decide (s = 2)) (h := none) inc_nn (.empty rfl)

example : IsPlan [inc] [0, 2] [(2, -1)] (0 : ℕ∞) ∧
    ∀ l c x, IsPlan [inc] [0, 2] l c → l.getLast? = some x → (fun s => decide (s = 2)) x.1 = true → (0 : ℕ∞) ≤ c :=
  C24_next_is_cheapest (h := none) (i := 1) (p := none) inc_nn (by simp) (NextRun.planned (by simp) run_done)

example : ∃ tr, ExecRun [inc] (fun s => decide (s = 2)) none (-1 : Int) 0 [0, 2] (.ok tr) :=
  ⟨[2], .done (plan := ([(2, -1)], 0)) (i := 1) (.inr (by decide)) (by
    have := NextRun.planned (by simp) run_done
    exact this) rfl⟩

example : (register [inc] inc).2 = .throw .invalidArgument := by
  rw [(C25_register [inc] inc).1 ⟨inc, by simp, rfl⟩]

example : unregister [inc, { inc with name := "b" }] ["inc"] = [{ inc with name := "b" }] := by rfl

end CRU.Task
