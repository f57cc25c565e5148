import Verif.TaskPlanner.Props
import Verif.Astar.EqualProps
/-
  C101 for the task planner: `PlanTaskStateSequence` and `GetNextPrimitiveToExecute` with a caller-supplied hash and equality.
-/
namespace CRU.Task
set_option linter.unusedSectionVars false

open CRU.Astar (Keying AstarRunE)

variable {S C : Type} [LinearOrder C] [Add C] [Zero C] [OrderTop C]

/-- simple_task_planner.hpp:221-256, 343-348: `OutcomeWithPrimitiveIndexHash`, whose `operator()` returns `bool`, so that
the state's hash is converted to `bool` and back, and `OutcomeWithPrimitiveIndexEqual`. -/
def outcomeKeying (K : Keying S) : Keying (S × Int) where
  hash := fun x => if K.hash x.1 ≠ 0 then 1 else 0
  eq := fun x y => (x.2 == y.2) && K.eq x.1 y.1
  buckets := K.buckets

/-- simple_task_planner.hpp:258-353 `PlanTaskStateSequence` with hash and equality. -/
def PlanRunE (K : Keying S) (prims : List (Primitive S C)) (complete : S → Bool) (h : Option (S → C)) (starts : List S)
    (r : Res (List (S × Int) × C)) : Prop :=
  AstarRunE (outcomeKeying K) (planProblem prims complete h) (planStarts starts) r

/-- simple_task_planner.hpp:420-456, with `state_equaler`. -/
def pickNextE (eq : S → S → Bool) (prims : List (Primitive S C)) (starts : List S) (plan : List (S × Int) × C) :
    Res (Int × Option (Primitive S C)) :=
  if plan.2 ≠ ⊤ then do
    let first ← atChecked plan.1 0
    match starts.findIdx? (fun t => eq first.1 t) with
    | none => .throw .runtimeError
    | some i =>
      if plan.1.length > 1 then do
        let next ← atChecked plan.1 1
        let p ← atInt prims next.2
        pure ((i : Int), some p)
      else pure ((i : Int), none)
  else .throw .runtimeError

/-- simple_task_planner.hpp:394-457 `GetNextPrimitiveToExecute` with hash and equality. -/
inductive NextRunE (K : Keying S) (prims : List (Primitive S C)) (complete : S → Bool) (h : Option (S → C)) (starts : List S) :
    Res ((List (S × Int) × C) × Int × Option (Primitive S C)) → Prop
  | empty (hs : starts = []) : NextRunE K prims complete h starts (.throw .invalidArgument)
  | planned {r : Res (List (S × Int) × C)} (hs : starts ≠ []) (hp : PlanRunE K prims complete h starts r) :
      NextRunE K prims complete h starts (do
        let plan ← r
        let x ← pickNextE K.eq prims starts plan
        pure (plan, x))

/-- Specification: `IsPlan`, but each state need only be equal, in the sense of `eq`, to one of the given states or to a
predicted outcome of a candidate in the state before it. -/
inductive IsPlanUpTo (eq : S → S → Bool) (prims : List (Primitive S C)) (starts : List S) : List (S × Int) → C → Prop
  | start {s s0 : S} (he : eq s s0 = true) (h : s0 ∈ starts) : IsPlanUpTo eq prims starts [(s, -1)] 0
  | step {l : List (S × Int)} {x : S × Int} {t t0 : S} {j : Int} {c w : C} (h : IsPlanUpTo eq prims starts (l ++ [x]) c)
      (he : Predicted prims x.1 t0 j w) (ht : eq t t0 = true) : IsPlanUpTo eq prims starts (l ++ [x] ++ [(t, j)]) (c + w)

theorem outcome_lawful {K : Keying S} (hK : K.Lawful) : (outcomeKeying K).Lawful := by
  refine ⟨fun a => by simp [outcomeKeying, hK.refl], fun {a b} h => ?_, fun {a b c} h g => ?_, fun {a b} h => ?_⟩
  · simp only [outcomeKeying, Bool.and_eq_true, beq_iff_eq] at h ⊢; exact ⟨h.1.symm, hK.symm h.2⟩
  · simp only [outcomeKeying, Bool.and_eq_true, beq_iff_eq] at h g ⊢; exact ⟨h.1.trans g.1, hK.trans h.2 g.2⟩
  · simp only [outcomeKeying, Bool.and_eq_true, beq_iff_eq] at h ⊢; rw [hK.hash h.2]

/-- C101, task planner: the hash handed to the maps has at most two values, whatever the state's hash is (so every lookup
walks through about half of all states) ... -/
theorem C101_planner_two_hashes (K : Keying S) (x : S × Int) :
    (outcomeKeying K).hash x = 0 ∨ (outcomeKeying K).hash x = 1 := by
  simp only [outcomeKeying]
  split
  · exact .inr rfl
  · exact .inl rfl

variable [CostLaws C]

/-- C101, task planner: ... but that is not observable: the possible results of planning, and of asking for the next
primitive, are the same for every two state hashes that agree with the state equality, and the same as with any other lawful
hash on outcomes. -/
theorem C101_planner_hash_irrelevant {K L : Keying S} (hK : K.Lawful) (hL : L.Lawful) (heq : K.eq = L.eq)
    (prims : List (Primitive S C)) (complete : S → Bool) (h : Option (S → C)) (starts : List S) :
    (∀ r, PlanRunE K prims complete h starts r ↔ PlanRunE L prims complete h starts r) ∧
    (∀ r, NextRunE K prims complete h starts r ↔ NextRunE L prims complete h starts r) ∧
    (∀ (M : Keying (S × Int)) r, M.Lawful → M.eq = (outcomeKeying K).eq →
      (PlanRunE K prims complete h starts r ↔ AstarRunE M (planProblem prims complete h) (planStarts starts) r)) := by
  have h1 : ∀ K L : Keying S, K.Lawful → L.Lawful → K.eq = L.eq → ∀ r,
      PlanRunE K prims complete h starts r → PlanRunE L prims complete h starts r := by
    intro K L hK hL heq r hr
    exact (Astar.C101_hash_irrelevant (outcome_lawful hK) (outcome_lawful hL)
      (by simp only [outcomeKeying, heq]) _ _ _).1 hr
  have h2 : ∀ K L : Keying S, K.Lawful → L.Lawful → K.eq = L.eq → ∀ r,
      NextRunE K prims complete h starts r → NextRunE L prims complete h starts r := by
    intro K L hK hL heq r hr
    cases hr with
    | empty hs => exact .empty hs
    | planned hs hp => rw [heq]; exact .planned hs (h1 K L hK hL heq _ hp)
  refine ⟨fun r => ⟨h1 K L hK hL heq r, h1 L K hL hK heq.symm r⟩, fun r => ⟨h2 K L hK hL heq r, h2 L K hL hK heq.symm r⟩, ?_⟩
  intro M r hM hMe
  exact Astar.C101_hash_irrelevant (outcome_lawful hK) hM hMe.symm _ _ _

theorem planUpTo_of_walk {K : Keying S} {prims : List (Primitive S C)} {complete : S → Bool} {h : Option (S → C)}
    {starts : List S} {l : List (S × Int)} {c : C}
    (hw : Astar.WalkUpTo (outcomeKeying K).eq (planStarts starts) (Astar.ChildEdge (planProblem prims complete h).expand) l c) :
    IsPlanUpTo K.eq prims starts l c := by
  classical
  induction hw with
  | @start s s0 c he hm =>
    obtain ⟨a, ha, heq⟩ := List.mem_map.mp hm
    cases heq
    simp only [outcomeKeying, Bool.and_eq_true, beq_iff_eq] at he
    obtain ⟨s1, j⟩ := s
    obtain ⟨rfl, he⟩ := he
    exact .start he ha
  | @step l s t t0 c w _ he ht ih =>
    simp only [outcomeKeying, Bool.and_eq_true, beq_iff_eq] at ht
    have hp := (childEdge_iff _ _ _ _ _ _).mp he
    obtain ⟨t1, j⟩ := t
    obtain ⟨t2, j2⟩ := t0
    obtain ⟨rfl, ht⟩ := ht
    exact .step ih hp ht

/-- C101, task planner: whatever the primitives do with equal states, a non-empty plan begins with a state equal to one of
the given ones, every further state is equal to a predicted outcome of a primitive that is a candidate in the state before,
and the last state completes the task. -/
theorem C101_planner_plan {K : Keying S} (hK : K.Lawful) {prims : List (Primitive S C)} (hn : NonnegOutcomes prims)
    {complete : S → Bool} {h : Option (S → C)} {starts : List S} {path : List (S × Int)} {cost : C}
    (hr : PlanRunE K prims complete h starts (.ok (path, cost))) (hne : path ≠ []) :
    (∃ c, IsPlanUpTo K.eq prims starts path c ∧ c ≤ cost) ∧ cost ≠ ⊤ ∧
    ∃ x, path.getLast? = some x ∧ complete x.1 = true := by
  classical
  obtain ⟨⟨c, hw, hc⟩, hg, ht⟩ := Astar.C101_path_up_to_equality (outcome_lawful hK) (plan_nn hn complete h) hr hne
  exact ⟨⟨c, planUpTo_of_walk hw, hc⟩, ht, hg⟩

theorem planUpTo_head {eq : S → S → Bool} {prims : List (Primitive S C)} {starts : List S} {l : List (S × Int)} {c : C}
    (hp : IsPlanUpTo eq prims starts l c) : ∃ s, ∃ s0 ∈ starts, eq s s0 = true ∧ l.head? = some (s, -1) := by
  induction hp with
  | start he h => exact ⟨_, _, h, he, rfl⟩
  | step _ _ _ ih =>
    obtain ⟨s, s0, hs, he, hh⟩ := ih
    exact ⟨s, s0, hs, he, by rw [List.head?_append, hh]; rfl⟩

theorem planUpTo_second {eq : S → S → Bool} {prims : List (Primitive S C)} {starts : List S} {l : List (S × Int)} {c : C}
    (hp : IsPlanUpTo eq prims starts l c) {x y : S × Int} {rest : List (S × Int)} (hl : l = x :: y :: rest) :
    ∃ t w, Predicted prims x.1 t y.2 w := by
  induction hp generalizing x y rest with
  | start => simp at hl
  | @step l0 z t t0 j c w h he ht ih =>
    cases l0 with
    | nil => simp at hl; obtain ⟨rfl, rfl, rfl⟩ := hl; exact ⟨t0, w, he⟩
    | cons a l1 =>
      cases l1 with
      | nil => simp at hl; obtain ⟨rfl, rfl, rfl⟩ := hl; exact ih (rest := []) rfl
      | cons b l2 => simp at hl; obtain ⟨rfl, rfl, rfl⟩ := hl; exact ih (rest := l2 ++ [z]) rfl

/-- C101, task planner: with any lawful hash and equality the next primitive is a registered one and a candidate in a state
equal to the selected given state (in the selected state itself, if primitives respect the equality); if there is none, such
a state completes the task. Otherwise the call throws `invalid_argument` or `runtime_error`. -/
theorem C101_planner_next {K : Keying S} (hK : K.Lawful) {prims : List (Primitive S C)} (hn : NonnegOutcomes prims)
    {complete : S → Bool} {h : Option (S → C)} {starts : List S}
    {r : Res ((List (S × Int) × C) × Int × Option (Primitive S C))} (hr : NextRunE K prims complete h starts r) :
    (∃ (plan : List (S × Int) × C) (i : Nat) (s s0 : S) (p : Option (Primitive S C)), r = .ok (plan, (i : Int), p) ∧
      starts[i]? = some s ∧ K.eq s0 s = true ∧ (∃ c, IsPlanUpTo K.eq prims starts plan.1 c) ∧
      (p = none → complete s0 = true) ∧ (∀ q, p = some q → q ∈ prims ∧ q.candidate s0 = true) ∧
      ((∀ q ∈ prims, ∀ a b, K.eq a b = true → q.candidate a = q.candidate b) →
        ∀ q, p = some q → q.candidate s = true)) ∨
    r = .throw .invalidArgument ∨ r = .throw .runtimeError := by
  classical
  cases hr with
  | empty hs => exact .inr (.inl rfl)
  | @planned r hs hp =>
    have hfail := (Astar.C101_failures (outcome_lawful hK) (plan_nn hn complete h) (starts := planStarts starts)).1 r hp
    cases r with
    | ub => obtain ⟨s, hs⟩ := hfail.1 rfl; cases hs
    | throw e =>
      rcases hfail.2 e rfl with rfl | ⟨s, hs⟩
      · exact .inr (.inl rfl)
      · cases hs
    | ok plan =>
      obtain ⟨path, cost⟩ := plan
      rw [Res.ok_bind]
      by_cases hct : cost = ⊤
      · right; right
        unfold pickNextE
        rw [if_neg (by simp [hct])]
        rfl
      · by_cases hne : path = []
        · -- an empty path has infinite cost
          exfalso
          subst hne
          have : cost = ⊤ := by
            generalize hr : Res.ok (([] : List (S × Int)), cost) = r at hp
            cases hp with
            | noStarts => cases hr
            | early hs h => unfold Astar.mkResult at hr; split at hr <;> cases hr
            | search hs h hrun he =>
              have hI := (Astar.initE_inv (outcomeKeying K) (planProblem prims complete _) (planStarts starts)).steps
                (outcome_lawful hK) (plan_nn hn complete _) hrun
              cases he with
              | empty => cases hr; rfl
              | goal hp hb hg hx =>
                obtain ⟨l, _, _, huniq⟩ := Astar.extractE_spec (outcome_lawful hK) (plan_nn hn complete _) hI hp hb
                rw [← hr] at hx
                have := huniq _ hx
                unfold Astar.mkResult at this
                split at this
                · cases this
                · simp at this
              | throws => cases hr
              | ub => cases hr
          exact hct this
        · left
          obtain ⟨⟨c, hplan, _⟩, _, x, hlast, hcomp⟩ := C101_planner_plan hK hn hp hne
          obtain ⟨s, s0, hs0, heq, hhead⟩ := planUpTo_head hplan
          obtain ⟨rest, rfl⟩ : ∃ rest, path = (s, -1) :: rest := by
            cases path with
            | nil => simp at hhead
            | cons a l => simp at hhead; exact ⟨l, by rw [hhead]⟩
          unfold pickNextE
          rw [if_pos hct]
          have h0 : atChecked ((s, (-1 : Int)) :: rest) 0 = .ok (s, -1) := rfl
          dsimp only
          rw [h0, Res.ok_bind]
          cases hf : starts.findIdx? (fun t => K.eq (s, (-1 : Int)).1 t) with
          | none =>
            rw [List.findIdx?_eq_none_iff] at hf
            have := hf s0 hs0
            simp only at this
            rw [heq] at this
            cases this
          | some i =>
            obtain ⟨hi, hpi, _⟩ := List.findIdx?_eq_some_iff_getElem.mp hf
            cases rest with
            | nil =>
              refine ⟨([(s, -1)], cost), i, starts[i], s, none, by rfl, List.getElem?_eq_getElem hi, hpi, ⟨c, hplan⟩, fun _ => ?_,
                (by intro q hq; cases hq), (by intro _ q hq; cases hq)⟩
              simp at hlast
              rw [← hlast] at hcomp
              exact hcomp
            | cons y rest =>
              obtain ⟨t, w, q, hj0, hq, hcand, _⟩ := planUpTo_second hplan rfl
              have hat : atInt prims y.2 = .ok q := by
                unfold atInt atChecked
                rw [if_neg (by omega), hq]
              have h1 : atChecked ((s, (-1 : Int)) :: y :: rest) 1 = .ok y := rfl
              refine ⟨((s, -1) :: y :: rest, cost), i, starts[i], s, some q, ?_, List.getElem?_eq_getElem hi, hpi, ⟨c, hplan⟩,
                (by intro hc; cases hc), ?_, ?_⟩
              · dsimp only
                rw [if_pos (by simp), h1, Res.ok_bind, hat]
                rfl
              · intro q' hq'
                cases hq'
                exact ⟨List.mem_of_getElem? hq, hcand⟩
              · intro hresp q' hq'
                cases hq'
                rw [← hresp q (List.mem_of_getElem? hq) s starts[i] hpi]
                exact hcand

/-- C101, task planner: with the default equality, whatever the state hash, every outcome is one C24 speaks about. -/
theorem C101_planner_default_equality [DecidableEq S] {K : Keying S} (hK : ∀ a b, K.eq a b = decide (a = b))
    (prims : List (Primitive S C)) (complete : S → Bool) (h : Option (S → C)) (starts : List S) :
    (∀ r, PlanRunE K prims complete h starts r → PlanRun prims complete h starts r) ∧
    (∀ r, NextRunE K prims complete h starts r → NextRun prims complete h starts r) := by
  have h1 : ∀ r, PlanRunE K prims complete h starts r → PlanRun prims complete h starts r := by
    intro r hr
    refine Astar.C101_default_equality (K := outcomeKeying K) (fun a b => ?_) _ _ _ hr
    simp only [outcomeKeying, hK]
    rw [Bool.eq_iff_iff]
    simp [Prod.ext_iff, and_comm]
  refine ⟨h1, fun r hr => ?_⟩
  cases hr with
  | empty hs => exact .empty hs
  | @planned r hs hp =>
    have : ∀ plan, pickNextE K.eq prims starts plan = pickNext prims starts plan := by
      intro plan
      have he : K.eq = fun a b => decide (a = b) := funext fun a => funext fun b => hK a b
      rw [he]
      unfold pickNextE pickNext
      split
      · cases hx : atChecked plan.1 0 with
        | ok first =>
          simp only [Res.ok_bind]
          cases List.findIdx? (fun t => decide (first.1 = t)) starts <;> rfl
        | throw e => rfl
        | ub => rfl
      · rfl
    simp only [this]
    exact .planned hs (h1 _ hp)

/-! ### Non-vacuity -/
namespace EqualDemo

/-- One primitive, a candidate everywhere, that adds 4. -/
def prims : List (Primitive Nat ℕ∞) := [⟨"add", fun _ => true, fun s => [(s + 4, 1)], fun s r => r = .ok [s + 4]⟩]

theorem demo_plan : PlanRunE Astar.EqualDemo.K prims (fun s => s % 3 == 2) none [0] (.ok ([(0, -1), (4, 0), (8, 0)], 2)) := by
  apply AstarRunE.search (by simp [planStarts]) rfl
  · apply Astar.StepsE.step (.expand (top := ⟨(0, -1), none, 0, 0⟩) (rest := []) (kids := [((4, 0), 1)]) ⟨List.Perm.refl _, by simp⟩ rfl rfl rfl)
    exact .step (.expand (top := ⟨(4, 0), some (0, -1), 1, 1⟩) (rest := []) (kids := [((8, 0), 1)]) ⟨List.Perm.refl _, by simp⟩ rfl rfl rfl) (.refl _)
  · refine .goal (top := ⟨(8, 0), some (4, 0), 2, 2⟩) (rest := []) ⟨List.Perm.refl _, by simp⟩ rfl rfl ?_
    have := Astar.ExtractE.found (K := outcomeKeying Astar.EqualDemo.K) (C := ℕ∞)
      (explored := [((0, -1), (0, none)), ((4, 0), (1, some (0, -1))), ((8, 0), (2, some (4, 0)))])
      (g := (8, 0)) (c := 2) (b := some (4, 0)) (r := .ok [(4, 0), (0, -1)]) rfl
      (.cons (c := 1) (b := some (0, -1)) rfl (.cons (c := 0) (b := none) rfl .nil))
    exact this

theorem hn : NonnegOutcomes prims := fun _ _ _ _ _ => zero_le

example := C101_planner_plan Astar.EqualDemo.hK hn demo_plan (by simp)

/-- The given states are 3 and 0; the plan starts in 0, which is equal to 3: the first of the two is selected. -/
example : pickNextE Astar.EqualDemo.K.eq prims [3, 0] ([(0, -1), (4, 0), (8, 0)], 2) = .ok (0, prims[0]?) := rfl

example := C101_planner_next Astar.EqualDemo.hK hn (NextRunE.planned (by simp) demo_plan)

example := C101_planner_hash_irrelevant (L := ⟨fun _ => 0, Astar.EqualDemo.K.eq, fun _ => 1⟩) Astar.EqualDemo.hK
  ⟨Astar.EqualDemo.hK.refl, Astar.EqualDemo.hK.symm, Astar.EqualDemo.hK.trans, fun _ => rfl⟩ rfl prims (fun s => s % 3 == 2) none [0]

example : (outcomeKeying (⟨fun s => s, fun a b => decide (a = b), fun n => n⟩ : Keying Nat)).hash (17, 3) =
    (outcomeKeying ⟨fun s => s, fun a b => decide (a = b), fun n => n⟩).hash (1, 3) := rfl

example := C101_planner_default_equality (K := ⟨fun s => s, fun a b => decide (a = b), fun n => n⟩) (fun _ _ => rfl) prims
  (fun s => s % 3 == 2) none [0]

end EqualDemo

end CRU.Task
