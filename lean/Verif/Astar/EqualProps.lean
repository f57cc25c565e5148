import Verif.Astar.EqualSim
import Mathlib.Data.List.Forall2
/-
  C101: A* with a caller-supplied hash and equality.
-/
namespace CRU.Astar
set_option linter.unusedSectionVars false

variable {S C : Type} [LinearOrder C] [Add C] [Zero C] [OrderTop C]

/-- Two calls of the child function returned the same up to the equality: the same number of children, pairwise equal and
with the same costs, or the same failure. -/
def SameKids (eq : S → S → Bool) : Res (List (S × C)) → Res (List (S × C)) → Prop
  | .ok a, .ok b => List.Forall₂ (fun x y => eq x.1 y.1 = true ∧ x.2 = y.2) a b
  | a, b => a = b

/-- The callbacks cannot tell equal states apart. -/
structure Respects (eq : S → S → Bool) (P : Problem S C) : Prop where
  goal : ∀ a b, eq a b = true → P.goal a = P.goal b
  h : ∀ a b, eq a b = true → P.h a = P.h b
  expand : ∀ a b, eq a b = true → SameKids eq (P.expand a) (P.expand b)

variable [CostLaws C]

/-- C101: the hash function is not observable. For any two hash functions (and bucket counts) that agree with the
equality, and whatever the callbacks do, the possible outcomes of the search are the same. -/
theorem C101_hash_irrelevant {K L : Keying S} (hK : K.Lawful) (hL : L.Lawful) (heq : K.eq = L.eq) (P : Problem S C)
    (starts : List (S × C)) (r : Res (List S × C)) : AstarRunE K P starts r ↔ AstarRunE L P starts r :=
  ⟨run_other_hash hK hL heq, run_other_hash hL hK heq.symm⟩

/-- C101: whatever the callbacks do, even if they tell equal states apart, a path that is returned ends in a goal state,
and each of its states is equal to a start or to a child of the state before it; the returned cost is finite and at least
the accumulated cost of these edges. -/
theorem C101_path_up_to_equality {K : Keying S} (hK : K.Lawful) {P : Problem S C} (hnn : NonnegChildren P.expand)
    {starts : List (S × C)} {path : List S} {cost : C} (h : AstarRunE K P starts (.ok (path, cost))) (hne : path ≠ []) :
    (∃ c, WalkUpTo K.eq starts (ChildEdge P.expand) path c ∧ c ≤ cost) ∧ EndsInGoal P.goal path ∧ cost ≠ ⊤ := by
  classical
  generalize hr : Res.ok (path, cost) = r at h
  cases h with
  | noStarts h => cases hr
  | early hs h =>
    obtain ⟨rfl, rfl, hc⟩ := mkResult_ok hr.symm (by simp)
    obtain ⟨m1, m2, _⟩ := bestStart_some h
    exact ⟨⟨_, .start (hK.refl _) m1, le_refl _⟩, ⟨_, rfl, m2⟩, hc⟩
  | search hs h hrun he =>
    have hI := (initE_inv K P starts).steps hK hnn hrun
    cases he with
    | empty h => cases hr; exact absurd rfl hne
    | goal hp hb hg hx =>
      obtain ⟨l, ⟨c', hw, hle⟩, _, huniq⟩ := extractE_spec hK hnn hI hp hb
      rw [← hr] at hx
      obtain ⟨rfl, rfl, hc⟩ := mkResult_ok (huniq _ hx).symm (by simp)
      exact ⟨⟨c', hw.walk, hle⟩, ⟨_, by simp, hg⟩, hc⟩
    | throws => cases hr
    | ub => cases hr

/-- C101: whatever the callbacks do, extracting the path never fails and never runs in circles: the search does not hit
undefined behaviour, and throws only `invalid_argument` or what the child function threw; and whichever minimal element is
popped next in a partial run, the loop iterates or the search ends with a result. -/
theorem C101_failures {K : Keying S} (hK : K.Lawful) {P : Problem S C} (hnn : NonnegChildren P.expand)
    {starts : List (S × C)} :
    (∀ r, AstarRunE K P starts r → (r = .ub → ∃ s, P.expand s = .ub) ∧
      (∀ e, r = .throw e → e = .invalidArgument ∨ ∃ s, P.expand s = .throw e)) ∧
    (∀ st top rest, StepsE K P (initE K P starts) st → Pop st.queue top rest →
      (∃ st', StepE K P st st') ∨ ∃ r, EndsE K P st r ∧ (P.goal top.state = true →
        ExtractE K (assign K st.explored top.state (top.cost, top.back)) top.state r)) := by
  classical
  constructor
  · intro r h
    cases h with
    | noStarts h => exact ⟨(by intro h; cases h), by intro e h; cases h; exact .inl rfl⟩
    | early hs h => exact ⟨fun h => absurd h mkResult_ub, fun e h => .inl (mkResult_throw h).1⟩
    | search hs h hrun he =>
      have hI := (initE_inv K P starts).steps hK hnn hrun
      cases he with
      | empty h => exact ⟨(by intro h; cases h), by intro e h; cases h⟩
      | goal hp hb hg hx =>
        obtain ⟨l, _, _, huniq⟩ := extractE_spec hK hnn hI hp hb
        rw [huniq _ hx]
        exact ⟨fun h => absurd h mkResult_ub, fun e h => .inl (mkResult_throw h).1⟩
      | throws hp hb hg hk => exact ⟨(by intro h; cases h), by intro e h; cases h; exact .inr ⟨_, hk⟩⟩
      | ub hp hb hg hk => exact ⟨fun _ => ⟨_, hk⟩, by intro e h; cases h⟩
  · intro st top rest hrun hp
    have h := (initE_inv K P starts).steps hK hnn hrun
    cases hb : exploredBetterE K st.explored top.state top.cost with
    | true => exact .inl ⟨_, .skip hp hb⟩
    | false =>
      cases hg : P.goal top.state with
      | true =>
        obtain ⟨l, _, hx, _⟩ := extractE_spec hK hnn h hp hb
        exact .inr ⟨_, .goal hp hb hg hx, fun _ => hx⟩
      | false =>
        cases hk : P.expand top.state with
        | ok kids => exact .inl ⟨_, .expand hp hb hg hk⟩
        | throw e => exact .inr ⟨_, .throws hp hb hg hk, by intro h; cases h⟩
        | ub => exact .inr ⟨_, .ub hp hb hg hk, by intro h; cases h⟩

/-! ### Callbacks that respect the equality -/

/-- The equality as a setoid. -/
def eqSetoid {K : Keying S} (hK : K.Lawful) : Setoid S :=
  ⟨fun a b => K.eq a b = true, ⟨hK.refl, fun h => hK.symm h, fun h g => hK.trans h g⟩⟩

theorem exists_classes {K : Keying S} (hK : K.Lawful) {P : Problem S C} (hR : Respects K.eq P) :
    ∃ (Q : Type) (_ : DecidableEq Q) (f : S → Q) (P' : Problem Q C), OnClasses K f P P' ∧ Function.Surjective f := by
  classical
  let s := eqSetoid hK
  have hcls : ∀ a b, K.eq a b = true ↔ Quotient.mk s a = Quotient.mk s b := fun a b =>
    ⟨fun h => Quotient.sound (s := s) h, fun h => Quotient.exact (s := s) h⟩
  refine ⟨Quotient s, Classical.decEq _, Quotient.mk s,
    ⟨Quotient.lift P.goal hR.goal, Quotient.lift (fun x => mapKids (Quotient.mk s) (P.expand x)) ?_,
      Quotient.lift P.h hR.h, P.limit⟩, ⟨hcls, fun _ => rfl, fun _ => rfl, fun _ => rfl, rfl⟩, Quotient.exists_rep⟩
  intro a b hab
  have := hR.expand a b hab
  cases ha : P.expand a with
  | ok k =>
    cases hb : P.expand b with
    | ok k' =>
      rw [ha, hb] at this
      have h2 : List.Forall₂ (fun x y => K.eq x.1 y.1 = true ∧ x.2 = y.2) k k' := this
      show Res.ok _ = Res.ok _
      congr 1
      clear this ha hb
      induction h2 with
      | nil => rfl
      | cons h _ ih =>
        rw [List.map_cons, List.map_cons, ih, (hcls _ _).1 h.1, h.2]
    | throw e => rw [ha, hb] at this; cases this
    | ub => rw [ha, hb] at this; cases this
  | throw e =>
    rw [ha] at this
    have h2 : P.expand b = .throw e := by
      cases hb : P.expand b with
      | ok k' => rw [hb] at this; cases this
      | throw e' => rw [hb] at this; cases this; rfl
      | ub => rw [hb] at this; cases this
    rw [h2]
  | ub =>
    rw [ha] at this
    have h2 : P.expand b = .ub := by
      cases hb : P.expand b with
      | ok k' => rw [hb] at this; cases this
      | throw e' => rw [hb] at this; cases this
      | ub => rfl
    rw [h2]

section transfer
variable {K : Keying S} {Q : Type} {f : S → Q} {P : Problem S C} {P' : Problem Q C} (hO : OnClasses K f P P')
include hO

theorem edge_down {s : S} {q : Q} {w : C} (h : ChildEdge P'.expand (f s) q w) : ∃ t, f t = q ∧ ChildEdge P.expand s t w := by
  obtain ⟨kids, hk, hm⟩ := h
  rw [hO.expand] at hk
  unfold mapKids at hk
  rw [Res.bind_eq_ok] at hk
  obtain ⟨l, hl, he⟩ := hk
  cases he
  obtain ⟨x, hx, hxe⟩ := List.mem_map.1 hm
  cases hxe
  exact ⟨x.1, rfl, l, hl, hx⟩

theorem edge_up {s t : S} {w : C} (h : ChildEdge P.expand s t w) : ChildEdge P'.expand (f s) (f t) w := by
  obtain ⟨kids, hk, hm⟩ := h
  refine ⟨kids.map fun x => (f x.1, x.2), ?_, List.mem_map.2 ⟨_, hm, rfl⟩⟩
  rw [hO.expand, hk]; rfl

theorem walk_up {starts : List (S × C)} {p : List S} {c : C} (h : Walk starts (ChildEdge P.expand) p c) :
    Walk (starts.map fun x => (f x.1, x.2)) (ChildEdge P'.expand) (p.map f) c := by
  induction h with
  | start h => exact .start (List.mem_map.2 ⟨_, h, rfl⟩)
  | @step l s t c w _ he ih =>
    simp only [List.map_append, List.map_cons, List.map_nil] at ih ⊢
    exact .step ih (edge_up hO he)

theorem walk_down {starts : List (S × C)} {q : List Q} {c : C}
    (h : Walk (starts.map fun x => (f x.1, x.2)) (ChildEdge P'.expand) q c) :
    ∃ p, p.map f = q ∧ Walk starts (ChildEdge P.expand) p c := by
  induction h with
  | start h =>
    obtain ⟨x, hx, he⟩ := List.mem_map.1 h
    cases he
    exact ⟨[x.1], rfl, .start hx⟩
  | @step l s t c w _ he ih =>
    obtain ⟨p, hp, hw⟩ := ih
    obtain ⟨p1, p2, rfl, h1, h2⟩ := List.map_eq_append_iff.1 hp
    cases p2 with
    | nil => simp at h2
    | cons a p2 =>
      simp only [List.map_cons, List.cons.injEq, List.map_eq_nil_iff] at h2
      obtain ⟨rfl, rfl⟩ := h2
      obtain ⟨t0, rfl, he0⟩ := edge_down hO he
      exact ⟨p1 ++ [a] ++ [t0], by simp [h1], .step hw he0⟩

theorem goal_up {p : List S} : EndsInGoal P'.goal (p.map f) ↔ EndsInGoal P.goal p := by
  unfold EndsInGoal
  constructor
  · rintro ⟨g, h1, h2⟩
    rw [List.getLast?_map] at h1
    cases hp : p.getLast? with
    | none => rw [hp] at h1; cases h1
    | some s => rw [hp] at h1; cases h1; exact ⟨s, rfl, by rw [← hO.goal]; exact h2⟩
  · rintro ⟨g, h1, h2⟩
    exact ⟨f g, by rw [List.getLast?_map, h1]; rfl, by rw [hO.goal]; exact h2⟩

theorem nonneg_up (hs : Function.Surjective f) (hnn : NonnegChildren P.expand) : NonnegChildren P'.expand := by
  intro q r w h
  obtain ⟨s, rfl⟩ := hs q
  obtain ⟨t, _, he⟩ := edge_down hO h
  exact hnn _ _ _ he

theorem eq_paths {p q : List S} (h : p.map f = q.map f) : List.Forall₂ (fun a b => K.eq a b = true) p q := by
  induction p generalizing q with
  | nil => cases q with
    | nil => exact .nil
    | cons => simp at h
  | cons a p ih =>
    cases q with
    | nil => simp at h
    | cons b q =>
      simp only [List.map_cons, List.cons.injEq] at h
      exact .cons ((hO.cls a b).2 h.1) (ih h.2)

end transfer

/-- C101: if the callbacks respect the equality, the returned path is, state by state, equal to a path that really leads from
a start to a goal, and with an admissible heuristic (and the proviso of C20 on starts that meet the goal) the returned cost
is the cost of that real path and no path is cheaper. -/
theorem C101_optimal {K : Keying S} (hK : K.Lawful) {P : Problem S C} (hR : Respects K.eq P)
    (hnn : NonnegChildren P.expand) {starts : List (S × C)} {path : List S} {cost : C}
    (h : AstarRunE K P starts (.ok (path, cost))) (hne : path ≠ []) :
    (∃ real c, Walk starts (ChildEdge P.expand) real c ∧ c ≤ cost ∧ List.Forall₂ (fun a b => K.eq a b = true) path real ∧
      EndsInGoal P.goal real) ∧
    ((∀ x ∈ starts, (0 : C) ≤ x.2) → Admissible (ChildEdge P.expand) P.goal P.h → StartProviso P.goal starts →
      (∃ real, Walk starts (ChildEdge P.expand) real cost ∧ List.Forall₂ (fun a b => K.eq a b = true) path real) ∧
      ∀ p c, Walk starts (ChildEdge P.expand) p c → EndsInGoal P.goal p → cost ≤ c) := by
  obtain ⟨Q, _, f, P', hO, hsurj⟩ := exists_classes hK hR
  have hrun : AstarRun P' _ (.ok (path.map f, cost)) := run_on_classes hK hO h
  have hne' : path.map f ≠ [] := by simpa using hne
  have hnn' := nonneg_up hO hsurj hnn
  constructor
  · obtain ⟨⟨c, hw, hc⟩, hg, _⟩ := C19_path_is_real hnn' hrun hne'
    obtain ⟨real, hm, hw⟩ := walk_down hO hw
    exact ⟨real, c, hw, hc, eq_paths hO hm.symm, (goal_up hO).1 (by rw [hm]; exact hg)⟩
  · intro hst hadm hprov
    have hst' : ∀ x ∈ starts.map (fun x => (f x.1, x.2)), (0 : C) ≤ x.2 := by
      intro x hx
      obtain ⟨y, hy, rfl⟩ := List.mem_map.1 hx
      exact hst y hy
    have hadm' : Admissible (ChildEdge P'.expand) P'.goal P'.h := by
      intro q
      obtain ⟨s, rfl⟩ := hsurj q
      rw [hO.h]
      refine ⟨(hadm s).1, fun x p c hx hw hg => ?_⟩
      obtain ⟨real, rfl, hw2⟩ := walk_down hO (starts := [(s, x)]) hw
      exact (hadm s).2 x real c hx hw2 ((goal_up hO).1 hg)
    have hprov' : StartProviso P'.goal (starts.map fun x => (f x.1, x.2)) := by
      rcases hprov with hp | ⟨x, hx, hg, hmin⟩
      · left
        intro x hx
        obtain ⟨y, hy, rfl⟩ := List.mem_map.1 hx
        rw [hO.goal]; exact hp y hy
      · right
        refine ⟨(f x.1, x.2), List.mem_map.2 ⟨x, hx, rfl⟩, by rw [hO.goal]; exact hg, ?_⟩
        intro y hy
        obtain ⟨z, hz, rfl⟩ := List.mem_map.1 hy
        exact hmin z hz
    obtain ⟨hw, hopt⟩ := C20_optimal_partial hnn' hst' hadm' hprov' hrun hne'
    obtain ⟨real, hm, hw⟩ := walk_down hO hw
    exact ⟨⟨real, hw, eq_paths hO hm.symm⟩, fun p c hp hg => hopt _ _ (walk_up hO hp) ((goal_up hO).2 hg)⟩

/-- C101: if the callbacks respect the equality, "no path" is the truth. -/
theorem C101_empty_means_unreachable {K : Keying S} (hK : K.Lawful) {P : Problem S C} (hR : Respects K.eq P)
    (hnn : NonnegChildren P.expand) {starts : List (S × C)} {cost : C} (h : AstarRunE K P starts (.ok ([], cost))) :
    cost = ⊤ ∧ ∀ p c, Walk starts (ChildEdge P.expand) p c → ¬ EndsInGoal P.goal p := by
  obtain ⟨Q, _, f, P', hO, hsurj⟩ := exists_classes hK hR
  have hrun : AstarRun P' _ (.ok ([], cost)) := run_on_classes hK hO h
  obtain ⟨h1, h2⟩ := C21_empty_means_unreachable (nonneg_up hO hsurj hnn) hrun
  exact ⟨h1, fun p c hw hg => h2 _ _ (walk_up hO hw) ((goal_up hO).2 hg)⟩

/-- Up to the equality, `F` contains the starts and is closed under the child function. -/
def FiniteUpTo (eq : S → S → Bool) (expand : S → Res (List (S × C))) (starts : List (S × C)) (F : List S) : Prop :=
  (∀ x ∈ starts, ∃ y ∈ F, eq x.1 y = true) ∧ ∀ s ∈ F, ∀ t w, ChildEdge expand s t w → ∃ y ∈ F, eq t y = true

theorem acc_up {K : Keying S} (hK : K.Lawful) {P : Problem S C} {Q : Type} [DecidableEq Q] {f : S → Q} {P' : Problem Q C}
    (hO : OnClasses K f P P') {b : St Q C} (hb : Acc (fun b a => Step P' a b) b) {a : StE S C} (hs : Sim K f a b) :
    Acc (fun b a => StepE K P a b) a := by
  induction hb generalizing a with
  | intro b _ ih =>
    refine ⟨_, fun a' ha => ?_⟩
    obtain ⟨b', h1, h2⟩ := hs.step hK hO ha
    exact ih b' h1 h2

/-- C101: if the callbacks respect the equality and there are finitely many reachable states up to it, the search cannot run
forever, and has an outcome. The states themselves may be infinitely many. -/
theorem C101_terminates {K : Keying S} (hK : K.Lawful) {P : Problem S C} (hR : Respects K.eq P)
    (hnn : NonnegChildren P.expand) {starts : List (S × C)} {F : List S} (hF : FiniteUpTo K.eq P.expand starts F) :
    (¬ ∃ g : Nat → StE S C, g 0 = initE K P starts ∧ ∀ n, StepE K P (g n) (g (n + 1))) ∧
    ∃ r, AstarRunE K P starts r := by
  classical
  obtain ⟨Q, _, f, P', hO, hsurj⟩ := exists_classes hK hR
  have hnn' := nonneg_up hO hsurj hnn
  have hsim := sim_init hK hO starts
  have hfin : FiniteReach P'.expand (starts.map fun x => (f x.1, x.2)) (F.map f) := by
    refine ⟨fun x hx => ?_, fun q hq r w he => ?_⟩
    · obtain ⟨y, hy, rfl⟩ := List.mem_map.1 hx
      obtain ⟨z, hz, hyz⟩ := hF.1 y hy
      exact List.mem_map.2 ⟨z, hz, ((hO.cls _ _).1 hyz).symm⟩
    · obtain ⟨s, hs, rfl⟩ := List.mem_map.1 hq
      obtain ⟨t, rfl, he2⟩ := edge_down hO he
      obtain ⟨z, hz, hyz⟩ := hF.2 s hs t w he2
      exact List.mem_map.2 ⟨z, hz, ((hO.cls _ _).1 hyz).symm⟩
  have hacc := acc_up hK hO (steps_acc hnn' hfin.1 hfin.2 _ (init_inv P' _).1) hsim
  constructor
  · rintro ⟨g, h0, hs⟩
    have : ∀ st, Acc (fun b a => StepE K P a b) st → ∀ n, g n = st → False := by
      intro st h
      induction h with
      | intro st _ ih => intro n hn; exact ih (g (n + 1)) (hn ▸ hs n) (n + 1) rfl
    exact this _ hacc 0 h0
  · by_cases hs : starts = []
    · exact ⟨_, .noStarts hs⟩
    · cases hb : bestStart P.goal starts with
      | some b => exact ⟨_, .early hs hb⟩
      | none =>
        have main : ∀ st, Acc (fun b a => StepE K P a b) st → StepsE K P (initE K P starts) st →
            ∃ st' r, StepsE K P st st' ∧ EndsE K P st' r := by
          intro st h
          induction h with
          | intro st _ ih =>
            intro hrun
            by_cases hq : st.queue = []
            · exact ⟨st, _, .refl _, .empty hq⟩
            · obtain ⟨top, rest, hp⟩ := exists_pop st.queue hq
              rcases (C101_failures hK hnn).2 st top rest hrun hp with ⟨st', hs'⟩ | ⟨r, he, _⟩
              · have htr : ∀ a b c, StepsE K P a b → StepE K P b c → StepsE K P a c := by
                  intro a b c h1 h2
                  induction h1 with
                  | refl => exact .step h2 (.refl _)
                  | step h _ ih => exact .step h (ih h2)
                obtain ⟨st2, r, h1, h2⟩ := ih st' hs' (htr _ _ _ hrun hs')
                exact ⟨st2, r, .step hs' h1, h2⟩
              · exact ⟨st, r, .refl _, he⟩
        obtain ⟨st, r, h1, h2⟩ := main _ hacc (.refl _)
        exact ⟨r, .search hs hb h1 h2⟩

/-- C101: with the default equality, every outcome of the search on hash maps is an outcome of the search C19, C20 and C21
are about, whatever the hash function. -/
theorem C101_default_equality [DecidableEq S] {K : Keying S} (hK : ∀ a b, K.eq a b = decide (a = b)) (P : Problem S C)
    (starts : List (S × C)) (r : Res (List S × C)) (h : AstarRunE K P starts r) : AstarRun P starts r := by
  have hl : K.Lawful := by
    refine ⟨fun a => by rw [hK]; simp, fun {a b} h => ?_, fun {a b c} h g => ?_, fun {a b} h => ?_⟩
    · rw [hK] at h ⊢; simpa using (of_decide_eq_true h).symm
    · rw [hK] at h g ⊢; simpa using (of_decide_eq_true h).trans (of_decide_eq_true g)
    · rw [hK] at h; rw [of_decide_eq_true h]
  have hO : OnClasses K (id : S → S) P P := by
    refine ⟨fun a b => by rw [hK]; simp, fun _ => rfl, fun _ => rfl, fun s => ?_, rfl⟩
    unfold mapKids
    simp only [id]
    cases P.expand s <;> simp
  have := run_on_classes hl hO h
  have e1 : starts.map (fun x => (id x.1, x.2)) = starts := by simp
  have e2 : mapOut (id : S → S) r = r := by unfold mapOut; cases r <;> simp
  rwa [e1, e2] at this

/-! ### Non-vacuity -/
namespace EqualDemo

/-- States are equal if they have the same remainder modulo 3. -/
def K : Keying Nat := ⟨fun s => s % 3, fun a b => a % 3 == b % 3, fun _ => 100⟩

theorem hK : K.Lawful := by
  refine ⟨fun a => by simp [K], fun {a b} h => ?_, fun {a b c} h g => ?_, fun {a b} h => ?_⟩
  · simp only [K, beq_iff_eq] at h ⊢; exact h.symm
  · simp only [K, beq_iff_eq] at h g ⊢; exact h.trans g
  · simpa only [K, beq_iff_eq] using h

/-- From `s` to `s + 4`; the state space is infinite, its classes are three. -/
def P : Problem Nat ℕ∞ := ⟨fun s => s % 3 == 2, fun s => .ok [(s + 4, 1)], fun _ => 0, true⟩

theorem hR : Respects K.eq P := by
  refine ⟨fun a b h => ?_, fun _ _ _ => rfl, fun a b h => ?_⟩
  · simp only [K, beq_iff_eq] at h; simp only [P, h]
  · simp only [K, beq_iff_eq] at h
    exact .cons ⟨by simp only [K, beq_iff_eq]; omega, rfl⟩ .nil

theorem demo_run : AstarRunE K P [(0, 0)] (.ok ([0, 4, 8], 2)) := by
  apply AstarRunE.search (by simp) rfl
  · apply StepsE.step (.expand (top := ⟨0, none, 0, 0⟩) (rest := []) (kids := [(4, 1)]) ⟨List.Perm.refl _, by simp⟩ rfl rfl rfl)
    exact .step (.expand (top := ⟨4, some 0, 1, 1⟩) (rest := []) (kids := [(8, 1)]) ⟨List.Perm.refl _, by simp⟩ rfl rfl rfl) (.refl _)
  · refine .goal (top := ⟨8, some 4, 2, 2⟩) (rest := []) ⟨List.Perm.refl _, by simp⟩ rfl rfl ?_
    have := ExtractE.found (K := K) (C := ℕ∞) (explored := [(0, (0, none)), (4, (1, some 0)), (8, (2, some 4))])
      (g := 8) (c := 2) (b := some 4) (r := .ok [4, 0]) rfl
      (.cons (c := 1) (b := some 0) rfl (.cons (c := 0) (b := none) rfl .nil))
    exact this

theorem hnn : NonnegChildren P.expand := fun _ _ _ _ => zero_le

example := C101_path_up_to_equality hK hnn demo_run (by simp)
example := C101_optimal hK hR hnn demo_run (by simp)
example := C101_failures hK hnn (starts := [(0, 0)])

/-- The three classes are enough for termination. -/
example : ∃ r, AstarRunE K P [(0, 0)] r :=
  (C101_terminates hK hR hnn (F := [0, 1, 2]) ⟨by simp [K], by
    rintro s hs t w ⟨kids, hk, hm⟩
    cases hk
    simp only [List.mem_singleton, Prod.mk.injEq] at hm
    obtain ⟨rfl, rfl⟩ := hm
    simp only [List.mem_cons, List.not_mem_nil, or_false] at hs
    rcases hs with rfl | rfl | rfl <;> simp [K]⟩).2

/-- A hash that puts everything into one bucket gives the same outcomes. -/
example (r : Res (List Nat × ℕ∞)) : AstarRunE K P [(0, 0)] r ↔ AstarRunE ⟨fun _ => 0, K.eq, fun _ => 1⟩ P [(0, 0)] r :=
  C101_hash_irrelevant (L := ⟨fun _ => 0, K.eq, fun _ => 1⟩) hK ⟨hK.refl, hK.symm, hK.trans, fun _ => rfl⟩ rfl P _ r

/-- No goal at all: the search ends with the empty path after three states. -/
example : AstarRunE K ⟨fun _ => false, P.expand, P.h, true⟩ [(0, 0)] (.ok ([], ⊤)) ∧
    ∀ p c, Walk [(0, 0)] (ChildEdge P.expand) p c → ¬ EndsInGoal (fun _ => false) p := by
  have hrun : AstarRunE K ⟨fun _ => false, P.expand, P.h, true⟩ [(0, 0)] (.ok ([], ⊤)) := by
    apply AstarRunE.search (by simp) rfl
    · apply StepsE.step (.expand (top := ⟨0, none, 0, 0⟩) (rest := []) (kids := [(4, 1)]) ⟨List.Perm.refl _, by simp⟩ rfl rfl rfl)
      apply StepsE.step (.expand (top := ⟨4, some 0, 1, 1⟩) (rest := []) (kids := [(8, 1)]) ⟨List.Perm.refl _, by simp⟩ rfl rfl rfl)
      exact .step (.expand (top := ⟨8, some 4, 2, 2⟩) (rest := []) (kids := [(12, 1)]) ⟨List.Perm.refl _, by simp⟩ rfl rfl rfl) (.refl _)
    · exact .empty rfl
  exact ⟨hrun, (C101_empty_means_unreachable (P := ⟨fun _ => false, P.expand, P.h, true⟩) hK
    ⟨fun _ _ _ => rfl, hR.h, hR.expand⟩ hnn hrun).2⟩

/-- Default equality, with a hash that collides a lot. -/
example (r : Res (List Nat × ℕ∞)) (h : AstarRunE ⟨fun s => s % 2, fun a b => decide (a = b), fun n => n⟩ P [(0, 0)] r) :
    AstarRun P [(0, 0)] r := C101_default_equality (fun _ _ => rfl) P _ r h

/-- 1 and 2 are equal; everything else is equal only to itself. -/
def K12 : Keying Nat :=
  ⟨fun s => if s = 2 then 1 else s, fun a b => (if a = 2 then 1 else a) == (if b = 2 then 1 else b), fun _ => 100⟩

theorem hK12 : K12.Lawful := by
  refine ⟨fun a => by simp [K12], fun {a b} h => ?_, fun {a b c} h g => ?_, fun {a b} h => ?_⟩
  · simp only [K12, beq_iff_eq] at h ⊢; exact h.symm
  · simp only [K12, beq_iff_eq] at h g ⊢; exact h.trans g
  · simpa only [K12, beq_iff_eq] using h

end EqualDemo

/-- `C101_empty_means_unreachable` needs callbacks that respect the equality: here 1 and 2 are equal and only the child
function tells them apart. 2 is dropped because 1 is already queued, and the search answers "no path" although 0, 2, 3 is one. -/
theorem C101_coarse_equality_false : ∃ (K : Keying Nat) (P : Problem Nat ℕ∞), K.Lawful ∧ NonnegChildren P.expand ∧
    (∀ a b, K.eq a b = true → P.goal a = P.goal b) ∧
    AstarRunE K P [(0, 0)] (.ok ([], ⊤)) ∧ ∃ c, Walk [(0, 0)] (ChildEdge P.expand) [0, 2, 3] c ∧ EndsInGoal P.goal [0, 2, 3] := by
  refine ⟨EqualDemo.K12, ⟨fun s => s == 3, fun s => .ok (if s = 0 then [(1, 1), (2, 1)] else if s = 2 then [(3, 1)] else []),
    fun _ => 0, true⟩, EqualDemo.hK12, fun _ _ _ _ => zero_le, ?_, ?_, 0 + 1 + 1, ?_, 3, rfl, rfl⟩
  · intro a b h
    simp only [EqualDemo.K12, beq_iff_eq] at h
    have : a = 3 ↔ b = 3 := by
      split at h <;> split at h <;> omega
    show (a == 3) = (b == 3)
    rw [Bool.eq_iff_iff, beq_iff_eq, beq_iff_eq]; exact this
  · apply AstarRunE.search (by simp) rfl
    · apply StepsE.step (.expand (top := ⟨0, none, 0, 0⟩) (rest := []) (kids := [(1, 1), (2, 1)]) ⟨List.Perm.refl _, by simp⟩ rfl rfl rfl)
      exact .step (.expand (top := ⟨1, some 0, 1, 1⟩) (rest := []) (kids := []) ⟨List.Perm.refl _, by simp⟩ rfl rfl rfl) (.refl _)
    · exact .empty rfl
  · exact .step (l := [0]) (.step (l := []) (.start (by simp)) ⟨_, rfl, by simp⟩) ⟨_, rfl, by simp⟩

/-- "Up to equality" in `C101_path_up_to_equality` cannot be dropped: with callbacks that tell equal states apart the search
can return a path that is no path at all. 3 was reached from 1, then 2 (equal to 1) was reached more cheaply from 4, and the
back pointers are followed from 1 to 4: in the returned path 0, 4, 1, 3 state 1 is not a child of 4. -/
theorem C101_path_false : ∃ (K : Keying Nat) (P : Problem Nat ℕ∞), K.Lawful ∧ NonnegChildren P.expand ∧
    AstarRunE K P [(0, 0)] (.ok ([0, 4, 1, 3], 6)) ∧ ∀ c, ¬ Walk [(0, 0)] (ChildEdge P.expand) [0, 4, 1, 3] c := by
  refine ⟨EqualDemo.K12, ⟨fun s => s == 3, fun s => .ok (if s = 0 then [(1, 5), (4, 1)] else if s = 1 then [(3, 1)]
    else if s = 4 then [(2, 1)] else []), fun s => if s = 4 then 10 else if s = 3 then 20 else 0, true⟩, EqualDemo.hK12,
    fun _ _ _ _ => zero_le, ?_, ?_⟩
  · apply AstarRunE.search (by simp) rfl
    · apply StepsE.step (.expand (top := ⟨0, none, 0, 0⟩) (rest := []) (kids := [(1, 5), (4, 1)]) ⟨List.Perm.refl _, by simp⟩
        rfl rfl rfl)
      apply StepsE.step (.expand (top := ⟨1, some 0, 5, 5⟩) (rest := [⟨4, some 0, 1, 11⟩]) (kids := [(3, 1)])
        ⟨List.Perm.swap (⟨1, some 0, 5, 5⟩ : Elem Nat ℕ∞) ⟨4, some 0, 1, 11⟩ [],
          by intro e he; rw [List.mem_singleton] at he; subst he; decide⟩ rfl rfl rfl)
      apply StepsE.step (.expand (top := ⟨4, some 0, 1, 11⟩) (rest := [⟨3, some 1, 6, 26⟩]) (kids := [(2, 1)])
        ⟨List.Perm.swap (⟨4, some 0, 1, 11⟩ : Elem Nat ℕ∞) ⟨3, some 1, 6, 26⟩ [],
          by intro e he; rw [List.mem_singleton] at he; subst he; decide⟩ rfl rfl rfl)
      exact .step (.expand (top := ⟨2, some 4, 2, 2⟩) (rest := [⟨3, some 1, 6, 26⟩]) (kids := [])
        ⟨List.Perm.refl _, by intro e he; rw [List.mem_singleton] at he; subst he; decide⟩ rfl rfl rfl) (.refl _)
    · refine .goal (top := ⟨3, some 1, 6, 26⟩) (rest := []) ⟨List.Perm.refl _, by simp⟩ rfl rfl ?_
      have := ExtractE.found (K := EqualDemo.K12) (C := ℕ∞)
        (explored := [(0, (0, none)), (1, (2, some 4)), (4, (1, some 0)), (3, (6, some 1))])
        (g := 3) (c := 6) (b := some 1) (r := .ok [1, 4, 0]) rfl
        (.cons (c := 2) (b := some 4) rfl (.cons (c := 1) (b := some 0) rfl (.cons (c := 0) (b := none) rfl .nil)))
      exact this
  · intro c h
    replace h : RWalk _ _ [3, 1, 4, 0] c := h.rwalk
    cases h with
    | step h _ =>
      cases h with
      | step _ he =>
        obtain ⟨kids, hk, hm⟩ := he
        cases hk
        simp at hm

end CRU.Astar
