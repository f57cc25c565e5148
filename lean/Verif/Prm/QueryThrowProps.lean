import Verif.Prm.QueryThrow
/-
  C118: what queries with functions that may throw leave behind, and what they answer.
-/
namespace CRU.Prm.Throw
open CRU.Graph CRU.Knn CRU.Parallel CRU.GraphSearch CRU.Distances.Throw
open CRU.Astar.Callbacks (Fail ofRes)
open CRU.GraphSearch.Callbacks (AstarRun LazyCalls valueFns weightFns Hist Event lazy_follows)
set_option linter.unusedSectionVars false

variable {V C ε : Type} [LinearOrder C] [Zero C]

/-! ### Adding states -/

theorem add_length_le {e : Env V C ε} {state : V} {dir : Dir} {maxNode : Int} {g : Graph V C} {r : Graph V C × Res (Except ε Int)}
    (h : AddNodeRun graphOps e state dir maxNode g r) : r.1.length ≤ g.length + 1 := by
  cases h with
  | knnRaises => exact Nat.le_succ _
  | knnThrows => exact Nat.le_succ _
  | knnUb => exact Nat.le_succ _
  | duplicate => exact Nat.le_succ _
  | @added l ws init o h hd hw hi ho =>
    have hA : (graphOps.addValue g state : Graph V C × Int) = (g ++ [⟨state, [], []⟩], (g.length : Int)) :=
      Prod.ext ((C14_effects g).1 state).1 ((C14_effects g).1 state).2
    rw [hA]
    unfold finish
    match o with
    | .ok (.error x) => simp
    | .throw x => simp
    | .ub => simp
    | .ok (.ok ds) =>
      have := addEdgesLoop_length (g.length : Int) (l.zip ds) (g ++ [(⟨state, [], []⟩ : Node V C)])
      dsimp only
      generalize hE : addEdgesLoop graphOps (g.length : Int) (l.zip ds) (g ++ [⟨state, [], []⟩]) = p at this ⊢
      obtain ⟨g2, o⟩ := p
      have h2 : g2.length ≤ g.length + 1 := by simp at this; omega
      cases o <;> exact h2

theorem sound_ext {e : Env V C ε} (hs : e.knn.Sound e.dist) {valid : V → V → Bool} {dist : V → V → C} (hx : Extends e valid dist) :
    (e.total valid dist).knn.Sound dist := by
  intro g size get state K dir maxNode r hacc hI hK h0 h1 hr
  rcases hs g size get state K dir maxNode _ hacc hI hK h0 h1 hr with ⟨x, hx⟩ | ⟨l, hl, hlI, hsd⟩
  · cases r with
    | ok l => cases hx
    | throw y => cases hx
    | ub => cases hx
  · cases r with
    | ok l' =>
      cases hl
      refine ⟨l, rfl, hlI, fun nb hnb => ?_⟩
      obtain ⟨i, n, a1, a2, a3, a4⟩ := hsd nb hnb
      refine ⟨i, n, a1, a2, a3, ?_⟩
      cases dir
      · exact (hx.2 _ _ _ a4).symm
      · exact (hx.2 _ _ _ a4).symm
    | throw y => cases hl
    | ub => cases hl

/-- `AddAllRun` with functions that return. -/
def Same (e : Env V C ε) (dir : Dir) (maxNode : Int) (states : List V) (g g' : Graph V C) (is : List Int) : Prop :=
  ∀ valid dist, Extends e valid dist → Prm.AddAllRun graphOps (e.total valid dist) dir maxNode states g (g', .ok is)

/-- Adding the states one after the other. -/
theorem addAll_spec (e : Env V C ε) (hs : e.knn.Sound e.dist) (hK : 0 ≤ e.K) (hth : InI64 e.threads) (dir : Dir) (maxNode : Int)
    (h0 : 0 ≤ maxNode) (states : List V) (g : Graph V C) (h1 : maxNode ≤ g.length) (hsz : InI64 (g.length + states.length)) (g' : Graph V C)
    (o : Res (Except ε (List Int))) (hr : AddAllRun graphOps e dir maxNode states g (g', o)) :
    (∃ is, o = .ok (.ok is) ∧ Same e dir maxNode states g g' is ∧ g'.length ≤ g.length + states.length ∧ g.length ≤ g'.length) ∨
    ∃ x, o = .ok (.error x) ∧ ∃ (pre : List V) (s : V) (post : List V) (is : List Int) (g1 : Graph V C), states = pre ++ s :: post ∧
      Same e dir maxNode pre g g1 is ∧
      ((e.knn g1.length (getNode g1) s e.K dir maxNode (.ok (.error x)) ∧ g' = g1) ∨
      ∃ l, e.knn g1.length (getNode g1) s e.K dir maxNode (.ok (.ok l)) ∧ (e.addDuplicates = false → ∀ nb ∈ l, nb.dist ≠ 0) ∧
        (∃ nb ∈ l, ∃ b, HasValue g1 nb.index b ∧ Raises e s b x) ∧ g' = g1 ++ [⟨s, [], []⟩]) := by
  induction states generalizing g o with
  | nil =>
    generalize hp : (g', o) = p at hr
    cases hr
    cases hp
    exact .inl ⟨[], rfl, fun _ _ _ => .nil, by simp, le_rfl⟩
  | cons s states ih =>
    have hcast : ((s :: states).length : Int) = states.length + 1 := by simp
    rw [hcast] at hsz
    have hI : InI64 g.length := by unfold InI64 at hsz ⊢; omega
    have one := fun r h => C108_add_node e hs hK s dir maxNode g h0 h1 hI hth r h
    have rest : ∀ {g1 : Graph V C} {i : Int} {o1 : Res (Except ε (List Int))}, AddNodeRun graphOps e s dir maxNode g (g1, .ok (.ok i)) →
        AddAllRun graphOps e dir maxNode states g1 (g', o1) →
        (∀ valid dist, Extends e valid dist → Prm.AddNodeRun graphOps (e.total valid dist) s dir maxNode g (g1, .ok i)) ∧
        g.length ≤ g1.length ∧ g1.length ≤ g.length + 1 ∧ InI64 (g1.length + states.length) := by
      intro g1 i o1 h hrest
      have hl := add_length h
      have hl' := add_length_le h
      dsimp only at hl hl'
      refine ⟨?_, hl, hl', by unfold InI64 at hsz ⊢; omega⟩
      rcases one _ h with ⟨x, _, he⟩ | ⟨l, _, _, nb, _, b, x, _, _, he⟩ | ⟨g'', i', he, ht, _⟩
      · cases he
      · cases he
      · cases he; exact ht
    generalize hp : (g', o) = p at hr
    cases hr with
    | next h hrest =>
      cases hp
      obtain ⟨a1, a2, a3, a4⟩ := rest h hrest
      rcases ih _ (by omega) a4 _ hrest with ⟨is, b1, b2, b3, b4⟩ | ⟨x, hx, _⟩
      · cases b1
        refine .inl ⟨_, rfl, fun valid dist hx => ?_, by simp only [List.length_cons]; omega, by omega⟩
        exact Prm.AddAllRun.next (a1 valid dist hx) (b2 valid dist hx)
      · cases hx
    | @later _ _ _ _ _ i _ h hrest ho =>
      cases hp
      obtain ⟨a1, a2, a3, a4⟩ := rest h hrest
      rcases ih _ (by omega) a4 _ hrest with ⟨is, b1, _⟩ | ⟨x, hx, pre, s', post, is, g1', c1, c2, c3⟩
      · exact absurd b1 (ho is)
      · refine .inr ⟨x, hx, s :: pre, s', post, i :: is, g1', by rw [c1]; rfl, fun valid dist hx => ?_, c3⟩
        exact Prm.AddAllRun.next (a1 valid dist hx) (c2 valid dist hx)
    | raises h =>
      cases hp
      rcases one _ h with ⟨x, hk, he⟩ | ⟨l, hk, hd, nb, hnb, b, x, hb, hx, he⟩ | ⟨g'', i', he, ht, _⟩
      · cases he
        exact .inr ⟨_, rfl, [], s, states, [], _, rfl, fun _ _ _ => .nil, .inl ⟨hk, rfl⟩⟩
      · cases he
        exact .inr ⟨_, rfl, [], s, states, [], g, rfl, fun _ _ _ => .nil, .inr ⟨l, hk, hd, ⟨nb, hnb, b, hb, hx⟩, rfl⟩⟩
      · cases he
    | throws h => rcases one _ h with ⟨x, _, he⟩ | ⟨l, _, _, nb, _, b, x, _, _, he⟩ | ⟨g'', i', he, ht, _⟩ <;> cases he
    | ub h => rcases one _ h with ⟨x, _, he⟩ | ⟨l, _, _, nb, _, b, x, _, _, he⟩ | ⟨g'', i', he, ht, _⟩ <;> cases he

theorem Same.attached {e : Env V C ε} (hs : e.knn.Sound e.dist) (hK : 0 ≤ e.K) (hinf : e.infeasible < 0) (hth : InI64 e.threads)
    {dir : Dir} {maxNode : Int} (h0 : 0 ≤ maxNode) {states : List V} {g g' : Graph V C} {is : List Int} (h1 : maxNode ≤ g.length)
    (hsz : InI64 (g.length + states.length)) (hv : ValidLinkage g) (h : Same e dir maxNode states g g' is) :
    Added e dir maxNode states g g' is ∧
    ((e.symmetric = true → ∀ a b, e.valid a b = e.valid b a ∧ e.dist a b = e.dist b a) → ValidLinkage g' ∧ ∀ i ∈ is, 0 ≤ i ∧ i < g'.length) := by
  refine ⟨fun valid dist hx hsy => ?_, fun hsym => ?_⟩
  · obtain ⟨is', he, ha, _⟩ := Prm.addAll_attached (e.total valid dist) (sound_ext hs hx) hK hinf hth hsy dir maxNode h0 states g h1 hsz hv g' _
      (h valid dist hx)
    cases he
    exact ha
  · obtain ⟨is', he, _, ha⟩ := Prm.addAll_attached (e.total (tvalid e) (tdist e)) (sound_t hs) hK hinf hth (fun hsy a b => by
        have := hsym hsy a b
        show tvalid e a b = tvalid e b a ∧ tdist e a b = tdist e b a
        unfold tvalid tdist
        rw [this.1, this.2]
        exact ⟨rfl, rfl⟩) dir maxNode h0 states g h1 hsz hv g' _ (h _ _ (extends_t e))
    cases he
    exact ha

variable [Add C] [OrderTop C] [CostLaws C] [Inhabited V]

/-! ### The search -/

theorem valueAt_has {g : Graph V C} {i : Int} (h : ∃ n, getNode g i = .ok n) : HasValue g i (valueAt (getNode g) i) := by
  obtain ⟨n, hn⟩ := h
  have hv : valueAt (getNode g) i = n.value := by unfold valueAt; rw [hn]
  rw [hv]
  obtain ⟨h0, h1⟩ := getNode_isOk hn
  have hlt : i.toNat < g.length := by omega
  have hg := getNode_ok g i.toNat hlt
  rw [Int.toNat_of_nonneg h0, hn] at hg
  cases hg
  exact ⟨i.toNat, _, (Int.toNat_of_nonneg h0).symm, List.getElem?_eq_getElem hlt, rfl⟩

theorem thrown_eq {i t : Int} {a : Except ε C} {x : ε} (h : (Event.heurTo i t a : Event C ε).thrown = some x) : a = .error x := by
  cases a with
  | ok _ => cases h
  | error y => cases h; rfl

theorem thrown_eqD {ed : Edge C} {a : Except ε C} {x : ε} (h : (Event.dist ed a : Event C ε).thrown = some x) : a = .error x := by
  cases a with
  | ok _ => cases h
  | error y => cases h; rfl

theorem thrown_eqV {ed : Edge C} {a : Except ε Bool} {x : ε} (h : (Event.valid ed a : Event C ε).thrown = some x) : a = .error x := by
  cases a with
  | ok _ => cases h
  | error y => cases h; rfl

/-- The distances of edges are not negative. -/
theorem search_nonneg (e : Env V C ε) (lazy : Bool) {g : Graph V C} (hw : lazy = false → ∀ u v w, OutEdge g u v w → 0 ≤ w)
    (hd : lazy = true → ∀ a b w, e.dist a b = .ok w → 0 ≤ w) (si gi : List Int) :
    CRU.GraphSearch.Callbacks.Nonneg (CRU.GraphSearch.Callbacks.task2 (graphOps.get g) (if lazy = true
      then valueFns (graphOps.get g) (fun _ => e.valid) (fun _ => e.dist) (fun _ => e.dist)
      else weightFns (graphOps.get g) (fun _ => e.dist)) si gi) := by
  intro h0 s ed w hed hw'
  cases lazy with
  | true => exact hd rfl _ _ _ hw'
  | false =>
    obtain ⟨n, hn, hmem⟩ := hed
    cases hw'
    obtain ⟨h0, h1⟩ := getNode_isOk hn
    have hlt : s.toNat < g.length := by omega
    have hg := getNode_ok g s.toNat hlt
    rw [Int.toNat_of_nonneg h0] at hg
    have := hg.symm.trans hn
    cases this
    exact hw rfl s ed.dst ed.weight ⟨s.toNat, _, (Int.toNat_of_nonneg h0).symm, List.getElem?_eq_getElem hlt, ed, hmem, rfl, rfl⟩

/-- What the search did. -/
theorem search_spec (e : Env V C ε) (lazy limit : Bool) {g : Graph V C} (hv : ValidLinkage g) (hw : lazy = false → ∀ u v w, OutEdge g u v w → 0 ≤ w)
    (hd : lazy = true → ∀ a b w, e.dist a b = .ok w → 0 ≤ w) (si gi : List Int) (r : Except (Fail ε) (List Int × C))
    (hr : SearchRun graphOps e lazy limit g si gi r) :
    (∃ x, r = .error (.user x) ∧ SearchRaises e lazy g x) ∨
    ((∀ x, r ≠ .error (.user x)) ∧ ∀ valid dist, Extends e valid dist →
      ∃ r', r = ofRes r' ∧ Prm.SearchRun graphOps (e.total valid dist) lazy limit g si gi r') := by
  obtain ⟨h, hr⟩ := hr
  have hG : GraphLike g (graphOps.size g) (graphOps.get g) := graphLike_self hv
  by_cases hu : ∃ x, r = .error (.user x)
  · left
    obtain ⟨x, rfl⟩ := hu
    refine ⟨x, rfl, ?_⟩
    have hN := search_nonneg e lazy hw hd si gi
    obtain ⟨v1, v2, v3⟩ := CRU.GraphSearch.Callbacks.C114_values hG hN limit hr
    rcases CRU.GraphSearch.Callbacks.C114_lazy hG hN limit hr with ⟨h1, _⟩ | ⟨_, hH, hE, _⟩
    · cases h1
    · have hlast : ∃ pre ev, h = pre ++ [ev] ∧ ev.thrown = some x := by
        cases hE with
        | thrown he ht => exact ⟨_, _, he, ht⟩
        | noNode hc hx =>
          obtain ⟨i, _, _, hx⟩ := hx
          generalize CRU.GraphSearch.Callbacks.Task.get _ i = q at hx
          cases q <;> cases hx
      obtain ⟨pre, ev, rfl, ht⟩ := hlast
      have hR := hH pre ev [] rfl
      have ha := hR.answer
      cases ev with
      | goal i a => exact absurd ha.1 (by simp [CRU.GraphSearch.Callbacks.task2])
      | heur i a => exact absurd ha.1 (by simp [CRU.GraphSearch.Callbacks.task2])
      | heurTo i t a =>
        obtain ⟨n1, n2⟩ := v3 i t a (by simp)
        have ha := ha.2.2
        refine ⟨i, t, _, _, valueAt_has n1, valueAt_has n2, .inl ?_⟩
        cases lazy with
        | true =>
          subst ha
          exact thrown_eq ht
        | false =>
          subst ha
          exact thrown_eq ht
      | valid ed a =>
        obtain ⟨n1, n2⟩ := v1 ed a (by simp)
        cases lazy with
        | true =>
          obtain ⟨s, hed, _⟩ := hR.allowed
          obtain ⟨rfl, _⟩ := CRU.GraphSearch.Callbacks.edge_inRange hG rfl hed
          obtain ⟨n, hn, hmem⟩ := hed
          refine ⟨_, _, _, _, valueAt_has n1, valueAt_has n2, .inr ⟨rfl, ⟨ed.weight, ?_⟩, ?_⟩⟩
          · obtain ⟨h0, h1⟩ := getNode_isOk hn
            have hlt : ed.src.toNat < g.length := by omega
            have hg := getNode_ok g ed.src.toNat hlt
            rw [Int.toNat_of_nonneg h0] at hg
            have := hg.symm.trans hn
            cases this
            exact ⟨ed.src.toNat, _, (Int.toNat_of_nonneg h0).symm, List.getElem?_eq_getElem hlt, ed, hmem, rfl, rfl⟩
          · subst ha
            exact thrown_eqV ht
        | false =>
          subst ha
          cases ht
      | dist ed a =>
        obtain ⟨n1, n2⟩ := v2 ed a (by simp)
        cases lazy with
        | true =>
          refine ⟨_, _, _, _, valueAt_has n1, valueAt_has n2, .inl ?_⟩
          subst ha
          exact thrown_eqD ht
        | false =>
          subst ha
          cases ht
  · right
    refine ⟨fun x hx => hu ⟨x, hx⟩, fun valid dist hx => ?_⟩
    cases lazy with
    | true =>
      exact lazy_follows (fun _ i t a h => hx.2 _ _ _ h) (fun _ ed a h => hx.1 _ _ _ h) (fun _ ed a h => hx.2 _ _ _ h) hr (fun x hx => hu ⟨x, hx⟩)
    | false =>
      exact lazy_follows (fun _ i t a h => hx.2 _ _ _ h) (fun _ ed a h => by cases h; rfl) (fun _ ed a h => by cases h; rfl) hr (fun x hx => hu ⟨x, hx⟩)

/-- Roadmap edges added by a query do not have negative weights. -/
theorem added_nonneg {e : Env V C ε} (hsym : e.symmetric = true → ∀ a b, e.valid a b = e.valid b a ∧ e.dist a b = e.dist b a)
    {m1 m2 : Int} {starts goals : List V} {g g1 g2 : Graph V C} {si gi : List Int} (b1 : Added e .newToRoadmap m1 starts g g1 si)
    (d1 : Added e .roadmapToNew m2 goals g1 g2 gi) (hw : ∀ u v w, OutEdge g u v w → 0 ≤ w) : ∀ u v w, OutEdge g2 u v w → 0 ≤ w := by
  have hsymt : e.symmetric = true → SymmetricFns (tvalid e) (tdist e) := by
    intro h a b
    have := hsym h a b
    unfold tvalid tdist
    rw [this.1, this.2]
    exact ⟨rfl, rfl⟩
  intro u v w ho
  rcases (d1 _ _ (extends_t e) hsymt).edges u v w ho with ho | ⟨s, _, b, k, i, _, _, hc⟩
  · rcases (b1 _ _ (extends_t e) hsymt).edges u v w ho with ho | ⟨s, _, b, k, i, _, _, hc⟩
    · exact hw u v w ho
    · exact connectsAs_nonneg hc
  · exact connectsAs_nonneg hc

/-! ### Theorems -/

/-- C118, the queries that add nodes: first the starts are added, then the goals, then the roadmap is searched. Either a function throws while a start or
a goal is added, and the query throws its exception and leaves behind what was added before (`Stopped`); or one throws during the search, and the
query throws its exception and leaves the extended roadmap behind; or no function throws, and the query does what it does with any functions that always
return and have the same values: C67 says what that is. -/
theorem C118_query_and_add_nodes (e : Env V C ε) (hs : e.knn.Sound e.dist) (hK : 0 ≤ e.K) (hinf : e.infeasible < 0) (hth : InI64 e.threads)
    (hsym : e.symmetric = true → ∀ a b, e.valid a b = e.valid b a ∧ e.dist a b = e.dist b a) (lazy limit : Bool) (starts goals : List V)
    (hst : starts ≠ []) (hgo : goals ≠ []) (g : Graph V C) (hv : ValidLinkage g) (hw : ∀ u v w, OutEdge g u v w → 0 ≤ w)
    (hd : lazy = true → ∀ a b w, e.dist a b = .ok w → 0 ≤ w) (hI : InI64 (g.length + starts.length + goals.length)) (g' : Graph V C)
    (r : Res (Except ε (List V × C))) (hr : QueryRun graphOps e lazy limit starts goals g (g', r)) :
    (∃ x, r = .ok (.error x) ∧ Stopped e .newToRoadmap g.length starts g g' x) ∨
    ∃ (g1 : Graph V C) (si : List Int), Added e .newToRoadmap g.length starts g g1 si ∧
      ((∃ x, r = .ok (.error x) ∧ Stopped e .roadmapToNew g1.length goals g1 g' x) ∨
      ∃ gi : List Int, Added e .roadmapToNew g1.length goals g1 g' gi ∧ ValidLinkage g' ∧
        ((∃ x, r = .ok (.error x) ∧ SearchRaises e lazy g' x) ∨
        (∀ valid dist, Extends e valid dist → ∃ r', Prm.QueryRun graphOps (e.total valid dist) lazy limit starts goals g (g', r') ∧
          r = r' >>= fun a => .ok (.ok a)))) := by
  have stopped : ∀ {dir : Dir} {states : List V} {g g' : Graph V C} {x : ε}, ValidLinkage g → InI64 (g.length + states.length) →
      (∃ (pre : List V) (s : V) (post : List V) (is : List Int) (g1 : Graph V C), states = pre ++ s :: post ∧
        Same e dir g.length pre g g1 is ∧
        ((e.knn g1.length (getNode g1) s e.K dir g.length (.ok (.error x)) ∧ g' = g1) ∨
        ∃ l, e.knn g1.length (getNode g1) s e.K dir g.length (.ok (.ok l)) ∧ (e.addDuplicates = false → ∀ nb ∈ l, nb.dist ≠ 0) ∧
          (∃ nb ∈ l, ∃ b, HasValue g1 nb.index b ∧ Raises e s b x) ∧ g' = g1 ++ [⟨s, [], []⟩])) → Stopped e dir g.length states g g' x := by
    rintro dir states g g' x hv hI ⟨pre, s, post, is, g1, h1, h2, h3⟩
    refine ⟨pre, s, post, is, g1, h1, (h2.attached hs hK hinf hth (by omega) le_rfl ?_ hv).1, h3⟩
    subst h1
    simp only [List.length_append, List.length_cons, Nat.cast_add] at hI
    unfold InI64 at hI ⊢
    omega
  have hI1 : InI64 (g.length + starts.length) := by unfold InI64 at hI ⊢; omega
  have second : ∀ {n : Nat}, n ≤ g.length + starts.length → InI64 (n + goals.length) := by
    intro n hn
    unfold InI64 at hI ⊢
    omega
  have first := fun g1 o h => addAll_spec e hs hK hth .newToRoadmap g.length (by omega) starts g le_rfl hI1 g1 o h
  generalize hp : (g', r) = p at hr
  cases hr with
  | noStarts h => exact absurd h hst
  | noGoals _ h => exact absurd h hgo
  | startsFail _ _ h1 ho =>
    cases hp
    rcases first _ _ h1 with ⟨is, rfl, _⟩ | ⟨x, rfl, hx⟩
    · exact absurd rfl (ho is)
    · exact .inl ⟨x, rfl, stopped hv hI1 hx⟩
  | goalsFail _ _ h1 h2 ho =>
    cases hp
    rcases first _ _ h1 with ⟨is, hi, a1, a2, a3⟩ | ⟨x, hx, _⟩
    swap
    · cases hx
    cases hi
    obtain ⟨b1, b2⟩ := a1.attached hs hK hinf hth (by omega) le_rfl hI1 hv
    obtain ⟨b2, b3⟩ := b2 hsym
    have hI2 := second a2
    rcases addAll_spec e hs hK hth .roadmapToNew _ (by omega) goals _ le_rfl hI2 _ _ h2 with ⟨is, rfl, _⟩ | ⟨x, rfl, hx⟩
    · exact absurd rfl (ho is)
    · exact .inr ⟨_, _, b1, .inl ⟨x, rfl, stopped b2 hI2 hx⟩⟩
  | @searched g1 g2 si gi r0 _ _ h1 h2 hsr =>
    cases hp
    rcases first _ _ h1 with ⟨is, hi, a1, a2, a3⟩ | ⟨x, hx, _⟩
    swap
    · cases hx
    cases hi
    obtain ⟨b1, b2⟩ := a1.attached hs hK hinf hth (by omega) le_rfl hI1 hv
    obtain ⟨b2, b3⟩ := b2 hsym
    have hI2 := second a2
    rcases addAll_spec e hs hK hth .roadmapToNew _ (by omega) goals _ le_rfl hI2 _ _ h2 with ⟨is, hi, c1, c2, c3⟩ | ⟨x, hx, _⟩
    swap
    · cases hx
    cases hi
    obtain ⟨d1, d2⟩ := c1.attached hs hK hinf hth (by omega) le_rfl hI2 b2
    obtain ⟨d2, d3⟩ := d2 hsym
    have hw2 := added_nonneg hsym b1 d1 hw
    refine .inr ⟨g1, si, b1, .inr ⟨gi, d1, d2, ?_⟩⟩
    rcases search_spec e lazy limit d2 (fun _ => hw2) hd si gi r0 hsr with ⟨x, rfl, hx⟩ | ⟨_, hall⟩
    · exact .inl ⟨x, rfl, hx⟩
    · right
      intro valid dist hx
      obtain ⟨r', rfl, hrun⟩ := hall valid dist hx
      refine ⟨_, Prm.QueryRun.searched hst hgo (a1 valid dist hx) (c1 valid dist hx) hrun, ?_⟩
      match r' with
      | .ok sol =>
        show (do
          let p ← extractSolution graphOps g' sol
          pure (Except.ok p)) = _
        rw [Res.ok_bind]
        cases extractSolution graphOps g' sol <;> rfl
      | .throw x => rfl
      | .ub => rfl

/-! ### Answers -/

/-- The state stands for one of the given states: it is one of them, or (if duplicates are not added) at distance zero. -/
def Stands (e : Env V C ε) (dir : Dir) (states : List V) (x : V) : Prop :=
  x ∈ states ∨ (e.addDuplicates = false ∧ ∃ s ∈ states, dirDist e.dist dir x s = .ok 0)

omit [LinearOrder C] [OrderTop C] [CostLaws C] [Inhabited V] in
theorem pathLength_congr {d d' : V → V → C} {l : List V} (h : l.IsChain fun a b => d a b = d' a b) : pathLength d l = pathLength d' l := by
  induction l using List.reverseRecOn with
  | nil => rfl
  | append_singleton l b ih =>
    rcases List.eq_nil_or_concat l with rfl | ⟨l, a, rfl⟩
    · rfl
    · rw [List.concat_eq_append] at h ih ⊢
      rw [List.isChain_append] at h
      rw [pathLength_snoc, pathLength_snoc, ih h.1, h.2.2 a (by simp) b (by simp)]

omit [LinearOrder C] [Zero C] [Add C] [OrderTop C] [CostLaws C] [Inhabited V] in
theorem chain_both {P Q R : V → V → Prop} {l : List V} (h : l.IsChain P) (h' : l.IsChain Q) (hR : ∀ a b, P a b → Q a b → R a b) : l.IsChain R := by
  induction l with
  | nil => exact .nil
  | cons a l ih =>
    cases l with
    | nil => exact .singleton _
    | cons b l =>
      rw [List.isChain_cons_cons] at h h' ⊢
      exact ⟨hR _ _ h.1 h'.1, ih h.2 h'.2⟩

omit [Inhabited V] in
theorem pathLength_finite {d : V → V → C} (hd : ∀ a b, 0 ≤ d a b) {l : List V} :
    0 ≤ pathLength d l ∧ (pathLength d l ≠ ⊤ → l.IsChain fun a b => d a b ≠ ⊤) := by
  induction l using List.reverseRecOn with
  | nil => exact ⟨le_rfl, fun _ => .nil⟩
  | append_singleton l b ih =>
    rcases List.eq_nil_or_concat l with rfl | ⟨l, a, rfl⟩
    · exact ⟨le_rfl, fun _ => .singleton _⟩
    · rw [List.concat_eq_append] at ih ⊢
      rw [pathLength_snoc]
      obtain ⟨h1, h2⟩ := ih
      have hle := CostLaws.le_add (pathLength d (l ++ [a])) (d a b) (hd a b)
      refine ⟨h1.trans hle, fun hne => ?_⟩
      rw [List.isChain_append]
      refine ⟨h2 fun htop => hne (top_le_iff.mp (by rw [htop] at hle ⊢; exact hle)), .singleton _, ?_⟩
      intro x hx y hy htop
      rw [List.getLast?_append, List.getLast?_singleton] at hx
      simp at hx hy
      subst hx; subst hy
      apply hne
      have := CostLaws.add_le_add_right _ _ (d a b) h1
      rw [CostLaws.zero_add, htop] at this
      rw [htop]
      exact top_le_iff.mp this

/-- C118, answers: if `QueryPath` or `LazyQueryPath` returns, then with no states and infinite cost, or with the states of a path that begins with a
state that stands for a start and ends with one that stands for a goal. The check has returned that each of its edges is valid, the distance function
has returned for each, and these distances sum up to at most the cost. (As in C67, `QueryPath` needs symmetric functions and a roadmap whose edges
were checked.) -/
theorem C118_answer (e : Env V C ε) (hs : e.knn.Sound e.dist) (hK : 0 ≤ e.K) (hinf : e.infeasible < 0) (hth : InI64 e.threads)
    (h0 : (0 : C) ≠ ⊤) (hsym : e.symmetric = true → ∀ a b, e.valid a b = e.valid b a ∧ e.dist a b = e.dist b a) (lazy limit : Bool)
    (starts goals : List V) (hst : starts ≠ []) (hgo : goals ≠ []) (g : Graph V C) (hv : ValidLinkage g)
    (hw : ∀ u v w, OutEdge g u v w → 0 ≤ w) (hd : ∀ a b w, e.dist a b = .ok w → 0 ≤ w)
    (hI : InI64 (g.length + starts.length + goals.length))
    (hc : lazy = false → (∀ a b, e.valid a b = e.valid b a ∧ e.dist a b = e.dist b a) ∧
      ∀ u v w, FiniteEdge g u v w → ∃ a b, HasValue g u a ∧ HasValue g v b ∧ e.valid a b = .ok true ∧ e.dist a b = .ok w)
    (useOverlay : Bool) (g' : Graph V C) (vals : List V) (cost : C)
    (hr : QueryPathRun e lazy limit starts goals g useOverlay (g', .ok (.ok (vals, cost)))) :
    (vals = [] ↔ cost = ⊤) ∧
    (vals ≠ [] → (∃ s, vals.head? = some s ∧ Stands e .newToRoadmap starts s) ∧
      (∃ t, vals.getLast? = some t ∧ Stands e .roadmapToNew goals t) ∧
      vals.IsChain (fun a b => e.valid a b = .ok true ∧ ∃ w, e.dist a b = .ok w) ∧
      ∀ dist : V → V → C, (∀ a b w, e.dist a b = .ok w → dist a b = w) → pathLength dist vals ≤ cost) := by
  obtain ⟨_, g2, r', hq, hag⟩ := C118_caller_roadmap e lazy limit starts goals g g' useOverlay _ hr
  cases hag.of_ok
  let d0 : V → V → C := fun a b => match e.dist a b with | .ok c => c | .error _ => ⊤
  have hd0 : ∀ a b c, d0 a b = c → c ≠ ⊤ → e.dist a b = .ok c := by
    intro a b c h hne
    simp only [d0] at h
    cases hab : e.dist a b with
    | ok v => rw [hab] at h; rw [← h]
    | error x => rw [hab] at h; exact absurd h.symm hne
  have hx : Extends e (tvalid e) d0 := ⟨(extends_t e).1, fun a b c h => by simp only [d0, h]⟩
  have hsy : ∀ a b, (e.valid a b = e.valid b a ∧ e.dist a b = e.dist b a) → tvalid e a b = tvalid e b a ∧ d0 a b = d0 b a := by
    intro a b h
    simp only [tvalid, d0, h.1, h.2, and_self]
  have hnn : ∀ a b, 0 ≤ d0 a b := by
    intro a b
    simp only [d0]
    cases hab : e.dist a b with
    | ok v => exact hd a b v hab
    | error x => exact le_top
  have hrun : Prm.QueryRun graphOps (e.total (tvalid e) d0) lazy limit starts goals g (g2, .ok (vals, cost)) := by
    rcases C118_query_and_add_nodes e hs hK hinf hth hsym lazy limit starts goals hst hgo g hv hw (fun _ => hd) hI g2 _ hq with
      ⟨x, h, _⟩ | ⟨g1, si, _, ⟨x, h, _⟩ | ⟨gi, _, _, ⟨x, h, _⟩ | h⟩⟩
    · cases h
    · cases h
    · cases h
    · obtain ⟨r', h1, h2⟩ := h (tvalid e) d0 hx
      cases r' with
      | ok v => cases h2; exact h1
      | throw x => cases h2
      | ub => cases h2
  obtain ⟨k1, k2⟩ := C67_answer_partial (e.total (tvalid e) d0) (sound_ext hs hx) hK hinf hth (fun h a b => hsy a b (hsym h a b)) lazy limit starts
    goals hst hgo g hv hw (fun _ => hnn) hI (fun hl => ⟨fun a b => hsy a b ((hc hl).1 a b), fun u v w hf => by
      obtain ⟨a, b, a1, a2, a3, a4⟩ := (hc hl).2 u v w hf
      exact ⟨a, b, a1, a2, by show tvalid e a b = true; unfold tvalid; rw [a3], (hx.2 _ _ _ a4).symm⟩⟩) false g vals cost (.copy hrun)
  refine ⟨k1, fun hne => ?_⟩
  obtain ⟨⟨s, s1, s2⟩, ⟨t, t1, t2⟩, hch, hle⟩ := k2 hne
  have stands : ∀ {dir : Dir} {states : List V} {x : V}, StandsFor (e.total (tvalid e) d0) dir states x → Stands e dir states x := by
    rintro dir states x (h | ⟨h1, s, h2, h3⟩)
    · exact .inl h
    · refine .inr ⟨h1, s, h2, ?_⟩
      cases dir
      · exact hd0 _ _ _ h3 h0
      · exact hd0 _ _ _ h3 h0
  have hfin : vals.IsChain fun a b => d0 a b ≠ ⊤ := by
    refine (pathLength_finite hnn).2 fun htop => hne (k1.mpr (top_le_iff.mp ?_))
    rw [← htop]
    exact hle
  have hret : vals.IsChain fun a b => ∃ w, e.dist a b = .ok w := hfin.imp fun a b h => ⟨_, hd0 a b _ rfl h⟩
  refine ⟨⟨s, s1, stands s2⟩, ⟨t, t1, stands t2⟩, ?_, fun dist hdist => ?_⟩
  · refine chain_both hch hret (fun a b (h1 : tvalid e a b = true) h2 => ⟨?_, h2⟩)
    unfold tvalid at h1
    cases hab : e.valid a b with
    | ok c => rw [hab] at h1; simp at h1; rw [h1]
    | error x => rw [hab] at h1; cases h1
  · rw [pathLength_congr (d' := d0) (hret.imp fun a b ⟨w, h⟩ => by rw [hdist a b w h]; exact (hx.2 a b w h).symm)]
    exact hle

/-- C118: no start or no goal is an error, and none of the functions is called. -/
theorem C118_empty (e : Env V C ε) (lazy limit : Bool) (starts goals : List V) (g : Graph V C) (useOverlay : Bool)
    (hemp : starts = [] ∨ goals = []) (g' : Graph V C) (r : Res (Except ε (List V × C)))
    (hr : QueryPathRun e lazy limit starts goals g useOverlay (g', r)) : r = .throw .runtimeError := by
  have key : ∀ {G : Type} (ops : GraphOps G V C) (x : G) p, QueryRun ops e lazy limit starts goals x p → p.2 = .throw .runtimeError := by
    intro G ops x p h
    cases h with
    | noStarts => rfl
    | noGoals => rfl
    | startsFail h h' => rcases hemp with q | q; exacts [absurd q h, absurd q h']
    | goalsFail h h' => rcases hemp with q | q; exacts [absurd q h, absurd q h']
    | searched h h' => rcases hemp with q | q; exacts [absurd q h, absurd q h']
  generalize hp : (g', r) = p at hr
  cases hr with
  | overlay h => cases hp; exact key _ _ _ h
  | copy h => cases hp; exact key _ _ _ h

/-! ### Queries end -/

omit [Add C] [OrderTop C] [CostLaws C] [Inhabited V] in
theorem addNode_exists (e : Env V C ε) (hs : e.knn.Sound e.dist) (hk : ∀ size get state K dir maxNode, ∃ r, e.knn size get state K dir maxNode r)
    (hK : 0 ≤ e.K) (hth : InI64 e.threads) (state : V) (dir : Dir) (maxNode : Int) (g : Graph V C) (h0 : 0 ≤ maxNode)
    (h1 : maxNode ≤ g.length) (hsz : InI64 g.length) : ∃ r, AddNodeRun graphOps e state dir maxNode g r := by
  obtain ⟨r0, hr0⟩ := hk g.length (getNode g) state e.K dir maxNode
  have hq : KnnQuery e.knn (graphOps.size g) (graphOps.get g) state e.K dir maxNode _ := ⟨r0, hr0, rfl⟩
  generalize (r0 >>= _) = r at hq
  rcases query_spec hs hK h0 h1 hsz hq with ⟨x, rfl, _⟩ | ⟨l, rfl, _, hl, _⟩
  · exact ⟨_, .knnRaises hq⟩
  · by_cases hd : e.addDuplicates = false ∧ ∃ d, firstDuplicate l = some d
    · obtain ⟨hd, d, hf⟩ := hd
      exact ⟨_, .duplicate hq hd hf⟩
    · obtain ⟨order, ws, tr, hw, _, _⟩ := IndexRun.exists e.backend e.threads 0 l.length (by unfold InI64; omega) hl hth (by simpa using hl) (by omega)
      obtain ⟨o, ho⟩ := bodyRun_exists e.backend.isOmp (itemBody graphOps e dir state l (graphOps.addValue g state).1) ws
        (fun tr => CRU.Knn.Throw.assignAll tr (List.replicate l.length (0, 0)))
      refine ⟨_, .added hq ?_ hw List.length_replicate ho⟩
      by_cases hd' : e.addDuplicates = true
      · exact Or.inl hd'
      · right
        cases hf : firstDuplicate l with
        | none => rfl
        | some d => exact absurd ⟨by simpa using hd', d, hf⟩ hd

omit [Add C] [OrderTop C] [CostLaws C] [Inhabited V] in
theorem addAll_exists (e : Env V C ε) (hs : e.knn.Sound e.dist) (hk : ∀ size get state K dir maxNode, ∃ r, e.knn size get state K dir maxNode r)
    (hK : 0 ≤ e.K) (hth : InI64 e.threads) (dir : Dir) (maxNode : Int) (h0 : 0 ≤ maxNode) (states : List V)
    (g : Graph V C) (h1 : maxNode ≤ g.length) (hsz : InI64 (g.length + states.length)) :
    ∃ g' r, AddAllRun graphOps e dir maxNode states g (g', r) := by
  induction states generalizing g with
  | nil => exact ⟨g, _, .nil⟩
  | cons s states ih =>
    have hcast : ((s :: states).length : Int) = states.length + 1 := by simp
    rw [hcast] at hsz
    obtain ⟨⟨g1, r⟩, hr⟩ := addNode_exists e hs hk hK hth s dir maxNode g h0 h1 (by unfold InI64 at hsz ⊢; omega)
    have hl := add_length hr
    have hl' := add_length_le hr
    dsimp only at hl hl'
    match r with
    | .throw x => exact ⟨_, _, .throws hr⟩
    | .ub => exact ⟨_, _, .ub hr⟩
    | .ok (.error x) => exact ⟨_, _, .raises hr⟩
    | .ok (.ok i) =>
      obtain ⟨g', r', h'⟩ := ih g1 (by omega) (by unfold InI64 at hsz ⊢; omega)
      by_cases ho : ∃ is, r' = .ok (.ok is)
      · obtain ⟨is, rfl⟩ := ho
        exact ⟨_, _, .next hr h'⟩
      · exact ⟨_, _, .later hr h' fun is hi => ho ⟨is, hi⟩⟩

/-- C118: queries end, whatever the functions throw: the four queries have a result. (That each run ends is part of C08, C40, C104 and C114.) -/
theorem C118_ends (e : Env V C ε) (hs : e.knn.Sound e.dist) (hk : ∀ size get state K dir maxNode, ∃ r, e.knn size get state K dir maxNode r)
    (hK : 0 ≤ e.K) (hinf : e.infeasible < 0) (hth : InI64 e.threads)
    (hsym : e.symmetric = true → ∀ a b, e.valid a b = e.valid b a ∧ e.dist a b = e.dist b a) (lazy limit : Bool) (starts goals : List V)
    (g : Graph V C) (hv : ValidLinkage g) (hw : ∀ u v w, OutEdge g u v w → 0 ≤ w)
    (hd : lazy = true → ∀ a b w, e.dist a b = .ok w → 0 ≤ w) (hI : InI64 (g.length + starts.length + goals.length)) :
    (∃ g' r, QueryRun graphOps e lazy limit starts goals g (g', r)) ∧ ∀ useOverlay, ∃ r, QueryPathRun e lazy limit starts goals g useOverlay (g, r) := by
  have key : ∃ g' r, QueryRun graphOps e lazy limit starts goals g (g', r) := by
    by_cases hst : starts = []
    · exact ⟨_, _, .noStarts hst⟩
    by_cases hgo : goals = []
    · exact ⟨_, _, .noGoals hst hgo⟩
    have hI1 : InI64 (g.length + starts.length) := by unfold InI64 at hI ⊢; omega
    obtain ⟨g1, r1, hr1⟩ := addAll_exists e hs hk hK hth .newToRoadmap g.length (by omega) starts g le_rfl hI1
    rcases addAll_spec e hs hK hth .newToRoadmap g.length (by omega) starts g le_rfl hI1 g1 r1 hr1 with ⟨si, rfl, a1, a2, a3⟩ | ⟨x, rfl, _⟩
    swap
    · exact ⟨_, _, .startsFail hst hgo hr1 (by simp)⟩
    obtain ⟨b1, b2⟩ := a1.attached hs hK hinf hth (by omega) le_rfl hI1 hv
    obtain ⟨b2, b3⟩ := b2 hsym
    have hI2 : InI64 (g1.length + goals.length) := by unfold InI64 at hI ⊢; omega
    obtain ⟨g2, r2, hr2⟩ := addAll_exists e hs hk hK hth .roadmapToNew g1.length (by omega) goals g1 le_rfl hI2
    rcases addAll_spec e hs hK hth .roadmapToNew g1.length (by omega) goals g1 le_rfl hI2 g2 r2 hr2 with ⟨gi, rfl, c1, c2, c3⟩ | ⟨x, rfl, _⟩
    swap
    · exact ⟨_, _, .goalsFail hst hgo hr1 hr2 (by simp)⟩
    obtain ⟨d1, d2⟩ := c1.attached hs hK hinf hth (by omega) le_rfl hI2 b2
    obtain ⟨d2, d3⟩ := d2 hsym
    obtain ⟨r, h, hr⟩ := (CRU.GraphSearch.Callbacks.C114_lazy_ends (graphLike_self d2)
      (search_nonneg e lazy (fun _ => added_nonneg hsym b1 d1 hw) hd si gi) limit).1
    exact ⟨_, _, .searched hst hgo hr1 hr2 ⟨h, hr⟩⟩
  refine ⟨key, fun useOverlay => ?_⟩
  obtain ⟨g', r, hr⟩ := key
  cases useOverlay with
  | false => exact ⟨r, .copy hr⟩
  | true =>
    obtain ⟨r', hr', _⟩ := C118_overlay_agrees e lazy limit starts goals g false r (.copy hr)
    exact ⟨r', hr'⟩

/-! ### Concrete cases -/

namespace QueryDemo

/-- The distance function throws for the state 9, the check for edges that touch 5. -/
def dist (a b : Int) : Except String (WithTop Int) := if a = 9 ∨ b = 9 then .error "meter" else .ok ((|a - b| : Int) : WithTop Int)

def env : Env Int (WithTop Int) String where
  knn := linearProvider psSort .async 1 dist
  dist := dist
  valid a b := if a = 5 ∨ b = 5 then .error "checker" else .ok true
  infeasible := ((-1 : Int) : WithTop Int)
  K := 2
  backend := .async
  threads := 1
  symmetric := true
  addDuplicates := false

theorem env_sound : env.knn.Sound env.dist :=
  (C108_linear_provider psSort psSort_lawful .async 1 (by decide) (by decide) (fun _ _ h => h) (fun _ _ _ _ h => h) _).1

theorem env_sym (_ : env.symmetric = true) (a b : Int) : env.valid a b = env.valid b a ∧ env.dist a b = env.dist b a := by
  constructor
  · show (if a = 5 ∨ b = 5 then _ else _) = if b = 5 ∨ a = 5 then _ else _
    simp only [or_comm]
  · show dist a b = dist b a
    unfold dist
    rw [abs_sub_comm]
    simp only [or_comm]

theorem env_nonneg (a b : Int) (w : WithTop Int) (h : env.dist a b = .ok w) : 0 ≤ w := by
  have h : dist a b = .ok w := h
  unfold dist at h
  split at h
  · cases h
  · cases h; exact WithTop.coe_le_coe.mpr (abs_nonneg (a - b))

theorem env_inf : env.infeasible < 0 := WithTop.coe_lt_coe.mpr (by omega)

theorem env_total (size : Int) (get : Int → Res (Node Int (WithTop Int))) (state : Int) (K : Int) (dir : Dir) (maxNode : Int) :
    ∃ r, env.knn size get state K dir maxNode r := by
  show ∃ r, linearProvider psSort .async 1 dist size get state K dir maxNode r
  unfold linearProvider
  split
  · rename_i items _
    unfold CRU.Knn.Throw.KnnRun
    exact ⟨_, by rw [if_neg (by decide : ¬ (1 : Int) > 1)]⟩
  · exact ⟨_, rfl⟩
  · exact ⟨_, rfl⟩

/-- Queries on the roadmap with the single node 0 end, whatever the states are. -/
example (lazy limit useOverlay : Bool) (s t : Int) : ∃ r, QueryPathRun env lazy limit [s] [t] oneNode useOverlay (oneNode, r) :=
  (C118_ends env env_sound env_total (by decide) env_inf (by decide) env_sym lazy limit [s] [t] oneNode oneNode_valid
    (fun u v w h => absurd h (oneNode_edge u v w)) (fun _ => env_nonneg)
    (by show InI64 3; decide)).2 useOverlay

theorem query_five : KnnQuery env.knn (graphOps.size oneNode) (graphOps.get oneNode) 5 2 .newToRoadmap 1
    (.ok (.ok [⟨0, ((5 : Int) : WithTop Int)⟩])) := by
  refine ⟨.ok (.ok [⟨0, ((5 : Int) : WithTop Int)⟩]), ?_, rfl⟩
  show CRU.Knn.Throw.KnnRun psSort .async 1 oneNode _ 0 1 2 _
  unfold CRU.Knn.Throw.KnnRun
  rw [if_neg (by omega)]
  rfl

theorem query_zero (dir : Dir) : KnnQuery env.knn (graphOps.size oneNode) (graphOps.get oneNode) 0 2 dir 1
    (.ok (.ok [⟨0, ((0 : Int) : WithTop Int)⟩])) := by
  refine ⟨.ok (.ok [⟨0, ((0 : Int) : WithTop Int)⟩]), ?_, rfl⟩
  show CRU.Knn.Throw.KnnRun psSort .async 1 oneNode _ 0 1 2 _
  unfold CRU.Knn.Throw.KnnRun
  rw [if_neg (by omega)]
  cases dir <;> rfl

theorem query_nine : KnnQuery env.knn (graphOps.size oneNode) (graphOps.get oneNode) 9 2 .roadmapToNew 1 (.ok (.error "meter")) := by
  refine ⟨.ok (.error "meter"), ?_, rfl⟩
  show CRU.Knn.Throw.KnnRun psSort .async 1 oneNode _ 0 1 2 _
  unfold CRU.Knn.Throw.KnnRun
  rw [if_neg (by omega)]
  rfl

/-- From 5: the check throws when the start is added; 5 is left in the roadmap without edges. -/
theorem from_five : QueryRun graphOps env false false [5] [0] oneNode (oneNode ++ [⟨5, [], []⟩], .ok (.error "checker")) := by
  have h := AddNodeRun.added (ops := graphOps) (e := env) (state := 5) (dir := .newToRoadmap) (maxNode := 1) (g := oneNode)
    (ws := [[⟨0, 0⟩]]) (init := [(0, 0)]) (o := .ok (.error "checker")) query_five (.inr rfl) rfl rfl
    (.inl ⟨[([], some "checker")], [], some "checker", rfl, ⟨.done (by simp), rfl⟩, rfl⟩)
  exact .startsFail (o := .ok (.error "checker")) (by simp) (by simp) (.raises h) (by simp)

/-- To 9: the distance function throws when the neighbours of the goal are looked for; the start 0 is in the roadmap already. -/
theorem to_nine : QueryRun graphOps env true true [0] [9] oneNode (oneNode, .ok (.error "meter")) := by
  have h : AddAllRun graphOps env .newToRoadmap 1 [0] oneNode (oneNode, .ok (.ok [0])) :=
    .next (.duplicate (d := ⟨0, ((0 : Int) : WithTop Int)⟩) (query_zero .newToRoadmap) rfl rfl) .nil
  exact .goalsFail (o := .ok (.error "meter")) (by simp) (by simp) h (.raises (.knnRaises query_nine)) (by simp)

/-- From 0 to 0. -/
theorem stay : QueryRun graphOps env true false [0] [0] oneNode (oneNode, .ok (.ok ([0], 0))) := by
  have h : ∀ dir, AddAllRun graphOps env dir 1 [0] oneNode (oneNode, .ok (.ok [0])) := fun dir =>
    .next (.duplicate (d := ⟨0, ((0 : Int) : WithTop Int)⟩) (query_zero dir) rfl rfl) .nil
  refine .searched (r := .ok ([0], 0)) (by simp) (by simp) (h _) (h _) ⟨[], .run rfl ?_⟩
  exact AstarRun.early (C := WithTop Int) (s := ((0 : Int), (0 : WithTop Int))) (List.cons_ne_nil _ _) rfl (by decide)

/-- A roadmap with an edge between 0 and 5. -/
def twoNodes : Graph Int (WithTop Int) :=
  [⟨0, [⟨1, 0, ((5 : Int) : WithTop Int), 0⟩], [⟨0, 1, ((5 : Int) : WithTop Int), 0⟩]⟩,
   ⟨5, [⟨0, 1, ((5 : Int) : WithTop Int), 0⟩], [⟨1, 0, ((5 : Int) : WithTop Int), 0⟩]⟩]

theorem twoNodes_valid : ValidLinkage twoNodes := by
  intro i n h
  match i with
  | 0 =>
    cases h
    simp only [List.mem_singleton, forall_eq]
    exact ⟨⟨rfl, 1, _, rfl, by decide, rfl, _, List.mem_singleton_self _, rfl⟩, rfl, 1, _, rfl, by decide, rfl, _, List.mem_singleton_self _, rfl⟩
  | 1 =>
    cases h
    simp only [List.mem_singleton, forall_eq]
    exact ⟨⟨rfl, 0, _, rfl, by decide, rfl, _, List.mem_singleton_self _, rfl⟩, rfl, 0, _, rfl, by decide, rfl, _, List.mem_singleton_self _, rfl⟩
  | i + 2 => simp [twoNodes] at h

theorem twoNodes_nonneg (u v : Int) (w : WithTop Int) (h : OutEdge twoNodes u v w) : 0 ≤ w := by
  obtain ⟨i, n, _, h, ed, he, _, rfl⟩ := h
  have h5 : (0 : WithTop Int) ≤ ((5 : Int) : WithTop Int) := WithTop.coe_le_coe.mpr (by omega)
  match i with
  | 0 => cases h; simp at he; rw [he]; exact h5
  | 1 => cases h; simp at he; rw [he]; exact h5
  | i + 2 => simp [twoNodes] at h

/-- From 0 to 5: both are in the roadmap already; the lazy search checks the edge between them, and the check throws. -/
theorem search_throws : QueryRun graphOps env true false [0] [5] twoNodes (twoNodes, .ok (.error "checker")) := by
  have q0 : KnnQuery env.knn (graphOps.size twoNodes) (graphOps.get twoNodes) 0 2 .newToRoadmap 2
      (.ok (.ok [⟨0, ((0 : Int) : WithTop Int)⟩, ⟨1, ((5 : Int) : WithTop Int)⟩])) := by
    refine ⟨.ok (.ok [⟨0, ((0 : Int) : WithTop Int)⟩, ⟨1, ((5 : Int) : WithTop Int)⟩]), ?_, rfl⟩
    show CRU.Knn.Throw.KnnRun psSort .async 1 twoNodes _ 0 2 2 _
    unfold CRU.Knn.Throw.KnnRun
    rw [if_neg (by omega)]
    rfl
  have q5 : KnnQuery env.knn (graphOps.size twoNodes) (graphOps.get twoNodes) 5 2 .roadmapToNew 2
      (.ok (.ok [⟨0, ((5 : Int) : WithTop Int)⟩, ⟨1, ((0 : Int) : WithTop Int)⟩])) := by
    refine ⟨.ok (.ok [⟨0, ((5 : Int) : WithTop Int)⟩, ⟨1, ((0 : Int) : WithTop Int)⟩]), ?_, rfl⟩
    show CRU.Knn.Throw.KnnRun psSort .async 1 twoNodes _ 0 2 2 _
    unfold CRU.Knn.Throw.KnnRun
    rw [if_neg (by omega)]
    rfl
  have h0 : AddAllRun graphOps env .newToRoadmap 2 [0] twoNodes (twoNodes, .ok (.ok [0])) :=
    .next (.duplicate (d := ⟨0, ((0 : Int) : WithTop Int)⟩) q0 rfl rfl) .nil
  have h5 : AddAllRun graphOps env .roadmapToNew 2 [5] twoNodes (twoNodes, .ok (.ok [1])) :=
    .next (.duplicate (d := ⟨1, ((0 : Int) : WithTop Int)⟩) q5 rfl rfl) .nil
  refine .searched (r := .error (.user "checker")) (by simp) (by simp) h0 h5
    ⟨[.heurTo 0 1 (.ok ((5 : Int) : WithTop Int)), .valid ⟨0, 1, ((5 : Int) : WithTop Int), 0⟩ (.error "checker")], .run rfl ?_⟩
  refine .search (by simp) rfl (by simp [CRU.GraphSearch.Callbacks.noEarly]) rfl (.refl _) ?_
  exact .edgesThrow (top := ⟨0, none, 0, ((5 : Int) : WithTop Int)⟩) (rest := []) ⟨List.Perm.refl _, by simp⟩ rfl rfl rfl

/-- The runs above meet the hypotheses of the theorems. -/
example := C118_query_and_add_nodes env env_sound (by decide) env_inf (by decide) env_sym false false [5] [0] (by simp) (by simp) oneNode oneNode_valid
  (fun u v w h => absurd h (oneNode_edge u v w)) (fun _ => env_nonneg) (by decide) _ _ from_five
example := C118_query_and_add_nodes env env_sound (by decide) env_inf (by decide) env_sym true true [0] [9] (by simp) (by simp) oneNode oneNode_valid
  (fun u v w h => absurd h (oneNode_edge u v w)) (fun _ => env_nonneg) (by decide) _ _ to_nine
example := C118_query_and_add_nodes env env_sound (by decide) env_inf (by decide) env_sym true false [0] [0] (by simp) (by simp) oneNode oneNode_valid
  (fun u v w h => absurd h (oneNode_edge u v w)) (fun _ => env_nonneg) (by decide) _ _ stay
example := C118_answer env env_sound (by decide) env_inf (by decide) (by simp) env_sym true false [0] [0] (by simp) (by simp) oneNode oneNode_valid
  (fun u v w h => absurd h (oneNode_edge u v w)) env_nonneg (by decide) (by simp) false oneNode [0] 0 (.copy stay)
example := C118_caller_roadmap env false false [5] [0] oneNode oneNode false _ (.copy from_five)
example := C118_overlay_agrees env false false [5] [0] oneNode false _ (.copy from_five)

example := C118_query_and_add_nodes env env_sound (by decide) env_inf (by decide) env_sym true false [0] [5] (by simp) (by simp) twoNodes twoNodes_valid
  twoNodes_nonneg (fun _ => env_nonneg) (by decide) _ _ search_throws

end QueryDemo
end CRU.Prm.Throw
