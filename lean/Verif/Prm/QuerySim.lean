import Verif.Prm.QueryModel
import Verif.Graph.OverlayLemmas
/-
  A query on an overlay does what it does on the graph itself.
-/
namespace CRU.Prm
open CRU.Graph CRU.Knn CRU.Parallel CRU.GraphSearch

variable {V C : Type} [LinearOrder C] [Zero C]

theorem rel_ops {o : Overlay V C} {g : Graph V C} (h : Rel o g) : overlayOps.size o = graphOps.size g ∧ overlayOps.get o = graphOps.get g :=
  ⟨h.size, funext h.get⟩

/-- Equal outcomes, or exceptions on both sides (an overlay and a graph throw different types for a bad index). -/
def Agree {α : Type} (r r' : Res α) : Prop := r = r' ∨ ((∃ x, r = .throw x) ∧ ∃ x, r' = .throw x)

omit [LinearOrder C] [Zero C] in
theorem addEdge_sim {o : Overlay V C} {g : Graph V C} (h : Rel o g) (s d : Int) (w : C) :
    Rel (overlayOps.addEdge o s d w).1 (graphOps.addEdge g s d w).1 ∧ (overlayOps.addEdge o s d w).1.base = o.base ∧
      Agree (overlayOps.addEdge o s d w).2 (graphOps.addEdge g s d w).2 := by
  obtain ⟨h1, h2, h3⟩ := h.addEdge s d w
  refine ⟨h1, h2, ?_⟩
  rcases h3 with ⟨h4, h5⟩ | ⟨x, y, h4, h5⟩
  · exact Or.inl (h4.trans h5.symm)
  · exact Or.inr ⟨⟨x, h4⟩, ⟨y, h5⟩⟩

theorem addEdgesLoop_sim (newIdx : Int) (l : List (Entry C × (C × C))) {o : Overlay V C} {g : Graph V C} (h : Rel o g) :
    Rel (addEdgesLoop overlayOps newIdx l o).1 (addEdgesLoop graphOps newIdx l g).1 ∧
      (addEdgesLoop overlayOps newIdx l o).1.base = o.base ∧
      Agree (addEdgesLoop overlayOps newIdx l o).2 (addEdgesLoop graphOps newIdx l g).2 := by
  induction l generalizing o g with
  | nil => exact ⟨h, rfl, Or.inl rfl⟩
  | cons p l ih =>
    obtain ⟨en, d1, d2⟩ := p
    have step : ∀ (c : Prop) [Decidable c] (s d : Int) (w : C) {o : Overlay V C} {g : Graph V C}, Rel o g →
        Rel (if c then overlayOps.addEdge o s d w else (o, .ok ())).1 (if c then graphOps.addEdge g s d w else (g, .ok ())).1 ∧
        (if c then overlayOps.addEdge o s d w else (o, .ok ())).1.base = o.base ∧
        Agree (if c then overlayOps.addEdge o s d w else (o, .ok ())).2 (if c then graphOps.addEdge g s d w else (g, .ok ())).2 := by
      intro c _ s d w o g h
      split
      · exact addEdge_sim h s d w
      · exact ⟨h, rfl, Or.inl rfl⟩
    obtain ⟨a1, a2, a3⟩ := step (0 ≤ d1) en.index newIdx d1 h
    unfold addEdgesLoop
    dsimp only
    generalize (if 0 ≤ d1 then overlayOps.addEdge o en.index newIdx d1 else (o, .ok ())) = x at a1 a2 a3 ⊢
    generalize (if 0 ≤ d1 then graphOps.addEdge g en.index newIdx d1 else (g, .ok ())) = y at a1 a2 a3 ⊢
    obtain ⟨o1, r1⟩ := x
    obtain ⟨g1, r1'⟩ := y
    dsimp only at a1 a2 a3
    rcases a3 with a3 | ⟨⟨x, rfl⟩, ⟨y, rfl⟩⟩
    swap
    · exact ⟨a1, a2, Or.inr ⟨⟨x, rfl⟩, ⟨y, rfl⟩⟩⟩
    subst a3
    cases r1 with
    | throw x => exact ⟨a1, a2, Or.inl rfl⟩
    | ub => exact ⟨a1, a2, Or.inl rfl⟩
    | ok u =>
      dsimp only
      obtain ⟨b1, b2, b3⟩ := step (0 ≤ d2) newIdx en.index d2 a1
      generalize (if 0 ≤ d2 then overlayOps.addEdge o1 newIdx en.index d2 else (o1, .ok ())) = x at b1 b2 b3 ⊢
      generalize (if 0 ≤ d2 then graphOps.addEdge g1 newIdx en.index d2 else (g1, .ok ())) = y at b1 b2 b3 ⊢
      obtain ⟨o2, r2⟩ := x
      obtain ⟨g2, r2'⟩ := y
      dsimp only at b1 b2 b3
      rcases b3 with b3 | ⟨⟨x, rfl⟩, ⟨y, rfl⟩⟩
      swap
      · exact ⟨b1, b2.trans a2, Or.inr ⟨⟨x, rfl⟩, ⟨y, rfl⟩⟩⟩
      subst b3
      cases r2 with
      | throw x => exact ⟨b1, b2.trans a2, Or.inl rfl⟩
      | ub => exact ⟨b1, b2.trans a2, Or.inl rfl⟩
      | ok u =>
        dsimp only
        obtain ⟨c1, c2, c3⟩ := ih b1
        exact ⟨c1, c2.trans (b2.trans a2), c3⟩

theorem insertState_sim (e : Env V C) (state : V) (dir : Dir) (l : List (Entry C)) (order : List Int) (init : List (C × C))
    {o : Overlay V C} {g : Graph V C} (h : Rel o g) :
    Rel (insertState overlayOps e state dir l order init o).1 (insertState graphOps e state dir l order init g).1 ∧
      (insertState overlayOps e state dir l order init o).1.base = o.base ∧
      Agree (insertState overlayOps e state dir l order init o).2 (insertState graphOps e state dir l order init g).2 := by
  have hadd : Rel (overlayOps.addValue o state).1 (graphOps.addValue g state).1 ∧ (overlayOps.addValue o state).1.base = o.base ∧
      (overlayOps.addValue o state).2 = (graphOps.addValue g state).2 := h.addNode ⟨state, [], []⟩
  unfold insertState
  generalize overlayOps.addValue o state = x at hadd ⊢
  generalize graphOps.addValue g state = y at hadd ⊢
  obtain ⟨o1, i1⟩ := x
  obtain ⟨g1, i1'⟩ := y
  obtain ⟨a1, a2, a3⟩ := hadd
  dsimp only at a1 a2 a3
  subst a3
  dsimp only
  rw [(rel_ops a1).2]
  generalize fillAll (fun i => do
      let nb ← atInt l i
      let n ← graphOps.get g1 nb.index
      pure (itemDistances e dir state n.value nb.dist)) 0 order init = ds
  cases ds with
  | throw x => exact ⟨a1, a2, Or.inl rfl⟩
  | ub => exact ⟨a1, a2, Or.inl rfl⟩
  | ok ds =>
    dsimp only
    obtain ⟨b1, b2, b3⟩ := addEdgesLoop_sim i1 (l.zip ds) a1
    generalize addEdgesLoop overlayOps i1 (l.zip ds) o1 = x at b1 b2 b3 ⊢
    generalize addEdgesLoop graphOps i1 (l.zip ds) g1 = y at b1 b2 b3 ⊢
    obtain ⟨o2, r2⟩ := x
    obtain ⟨g2, r2'⟩ := y
    dsimp only at b1 b2 b3
    rcases b3 with b3 | ⟨⟨x, rfl⟩, ⟨y, rfl⟩⟩
    swap
    · exact ⟨b1, b2.trans a2, Or.inr ⟨⟨x, rfl⟩, ⟨y, rfl⟩⟩⟩
    subst b3
    cases r2 with
    | throw x => exact ⟨b1, b2.trans a2, Or.inl rfl⟩
    | ub => exact ⟨b1, b2.trans a2, Or.inl rfl⟩
    | ok u => exact ⟨b1, b2.trans a2, Or.inl rfl⟩

theorem Agree.symm {α : Type} {r r' : Res α} (h : Agree r r') : Agree r' r := by
  rcases h with h | ⟨h1, h2⟩
  · exact Or.inl h.symm
  · exact Or.inr ⟨h2, h1⟩

theorem Agree.of_ok {α : Type} {r : Res α} {x : α} (h : Agree (.ok x) r) : r = .ok x := by
  rcases h with h | ⟨⟨y, h⟩, _⟩
  · exact h.symm
  · cases h

theorem Agree.of_ub {α : Type} {r : Res α} (h : Agree .ub r) : r = .ub := by
  rcases h with h | ⟨⟨y, h⟩, _⟩
  · exact h.symm
  · cases h

theorem Agree.of_throw {α : Type} {r : Res α} {x : Exc} (h : Agree (.throw x) r) : ∃ y, r = .throw y := by
  rcases h with h | ⟨_, h⟩
  · exact ⟨x, h.symm⟩
  · exact h

theorem Agree.bind {α β : Type} {r r' : Res α} (h : Agree r r') (f : α → Res β) : Agree (r >>= f) (r' >>= f) := by
  rcases h with rfl | ⟨⟨x, rfl⟩, ⟨y, rfl⟩⟩
  · exact Or.inl rfl
  · exact Or.inr ⟨⟨x, rfl⟩, ⟨y, rfl⟩⟩

theorem addNode_sim (e : Env V C) (state : V) (dir : Dir) (maxNode : Int) {o : Overlay V C} {g : Graph V C} (h : Rel o g) :
    (∀ o' r, AddNodeRun overlayOps e state dir maxNode o (o', r) →
      ∃ g' r', AddNodeRun graphOps e state dir maxNode g (g', r') ∧ Rel o' g' ∧ o'.base = o.base ∧ Agree r r') ∧
    ∀ g' r, AddNodeRun graphOps e state dir maxNode g (g', r) →
      ∃ o' r', AddNodeRun overlayOps e state dir maxNode o (o', r') ∧ Rel o' g' ∧ o'.base = o.base ∧ Agree r r' := by
  obtain ⟨q1, q2⟩ := rel_ops h
  constructor
  · intro o' r hr
    generalize hp : (o', r) = p at hr
    cases hr with
    | knnThrows hk => cases hp; rw [q1, q2] at hk; exact ⟨g, _, .knnThrows hk, h, rfl, Or.inl rfl⟩
    | knnUb hk => cases hp; rw [q1, q2] at hk; exact ⟨g, _, .knnUb hk, h, rfl, Or.inl rfl⟩
    | duplicate hk hd hf => cases hp; rw [q1, q2] at hk; exact ⟨g, _, .duplicate hk hd hf, h, rfl, Or.inl rfl⟩
    | @added l order init hk hd ho hi =>
      rw [q1, q2] at hk
      have := AddNodeRun.added (ops := graphOps) (e := e) (state := state) (dir := dir) (maxNode := maxNode) (g := g) hk hd ho hi
      obtain ⟨a1, a2, a3⟩ := insertState_sim e state dir l order init h
      rw [← hp] at a1 a2 a3
      dsimp only at a1 a2 a3
      exact ⟨_, _, this, a1, a2, a3⟩
  · intro g' r hr
    generalize hp : (g', r) = p at hr
    cases hr with
    | knnThrows hk => cases hp; rw [← q1, ← q2] at hk; exact ⟨o, _, .knnThrows hk, h, rfl, Or.inl rfl⟩
    | knnUb hk => cases hp; rw [← q1, ← q2] at hk; exact ⟨o, _, .knnUb hk, h, rfl, Or.inl rfl⟩
    | duplicate hk hd hf => cases hp; rw [← q1, ← q2] at hk; exact ⟨o, _, .duplicate hk hd hf, h, rfl, Or.inl rfl⟩
    | @added l order init hk hd ho hi =>
      rw [← q1, ← q2] at hk
      have := AddNodeRun.added (ops := overlayOps) (e := e) (state := state) (dir := dir) (maxNode := maxNode) (g := o) hk hd ho hi
      obtain ⟨a1, a2, a3⟩ := insertState_sim e state dir l order init h
      rw [← hp] at a1 a3
      dsimp only at a1 a3
      exact ⟨_, _, this, a1, a2, a3.symm⟩

theorem addAll_sim (e : Env V C) (dir : Dir) (maxNode : Int) (states : List V) {o : Overlay V C} {g : Graph V C} (h : Rel o g) :
    (∀ o' r, AddAllRun overlayOps e dir maxNode states o (o', r) →
      ∃ g' r', AddAllRun graphOps e dir maxNode states g (g', r') ∧ Rel o' g' ∧ o'.base = o.base ∧ Agree r r') ∧
    ∀ g' r, AddAllRun graphOps e dir maxNode states g (g', r) →
      ∃ o' r', AddAllRun overlayOps e dir maxNode states o (o', r') ∧ Rel o' g' ∧ o'.base = o.base ∧ Agree r r' := by
  induction states generalizing o g with
  | nil =>
    constructor
    · intro o' r hr
      generalize hp : (o', r) = p at hr
      cases hr
      cases hp
      exact ⟨g, _, .nil, h, rfl, Or.inl rfl⟩
    · intro g' r hr
      generalize hp : (g', r) = p at hr
      cases hr
      cases hp
      exact ⟨o, _, .nil, h, rfl, Or.inl rfl⟩
  | cons s states ih =>
    constructor
    · intro o' r hr
      generalize hp : (o', r) = p at hr
      cases hr with
      | next hn hrest =>
        cases hp
        obtain ⟨g1, r1, a1, a2, a3, a4⟩ := (addNode_sim e s dir maxNode h).1 _ _ hn
        cases a4.of_ok
        obtain ⟨g2, r2, b1, b2, b3, b4⟩ := (ih a2).1 _ _ hrest
        exact ⟨g2, _, .next a1 b1, b2, b3.trans a3, b4.bind _⟩
      | throws hn =>
        cases hp
        obtain ⟨g1, r1, a1, a2, a3, a4⟩ := (addNode_sim e s dir maxNode h).1 _ _ hn
        obtain ⟨y, rfl⟩ := a4.of_throw
        exact ⟨g1, _, .throws a1, a2, a3, Or.inr ⟨⟨_, rfl⟩, ⟨_, rfl⟩⟩⟩
      | ub hn =>
        cases hp
        obtain ⟨g1, r1, a1, a2, a3, a4⟩ := (addNode_sim e s dir maxNode h).1 _ _ hn
        cases a4.of_ub
        exact ⟨g1, _, .ub a1, a2, a3, Or.inl rfl⟩
    · intro g' r hr
      generalize hp : (g', r) = p at hr
      cases hr with
      | next hn hrest =>
        cases hp
        obtain ⟨g1, r1, a1, a2, a3, a4⟩ := (addNode_sim e s dir maxNode h).2 _ _ hn
        cases a4.of_ok
        obtain ⟨g2, r2, b1, b2, b3, b4⟩ := (ih a2).2 _ _ hrest
        exact ⟨g2, _, .next a1 b1, b2, b3.trans a3, b4.bind _⟩
      | throws hn =>
        cases hp
        obtain ⟨g1, r1, a1, a2, a3, a4⟩ := (addNode_sim e s dir maxNode h).2 _ _ hn
        obtain ⟨y, rfl⟩ := a4.of_throw
        exact ⟨g1, _, .throws a1, a2, a3, Or.inr ⟨⟨_, rfl⟩, ⟨_, rfl⟩⟩⟩
      | ub hn =>
        cases hp
        obtain ⟨g1, r1, a1, a2, a3, a4⟩ := (addNode_sim e s dir maxNode h).2 _ _ hn
        cases a4.of_ub
        exact ⟨g1, _, .ub a1, a2, a3, Or.inl rfl⟩

variable [Add C] [OrderTop C] [Inhabited V]

theorem search_sim (e : Env V C) (lazy limit : Bool) {o : Overlay V C} {g : Graph V C} (h : Rel o g) (si gi : List Int)
    (r : Res (List Int × C)) : SearchRun overlayOps e lazy limit o si gi r ↔ SearchRun graphOps e lazy limit g si gi r := by
  unfold SearchRun
  rw [(rel_ops h).1, (rel_ops h).2]

omit [LinearOrder C] [Zero C] [Add C] [OrderTop C] [Inhabited V] in
theorem extract_sim {o : Overlay V C} {g : Graph V C} (h : Rel o g) (sol : List Int × C) :
    extractSolution overlayOps o sol = extractSolution graphOps g sol := by
  unfold extractSolution
  rw [show overlayOps.get o = graphOps.get g from funext h.get]

theorem query_sim (e : Env V C) (lazy limit : Bool) (starts goals : List V) {o : Overlay V C} {g : Graph V C} (h : Rel o g) :
    (∀ o' r, QueryRun overlayOps e lazy limit starts goals o (o', r) →
      ∃ g' r', QueryRun graphOps e lazy limit starts goals g (g', r') ∧ Rel o' g' ∧ o'.base = o.base ∧ Agree r r') ∧
    ∀ g' r, QueryRun graphOps e lazy limit starts goals g (g', r) →
      ∃ o' r', QueryRun overlayOps e lazy limit starts goals o (o', r') ∧ Rel o' g' ∧ o'.base = o.base ∧ Agree r r' := by
  constructor
  · intro o' r hr
    generalize hp : (o', r) = p at hr
    cases hr with
    | noStarts h1 => cases hp; exact ⟨g, _, .noStarts h1, h, rfl, Or.inl rfl⟩
    | noGoals h1 h2 => cases hp; exact ⟨g, _, .noGoals h1 h2, h, rfl, Or.inl rfl⟩
    | startsThrow h1 h2 h3 =>
      cases hp
      rw [(rel_ops h).1] at h3
      obtain ⟨g1, r1, a1, a2, a3, a4⟩ := (addAll_sim e _ _ _ h).1 _ _ h3
      obtain ⟨y, rfl⟩ := a4.of_throw
      exact ⟨g1, _, .startsThrow h1 h2 a1, a2, a3, Or.inr ⟨⟨_, rfl⟩, ⟨_, rfl⟩⟩⟩
    | startsUb h1 h2 h3 =>
      cases hp
      rw [(rel_ops h).1] at h3
      obtain ⟨g1, r1, a1, a2, a3, a4⟩ := (addAll_sim e _ _ _ h).1 _ _ h3
      cases a4.of_ub
      exact ⟨g1, _, .startsUb h1 h2 a1, a2, a3, Or.inl rfl⟩
    | goalsThrow h1 h2 h3 h4 =>
      cases hp
      rw [(rel_ops h).1] at h3
      obtain ⟨g1, r1, a1, a2, a3, a4⟩ := (addAll_sim e _ _ _ h).1 _ _ h3
      cases a4.of_ok
      rw [(rel_ops a2).1] at h4
      obtain ⟨g2, r2, b1, b2, b3, b4⟩ := (addAll_sim e _ _ _ a2).1 _ _ h4
      obtain ⟨y, rfl⟩ := b4.of_throw
      exact ⟨g2, _, .goalsThrow h1 h2 a1 b1, b2, b3.trans a3, Or.inr ⟨⟨_, rfl⟩, ⟨_, rfl⟩⟩⟩
    | goalsUb h1 h2 h3 h4 =>
      cases hp
      rw [(rel_ops h).1] at h3
      obtain ⟨g1, r1, a1, a2, a3, a4⟩ := (addAll_sim e _ _ _ h).1 _ _ h3
      cases a4.of_ok
      rw [(rel_ops a2).1] at h4
      obtain ⟨g2, r2, b1, b2, b3, b4⟩ := (addAll_sim e _ _ _ a2).1 _ _ h4
      cases b4.of_ub
      exact ⟨g2, _, .goalsUb h1 h2 a1 b1, b2, b3.trans a3, Or.inl rfl⟩
    | searched h1 h2 h3 h4 h5 =>
      cases hp
      rw [(rel_ops h).1] at h3
      obtain ⟨g1, r1, a1, a2, a3, a4⟩ := (addAll_sim e _ _ _ h).1 _ _ h3
      cases a4.of_ok
      rw [(rel_ops a2).1] at h4
      obtain ⟨g2, r2, b1, b2, b3, b4⟩ := (addAll_sim e _ _ _ a2).1 _ _ h4
      cases b4.of_ok
      refine ⟨g2, _, .searched h1 h2 a1 b1 ((search_sim e lazy limit b2 _ _ _).mp h5), b2, b3.trans a3, Or.inl ?_⟩
      simp only [extract_sim b2]
  · intro g' r hr
    generalize hp : (g', r) = p at hr
    cases hr with
    | noStarts h1 => cases hp; exact ⟨o, _, .noStarts h1, h, rfl, Or.inl rfl⟩
    | noGoals h1 h2 => cases hp; exact ⟨o, _, .noGoals h1 h2, h, rfl, Or.inl rfl⟩
    | startsThrow h1 h2 h3 =>
      cases hp
      rw [← (rel_ops h).1] at h3
      obtain ⟨g1, r1, a1, a2, a3, a4⟩ := (addAll_sim e _ _ _ h).2 _ _ h3
      obtain ⟨y, rfl⟩ := a4.of_throw
      exact ⟨g1, _, .startsThrow h1 h2 a1, a2, a3, Or.inr ⟨⟨_, rfl⟩, ⟨_, rfl⟩⟩⟩
    | startsUb h1 h2 h3 =>
      cases hp
      rw [← (rel_ops h).1] at h3
      obtain ⟨g1, r1, a1, a2, a3, a4⟩ := (addAll_sim e _ _ _ h).2 _ _ h3
      cases a4.of_ub
      exact ⟨g1, _, .startsUb h1 h2 a1, a2, a3, Or.inl rfl⟩
    | goalsThrow h1 h2 h3 h4 =>
      cases hp
      rw [← (rel_ops h).1] at h3
      obtain ⟨g1, r1, a1, a2, a3, a4⟩ := (addAll_sim e _ _ _ h).2 _ _ h3
      cases a4.of_ok
      rw [← (rel_ops a2).1] at h4
      obtain ⟨g2, r2, b1, b2, b3, b4⟩ := (addAll_sim e _ _ _ a2).2 _ _ h4
      obtain ⟨y, rfl⟩ := b4.of_throw
      exact ⟨g2, _, .goalsThrow h1 h2 a1 b1, b2, b3.trans a3, Or.inr ⟨⟨_, rfl⟩, ⟨_, rfl⟩⟩⟩
    | goalsUb h1 h2 h3 h4 =>
      cases hp
      rw [← (rel_ops h).1] at h3
      obtain ⟨g1, r1, a1, a2, a3, a4⟩ := (addAll_sim e _ _ _ h).2 _ _ h3
      cases a4.of_ok
      rw [← (rel_ops a2).1] at h4
      obtain ⟨g2, r2, b1, b2, b3, b4⟩ := (addAll_sim e _ _ _ a2).2 _ _ h4
      cases b4.of_ub
      exact ⟨g2, _, .goalsUb h1 h2 a1 b1, b2, b3.trans a3, Or.inl rfl⟩
    | searched h1 h2 h3 h4 h5 =>
      cases hp
      rw [← (rel_ops h).1] at h3
      obtain ⟨g1, r1, a1, a2, a3, a4⟩ := (addAll_sim e _ _ _ h).2 _ _ h3
      cases a4.of_ok
      rw [← (rel_ops a2).1] at h4
      obtain ⟨g2, r2, b1, b2, b3, b4⟩ := (addAll_sim e _ _ _ a2).2 _ _ h4
      cases b4.of_ok
      refine ⟨g2, _, .searched h1 h2 a1 b1 ((search_sim e lazy limit b2 _ _ _).mpr h5), b2, b3.trans a3, Or.inl ?_⟩
      simp only [extract_sim b2]

end CRU.Prm
