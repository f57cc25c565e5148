import Verif.Prm.Throw
import Verif.Prm.QueryEnds
import Verif.GraphSearch.CallbackMono
/-
  C118: queries on a roadmap with functions that may throw. Model of include/common_robotics_utilities/simple_prm_planner.hpp:739-1065 as in
  Prm/QueryModel.lean; the functions keep no state. `.ok (.error x)` means that the call throws the caller's exception `x`.
-/
namespace CRU.Prm.Throw
open CRU.Graph CRU.Knn CRU.Parallel CRU.GraphSearch CRU.Distances.Throw
open CRU.Knn.Throw (assignAll assignAll_ok assignAll_fill)
open CRU.Astar.Callbacks (Fail ofRes)
open CRU.GraphSearch.Callbacks (LazyCalls valueFns weightFns Hist lazy_follows)
set_option linter.unusedSectionVars false

variable {V C G ε : Type} [LinearOrder C] [Zero C] [Add C] [OrderTop C]

/-! ### Model -/

/-- simple_prm_planner.hpp:813-835 and 904-926: add the states one after the other, keeping the indices; an exception ends the query. -/
inductive AddAllRun (ops : GraphOps G V C) (e : Env V C ε) (dir : Dir) (maxNode : Int) : List V → G → G × Res (Except ε (List Int)) → Prop
  | nil {g : G} : AddAllRun ops e dir maxNode [] g (g, .ok (.ok []))
  | next {s : V} {rest : List V} {g g1 g2 : G} {i : Int} {is : List Int}
      (h : AddNodeRun ops e s dir maxNode g (g1, .ok (.ok i))) (hr : AddAllRun ops e dir maxNode rest g1 (g2, .ok (.ok is))) :
      AddAllRun ops e dir maxNode (s :: rest) g (g2, .ok (.ok (i :: is)))
  | later {s : V} {rest : List V} {g g1 g2 : G} {i : Int} {o : Res (Except ε (List Int))}
      (h : AddNodeRun ops e s dir maxNode g (g1, .ok (.ok i))) (hr : AddAllRun ops e dir maxNode rest g1 (g2, o)) (ho : ∀ is, o ≠ .ok (.ok is)) :
      AddAllRun ops e dir maxNode (s :: rest) g (g2, o)
  | raises {s : V} {rest : List V} {g g1 : G} {x : ε} (h : AddNodeRun ops e s dir maxNode g (g1, .ok (.error x))) :
      AddAllRun ops e dir maxNode (s :: rest) g (g1, .ok (.error x))
  | throws {s : V} {rest : List V} {g g1 : G} {x : Exc} (h : AddNodeRun ops e s dir maxNode g (g1, .throw x)) :
      AddAllRun ops e dir maxNode (s :: rest) g (g1, .throw x)
  | ub {s : V} {rest : List V} {g g1 : G} (h : AddNodeRun ops e s dir maxNode g (g1, .ub)) :
      AddAllRun ops e dir maxNode (s :: rest) g (g1, .ub)

/-- simple_prm_planner.hpp:837-847 (lazy) and 928-932: the call of graph A*. -/
def SearchRun [Inhabited V] (ops : GraphOps G V C) (e : Env V C ε) (lazy limit : Bool) (g : G) (starts goals : List Int)
    (r : Except (Fail ε) (List Int × C)) : Prop :=
  ∃ h, LazyCalls (ops.size g) (ops.get g) starts goals (if lazy
    then valueFns (ops.get g) (fun _ => e.valid) (fun _ => e.dist) (fun _ => e.dist)
    else weightFns (ops.get g) (fun _ => e.dist)) limit r h

/-- simple_prm_planner.hpp:849-850 and 934-935: the answer. -/
def answer (ops : GraphOps G V C) (g : G) : Except (Fail ε) (List Int × C) → Res (Except ε (List V × C))
  | .ok sol => do
    let p ← extractSolution ops g sol
    pure (.ok p)
  | .error (.user x) => .ok (.error x)
  | .error (.lib x) => .throw x
  | .error .ub => .ub

/-- What is left of a call that did not return normally. (no project code: C++ or bookkeeping) -/
def passOn {α β : Type} : Res (Except ε α) → Res (Except ε β)
  | .ok (.ok _) => .ub
  | .ok (.error x) => .ok (.error x)
  | .throw x => .throw x
  | .ub => .ub

/-- simple_prm_planner.hpp:790-851 `LazyQueryPathAndAddNodes` (`lazy`) and 881-936 `QueryPathAndAddNodes`: possible results, the roadmap that is left
behind and the outcome. -/
inductive QueryRun [Inhabited V] (ops : GraphOps G V C) (e : Env V C ε) (lazy limit : Bool) (starts goals : List V) (g : G) :
    G × Res (Except ε (List V × C)) → Prop
  | noStarts (h : starts = []) : QueryRun ops e lazy limit starts goals g (g, .throw .runtimeError)
  | noGoals (h : starts ≠ []) (h' : goals = []) : QueryRun ops e lazy limit starts goals g (g, .throw .runtimeError)
  | startsFail {g1 : G} {o : Res (Except ε (List Int))} (h : starts ≠ []) (h' : goals ≠ [])
      (h1 : AddAllRun ops e .newToRoadmap (ops.size g) starts g (g1, o)) (ho : ∀ is, o ≠ .ok (.ok is)) :
      QueryRun ops e lazy limit starts goals g (g1, passOn o)
  | goalsFail {g1 g2 : G} {si : List Int} {o : Res (Except ε (List Int))} (h : starts ≠ []) (h' : goals ≠ [])
      (h1 : AddAllRun ops e .newToRoadmap (ops.size g) starts g (g1, .ok (.ok si)))
      (h2 : AddAllRun ops e .roadmapToNew (ops.size g1) goals g1 (g2, o)) (ho : ∀ is, o ≠ .ok (.ok is)) :
      QueryRun ops e lazy limit starts goals g (g2, passOn o)
  | searched {g1 g2 : G} {si gi : List Int} {r : Except (Fail ε) (List Int × C)} (h : starts ≠ []) (h' : goals ≠ [])
      (h1 : AddAllRun ops e .newToRoadmap (ops.size g) starts g (g1, .ok (.ok si)))
      (h2 : AddAllRun ops e .roadmapToNew (ops.size g1) goals g1 (g2, .ok (.ok gi))) (hs : SearchRun ops e lazy limit g2 si gi r) :
      QueryRun ops e lazy limit starts goals g (g2, answer ops g2 r)

/-- simple_prm_planner.hpp:971-1003 `LazyQueryPath` and 1033-1065 `QueryPath`: the query runs on an overlay of the roadmap or on a copy; the roadmap
as the caller sees it afterwards (the overlay's base, or the original the copy was made from), and the outcome. -/
inductive QueryPathRun [Inhabited V] (e : Env V C ε) (lazy limit : Bool) (starts goals : List V) (g : Graph V C) :
    (useOverlay : Bool) → Graph V C × Res (Except ε (List V × C)) → Prop
  | overlay {o : Overlay V C} {r : Res (Except ε (List V × C))} (h : QueryRun overlayOps e lazy limit starts goals (mkOverlay g) (o, r)) :
      QueryPathRun e lazy limit starts goals g true (o.base, r)
  | copy {g' : Graph V C} {r : Res (Except ε (List V × C))} (h : QueryRun graphOps e lazy limit starts goals g (g', r)) :
      QueryPathRun e lazy limit starts goals g false (g, r)

/-! ### Specification -/

/-- The states were added to `g` one after the other as in C67, with functions that have the same values as those of `e` (and are symmetric if they are
declared so); `is` are the nodes that stand for them. -/
def Added (e : Env V C ε) (dir : Dir) (maxNode : Int) (states : List V) (g g' : Graph V C) (is : List Int) : Prop :=
  ∀ valid dist, Extends e valid dist → (e.symmetric = true → SymmetricFns valid dist) → Attached (e.total valid dist) dir maxNode states g g' is

/-- Adding the states was ended by an exception `x`, with `g'` left behind: the states before some state `s` have been added; then the neighbour query for
`s` threw, and nothing more has changed, or a check for one of the neighbours threw, and `s` is there as a node without edges. -/
def Stopped (e : Env V C ε) (dir : Dir) (maxNode : Int) (states : List V) (g g' : Graph V C) (x : ε) : Prop :=
  ∃ (pre : List V) (s : V) (post : List V) (is : List Int) (g1 : Graph V C), states = pre ++ s :: post ∧ Added e dir maxNode pre g g1 is ∧
    ((e.knn g1.length (getNode g1) s e.K dir maxNode (.ok (.error x)) ∧ g' = g1) ∨
    ∃ l, e.knn g1.length (getNode g1) s e.K dir maxNode (.ok (.ok l)) ∧ (e.addDuplicates = false → ∀ nb ∈ l, nb.dist ≠ 0) ∧
      (∃ nb ∈ l, ∃ b, HasValue g1 nb.index b ∧ Raises e s b x) ∧ g' = g1 ++ [⟨s, [], []⟩])

/-- The search threw `x`: a distance between two states of the roadmap did or, in a lazy query, the check of an edge of the roadmap. -/
def SearchRaises (e : Env V C ε) (lazy : Bool) (g : Graph V C) (x : ε) : Prop :=
  ∃ u v a b, HasValue g u a ∧ HasValue g v b ∧ (e.dist a b = .error x ∨ (lazy = true ∧ (∃ w, OutEdge g u v w) ∧ e.valid a b = .error x))

/-! ### The overlay -/

/-- What a call that has not returned can have done. -/
theorem addAll_ne {α : Type} {o : Res (Except ε α)} (ho : ∀ is, o ≠ .ok (.ok is)) : (∃ x, o = .ok (.error x)) ∨ (∃ x, o = .throw x) ∨ o = .ub := by
  match o with
  | .ok (.ok a) => exact absurd rfl (ho a)
  | .ok (.error x) => exact .inl ⟨x, rfl⟩
  | .throw x => exact .inr (.inl ⟨x, rfl⟩)
  | .ub => exact .inr (.inr rfl)

theorem finish_sim (newIdx : Int) (l : List (Entry C)) (out : Res (Except ε (List (C × C)))) {o : Overlay V C} {g : Graph V C} (h : Rel o g) :
    Rel (finish overlayOps newIdx l o out).1 (finish graphOps newIdx l g out).1 ∧ (finish overlayOps newIdx l o out).1.base = o.base ∧
      Agree (finish overlayOps newIdx l o out).2 (finish graphOps newIdx l g out).2 := by
  match out with
  | .ok (.error x) => exact ⟨h, rfl, .inl rfl⟩
  | .throw x => exact ⟨h, rfl, .inl rfl⟩
  | .ub => exact ⟨h, rfl, .inl rfl⟩
  | .ok (.ok ds) =>
    unfold finish
    dsimp only
    obtain ⟨b1, b2, b3⟩ := addEdgesLoop_sim newIdx (l.zip ds) h
    generalize addEdgesLoop overlayOps newIdx (l.zip ds) o = p at b1 b2 b3 ⊢
    generalize addEdgesLoop graphOps newIdx (l.zip ds) g = q at b1 b2 b3 ⊢
    obtain ⟨o2, r2⟩ := p
    obtain ⟨g2, r2'⟩ := q
    dsimp only at b1 b2 b3
    rcases b3 with rfl | ⟨⟨x, rfl⟩, ⟨y, rfl⟩⟩
    · cases r2 with
      | ok u => exact ⟨b1, b2, .inl rfl⟩
      | throw x => exact ⟨b1, b2, .inl rfl⟩
      | ub => exact ⟨b1, b2, .inl rfl⟩
    · exact ⟨b1, b2, .inr ⟨⟨x, rfl⟩, ⟨y, rfl⟩⟩⟩

theorem addNode_sim (e : Env V C ε) (state : V) (dir : Dir) (maxNode : Int) {o : Overlay V C} {g : Graph V C} (h : Rel o g) :
    (∀ o' r, AddNodeRun overlayOps e state dir maxNode o (o', r) →
      ∃ g' r', AddNodeRun graphOps e state dir maxNode g (g', r') ∧ Rel o' g' ∧ o'.base = o.base ∧ Agree r r') ∧
    ∀ g' r, AddNodeRun graphOps e state dir maxNode g (g', r) →
      ∃ o' r', AddNodeRun overlayOps e state dir maxNode o (o', r') ∧ Rel o' g' ∧ o'.base = o.base ∧ Agree r r' := by
  obtain ⟨q1, q2⟩ := rel_ops h
  have hadd : Rel (overlayOps.addValue o state).1 (graphOps.addValue g state).1 ∧ (overlayOps.addValue o state).1.base = o.base ∧
      (overlayOps.addValue o state).2 = (graphOps.addValue g state).2 := h.addNode ⟨state, [], []⟩
  obtain ⟨k1, k2, k3⟩ := hadd
  have hbody : ∀ l : List (Entry C), itemBody overlayOps e dir state l (overlayOps.addValue o state).1 = itemBody graphOps e dir state l (graphOps.addValue g state).1 := by
    intro l
    funext c
    unfold itemBody
    rw [(rel_ops k1).2]
  constructor
  · intro o' r hr
    generalize hp : (o', r) = p at hr
    cases hr with
    | knnRaises hk => cases hp; rw [q1, q2] at hk; exact ⟨g, _, .knnRaises hk, h, rfl, Or.inl rfl⟩
    | knnThrows hk => cases hp; rw [q1, q2] at hk; exact ⟨g, _, .knnThrows hk, h, rfl, Or.inl rfl⟩
    | knnUb hk => cases hp; rw [q1, q2] at hk; exact ⟨g, _, .knnUb hk, h, rfl, Or.inl rfl⟩
    | duplicate hk hd hf => cases hp; rw [q1, q2] at hk; exact ⟨g, _, .duplicate hk hd hf, h, rfl, Or.inl rfl⟩
    | @added l ws init out hk hd hw hi ho =>
      rw [q1, q2] at hk
      rw [hbody] at ho
      have := AddNodeRun.added (ops := graphOps) (e := e) (state := state) (dir := dir) (maxNode := maxNode) (g := g) hk hd hw hi ho
      obtain ⟨a1, a2, a3⟩ := finish_sim (graphOps.addValue g state).2 l out k1
      rw [k3] at hp
      rw [← hp] at a1 a2 a3
      dsimp only at a1 a2 a3
      exact ⟨_, _, this, a1, a2.trans k2, a3⟩
  · intro g' r hr
    generalize hp : (g', r) = p at hr
    cases hr with
    | knnRaises hk => cases hp; rw [← q1, ← q2] at hk; exact ⟨o, _, .knnRaises hk, h, rfl, Or.inl rfl⟩
    | knnThrows hk => cases hp; rw [← q1, ← q2] at hk; exact ⟨o, _, .knnThrows hk, h, rfl, Or.inl rfl⟩
    | knnUb hk => cases hp; rw [← q1, ← q2] at hk; exact ⟨o, _, .knnUb hk, h, rfl, Or.inl rfl⟩
    | duplicate hk hd hf => cases hp; rw [← q1, ← q2] at hk; exact ⟨o, _, .duplicate hk hd hf, h, rfl, Or.inl rfl⟩
    | @added l ws init out hk hd hw hi ho =>
      rw [← q1, ← q2] at hk
      rw [← hbody] at ho
      have := AddNodeRun.added (ops := overlayOps) (e := e) (state := state) (dir := dir) (maxNode := maxNode) (g := o) hk hd hw hi ho
      obtain ⟨a1, a2, a3⟩ := finish_sim (graphOps.addValue g state).2 l out k1
      rw [k3] at this
      rw [← hp] at a1 a3
      dsimp only at a1 a3
      exact ⟨_, _, this, a1, a2.trans k2, a3.symm⟩

theorem Agree.of_ne {α : Type} {r r' : Res (Except ε α)} (h : Agree r r') (hr : ∀ a, r ≠ .ok (.ok a)) : ∀ a, r' ≠ .ok (.ok a) := by
  rintro a rfl
  exact hr a h.symm.of_ok

theorem Agree.pass {α β : Type} {r r' : Res (Except ε α)} (h : Agree r r') : Agree (passOn r : Res (Except ε β)) (passOn r') := by
  rcases h with rfl | ⟨⟨x, rfl⟩, ⟨y, rfl⟩⟩
  · exact .inl rfl
  · exact .inr ⟨⟨x, rfl⟩, ⟨y, rfl⟩⟩

theorem addAll_sim (e : Env V C ε) (dir : Dir) (maxNode : Int) (states : List V) {o : Overlay V C} {g : Graph V C} (h : Rel o g) :
    (∀ o' r, AddAllRun overlayOps e dir maxNode states o (o', r) →
      ∃ g' r', AddAllRun graphOps e dir maxNode states g (g', r') ∧ Rel o' g' ∧ o'.base = o.base ∧ Agree r r') ∧
    ∀ g' r, AddAllRun graphOps e dir maxNode states g (g', r) →
      ∃ o' r', AddAllRun overlayOps e dir maxNode states o (o', r') ∧ Rel o' g' ∧ o'.base = o.base ∧ Agree r r' := by
  induction states generalizing o g with
  | nil =>
    constructor
    · intro o' r hr
      generalize hp : (o', r) = p at hr
      cases hr
      cases hp
      exact ⟨g, _, .nil, h, rfl, Or.inl rfl⟩
    · intro g' r hr
      generalize hp : (g', r) = p at hr
      cases hr
      cases hp
      exact ⟨o, _, .nil, h, rfl, Or.inl rfl⟩
  | cons s states ih =>
    constructor
    · intro o' r hr
      generalize hp : (o', r) = p at hr
      cases hr with
      | next hn hrest =>
        cases hp
        obtain ⟨g1, r1, a1, a2, a3, a4⟩ := (addNode_sim e s dir maxNode h).1 _ _ hn
        cases a4.of_ok
        obtain ⟨g2, r2, b1, b2, b3, b4⟩ := (ih a2).1 _ _ hrest
        cases b4.of_ok
        exact ⟨g2, _, .next a1 b1, b2, b3.trans a3, .inl rfl⟩
      | later hn hrest ho =>
        cases hp
        obtain ⟨g1, r1, a1, a2, a3, a4⟩ := (addNode_sim e s dir maxNode h).1 _ _ hn
        cases a4.of_ok
        obtain ⟨g2, r2, b1, b2, b3, b4⟩ := (ih a2).1 _ _ hrest
        exact ⟨g2, _, .later a1 b1 (Agree.of_ne b4 ho), b2, b3.trans a3, b4⟩
      | raises hn =>
        cases hp
        obtain ⟨g1, r1, a1, a2, a3, a4⟩ := (addNode_sim e s dir maxNode h).1 _ _ hn
        cases a4.of_ok
        exact ⟨g1, _, .raises a1, a2, a3, .inl rfl⟩
      | throws hn =>
        cases hp
        obtain ⟨g1, r1, a1, a2, a3, a4⟩ := (addNode_sim e s dir maxNode h).1 _ _ hn
        obtain ⟨y, rfl⟩ := a4.of_throw
        exact ⟨g1, _, .throws a1, a2, a3, Or.inr ⟨⟨_, rfl⟩, ⟨_, rfl⟩⟩⟩
      | ub hn =>
        cases hp
        obtain ⟨g1, r1, a1, a2, a3, a4⟩ := (addNode_sim e s dir maxNode h).1 _ _ hn
        cases a4.of_ub
        exact ⟨g1, _, .ub a1, a2, a3, Or.inl rfl⟩
    · intro g' r hr
      generalize hp : (g', r) = p at hr
      cases hr with
      | next hn hrest =>
        cases hp
        obtain ⟨g1, r1, a1, a2, a3, a4⟩ := (addNode_sim e s dir maxNode h).2 _ _ hn
        cases a4.of_ok
        obtain ⟨g2, r2, b1, b2, b3, b4⟩ := (ih a2).2 _ _ hrest
        cases b4.of_ok
        exact ⟨g2, _, .next a1 b1, b2, b3.trans a3, .inl rfl⟩
      | later hn hrest ho =>
        cases hp
        obtain ⟨g1, r1, a1, a2, a3, a4⟩ := (addNode_sim e s dir maxNode h).2 _ _ hn
        cases a4.of_ok
        obtain ⟨g2, r2, b1, b2, b3, b4⟩ := (ih a2).2 _ _ hrest
        exact ⟨g2, _, .later a1 b1 (Agree.of_ne b4 ho), b2, b3.trans a3, b4⟩
      | raises hn =>
        cases hp
        obtain ⟨g1, r1, a1, a2, a3, a4⟩ := (addNode_sim e s dir maxNode h).2 _ _ hn
        cases a4.of_ok
        exact ⟨g1, _, .raises a1, a2, a3, .inl rfl⟩
      | throws hn =>
        cases hp
        obtain ⟨g1, r1, a1, a2, a3, a4⟩ := (addNode_sim e s dir maxNode h).2 _ _ hn
        obtain ⟨y, rfl⟩ := a4.of_throw
        exact ⟨g1, _, .throws a1, a2, a3, Or.inr ⟨⟨_, rfl⟩, ⟨_, rfl⟩⟩⟩
      | ub hn =>
        cases hp
        obtain ⟨g1, r1, a1, a2, a3, a4⟩ := (addNode_sim e s dir maxNode h).2 _ _ hn
        cases a4.of_ub
        exact ⟨g1, _, .ub a1, a2, a3, Or.inl rfl⟩

variable [Inhabited V]

theorem search_sim (e : Env V C ε) (lazy limit : Bool) {o : Overlay V C} {g : Graph V C} (h : Rel o g) (si gi : List Int)
    (r : Except (Fail ε) (List Int × C)) : SearchRun overlayOps e lazy limit o si gi r ↔ SearchRun graphOps e lazy limit g si gi r := by
  unfold SearchRun
  rw [(rel_ops h).1, (rel_ops h).2]

theorem answer_sim {o : Overlay V C} {g : Graph V C} (h : Rel o g) (r : Except (Fail ε) (List Int × C)) :
    answer overlayOps o r = answer graphOps g r := by
  unfold answer
  match r with
  | .ok sol => dsimp only; rw [extract_sim h sol]
  | .error (.user x) => rfl
  | .error (.lib x) => rfl
  | .error .ub => rfl

theorem query_sim (e : Env V C ε) (lazy limit : Bool) (starts goals : List V) {o : Overlay V C} {g : Graph V C} (h : Rel o g) :
    (∀ o' r, QueryRun overlayOps e lazy limit starts goals o (o', r) →
      ∃ g' r', QueryRun graphOps e lazy limit starts goals g (g', r') ∧ Rel o' g' ∧ o'.base = o.base ∧ Agree r r') ∧
    ∀ g' r, QueryRun graphOps e lazy limit starts goals g (g', r) →
      ∃ o' r', QueryRun overlayOps e lazy limit starts goals o (o', r') ∧ Rel o' g' ∧ o'.base = o.base ∧ Agree r r' := by
  constructor
  · intro o' r hr
    generalize hp : (o', r) = p at hr
    cases hr with
    | noStarts h1 => cases hp; exact ⟨g, _, .noStarts h1, h, rfl, Or.inl rfl⟩
    | noGoals h1 h2 => cases hp; exact ⟨g, _, .noGoals h1 h2, h, rfl, Or.inl rfl⟩
    | startsFail h1 h2 h3 ho =>
      cases hp
      rw [(rel_ops h).1] at h3
      obtain ⟨g1, r1, a1, a2, a3, a4⟩ := (addAll_sim e _ _ starts h).1 _ _ h3
      exact ⟨g1, _, .startsFail h1 h2 a1 (Agree.of_ne a4 ho), a2, a3, Agree.pass a4⟩
    | goalsFail h1 h2 h3 h4 ho =>
      cases hp
      rw [(rel_ops h).1] at h3
      obtain ⟨g1, r1, a1, a2, a3, a4⟩ := (addAll_sim e _ _ starts h).1 _ _ h3
      cases a4.of_ok
      rw [(rel_ops a2).1] at h4
      obtain ⟨g2, r2, b1, b2, b3, b4⟩ := (addAll_sim e _ _ goals a2).1 _ _ h4
      exact ⟨g2, _, .goalsFail h1 h2 a1 b1 (Agree.of_ne b4 ho), b2, b3.trans a3, Agree.pass b4⟩
    | searched h1 h2 h3 h4 hs =>
      cases hp
      rw [(rel_ops h).1] at h3
      obtain ⟨g1, r1, a1, a2, a3, a4⟩ := (addAll_sim e _ _ starts h).1 _ _ h3
      cases a4.of_ok
      rw [(rel_ops a2).1] at h4
      obtain ⟨g2, r2, b1, b2, b3, b4⟩ := (addAll_sim e _ _ goals a2).1 _ _ h4
      cases b4.of_ok
      exact ⟨g2, _, .searched h1 h2 a1 b1 ((search_sim e lazy limit b2 _ _ _).mp hs), b2, b3.trans a3, .inl (answer_sim b2 _)⟩
  · intro g' r hr
    generalize hp : (g', r) = p at hr
    cases hr with
    | noStarts h1 => cases hp; exact ⟨o, _, .noStarts h1, h, rfl, Or.inl rfl⟩
    | noGoals h1 h2 => cases hp; exact ⟨o, _, .noGoals h1 h2, h, rfl, Or.inl rfl⟩
    | startsFail h1 h2 h3 ho =>
      cases hp
      rw [← (rel_ops h).1] at h3
      obtain ⟨g1, r1, a1, a2, a3, a4⟩ := (addAll_sim e _ _ starts h).2 _ _ h3
      exact ⟨g1, _, .startsFail h1 h2 a1 (Agree.of_ne a4 ho), a2, a3, Agree.pass a4⟩
    | goalsFail h1 h2 h3 h4 ho =>
      cases hp
      rw [← (rel_ops h).1] at h3
      obtain ⟨g1, r1, a1, a2, a3, a4⟩ := (addAll_sim e _ _ starts h).2 _ _ h3
      cases a4.of_ok
      rw [← (rel_ops a2).1] at h4
      obtain ⟨g2, r2, b1, b2, b3, b4⟩ := (addAll_sim e _ _ goals a2).2 _ _ h4
      exact ⟨g2, _, .goalsFail h1 h2 a1 b1 (Agree.of_ne b4 ho), b2, b3.trans a3, Agree.pass b4⟩
    | searched h1 h2 h3 h4 hs =>
      cases hp
      rw [← (rel_ops h).1] at h3
      obtain ⟨g1, r1, a1, a2, a3, a4⟩ := (addAll_sim e _ _ starts h).2 _ _ h3
      cases a4.of_ok
      rw [← (rel_ops a2).1] at h4
      obtain ⟨g2, r2, b1, b2, b3, b4⟩ := (addAll_sim e _ _ goals a2).2 _ _ h4
      cases b4.of_ok
      exact ⟨g2, _, .searched h1 h2 a1 b1 ((search_sim e lazy limit b2 _ _ _).mpr hs), b2, b3.trans a3, .inl (answer_sim b2 _).symm⟩

/-- C118: whatever happens in `LazyQueryPath` and `QueryPath`, whichever function throws and whenever: the caller's roadmap is what it was. What can
happen is what can happen when the query is made on the roadmap itself. -/
theorem C118_caller_roadmap (e : Env V C ε) (lazy limit : Bool) (starts goals : List V) (g g' : Graph V C) (useOverlay : Bool)
    (r : Res (Except ε (List V × C))) (hr : QueryPathRun e lazy limit starts goals g useOverlay (g', r)) :
    g' = g ∧ ∃ g2 r', QueryRun graphOps e lazy limit starts goals g (g2, r') ∧ Agree r r' := by
  generalize hp : (g', r) = p at hr
  cases hr with
  | overlay h =>
    cases hp
    obtain ⟨g2, r', h1, _, hb, h2⟩ := (query_sim e lazy limit starts goals (Rel.mk' g)).1 _ _ h
    exact ⟨hb, g2, r', h1, h2⟩
  | copy h => cases hp; exact ⟨rfl, _, _, h, .inl rfl⟩

/-- C118: the variant with the overlay and the variant with the copy have the same outcomes, and throw the same exceptions of the functions. -/
theorem C118_overlay_agrees (e : Env V C ε) (lazy limit : Bool) (starts goals : List V) (g : Graph V C) (useOverlay : Bool)
    (r : Res (Except ε (List V × C))) (hr : QueryPathRun e lazy limit starts goals g useOverlay (g, r)) :
    ∃ r', QueryPathRun e lazy limit starts goals g (!useOverlay) (g, r') ∧ Agree r r' := by
  generalize hp : (g, r) = p at hr
  cases hr with
  | overlay h =>
    injection hp with h1 h2
    subst h2
    obtain ⟨g', r', a, _, _, b⟩ := (query_sim e lazy limit starts goals (Rel.mk' g)).1 _ _ h
    exact ⟨r', .copy a, b⟩
  | copy h =>
    injection hp with h1 h2
    subst h2
    obtain ⟨o, r', a, _, hb, b⟩ := (query_sim e lazy limit starts goals (Rel.mk' g)).2 _ _ h
    have := QueryPathRun.overlay a
    rw [hb] at this
    exact ⟨r', this, b⟩

end CRU.Prm.Throw
