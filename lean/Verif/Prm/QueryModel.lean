import Verif.Prm.Model
/-
  Model of the query functions, include/common_robotics_utilities/simple_prm_planner.hpp:739-1065. The working copy or overlay a query
  makes is part of the model's state, the caller's roadmap is what it was made from.
-/
namespace CRU.Prm
open CRU.Graph CRU.Knn CRU.Parallel CRU.GraphSearch

variable {V C G : Type} [LinearOrder C] [Zero C] [Add C] [OrderTop C]

/-- simple_prm_planner.hpp:813-835 and 904-926: add the states one after the other, keeping the indices. -/
inductive AddAllRun (ops : GraphOps G V C) (e : Env V C) (dir : Dir) (maxNode : Int) : List V → G → G × Res (List Int) → Prop
  | nil {g : G} : AddAllRun ops e dir maxNode [] g (g, .ok [])
  | next {s : V} {rest : List V} {g g1 g2 : G} {i : Int} {r : Res (List Int)}
      (h : AddNodeRun ops e s dir maxNode g (g1, .ok i)) (hr : AddAllRun ops e dir maxNode rest g1 (g2, r)) :
      AddAllRun ops e dir maxNode (s :: rest) g (g2, do
        let is ← r
        pure (i :: is))
  | throws {s : V} {rest : List V} {g g1 : G} {x : Exc} (h : AddNodeRun ops e s dir maxNode g (g1, .throw x)) :
      AddAllRun ops e dir maxNode (s :: rest) g (g1, .throw x)
  | ub {s : V} {rest : List V} {g g1 : G} (h : AddNodeRun ops e s dir maxNode g (g1, .ub)) :
      AddAllRun ops e dir maxNode (s :: rest) g (g1, .ub)

/-- simple_prm_planner.hpp:739-754 `ExtractSolution`. -/
def extractSolution (ops : GraphOps G V C) (g : G) (sol : List Int × C) : Res (List V × C) := do
  let states ← sol.1.mapM fun i => do
    let n ← ops.get g i
    pure n.value
  pure (states, sol.2)

/-- simple_prm_planner.hpp:837-847 (lazy) and 928-932: the call of graph A*. -/
def SearchRun [Inhabited V] (ops : GraphOps G V C) (e : Env V C) (lazy limit : Bool) (g : G) (starts goals : List Int)
    (r : Res (List Int × C)) : Prop :=
  if lazy then LazyValueRun (ops.size g) (ops.get g) starts goals e.valid e.dist e.dist limit r
  else GraphSearchRun (ops.size g) (ops.get g) starts goals e.dist limit r

/-- simple_prm_planner.hpp:790-851 `LazyQueryPathAndAddNodes` (`lazy`) and 881-936 `QueryPathAndAddNodes`: possible results, the
roadmap afterwards and the answer. -/
inductive QueryRun [Inhabited V] (ops : GraphOps G V C) (e : Env V C) (lazy limit : Bool) (starts goals : List V) (g : G) :
    G × Res (List V × C) → Prop
  | noStarts (h : starts = []) : QueryRun ops e lazy limit starts goals g (g, .throw .runtimeError)
  | noGoals (h : starts ≠ []) (h' : goals = []) : QueryRun ops e lazy limit starts goals g (g, .throw .runtimeError)
  | startsThrow {g1 : G} {x : Exc} (h : starts ≠ []) (h' : goals ≠ [])
      (h1 : AddAllRun ops e .newToRoadmap (ops.size g) starts g (g1, .throw x)) : QueryRun ops e lazy limit starts goals g (g1, .throw x)
  | startsUb {g1 : G} (h : starts ≠ []) (h' : goals ≠ [])
      (h1 : AddAllRun ops e .newToRoadmap (ops.size g) starts g (g1, .ub)) : QueryRun ops e lazy limit starts goals g (g1, .ub)
  | goalsThrow {g1 g2 : G} {si : List Int} {x : Exc} (h : starts ≠ []) (h' : goals ≠ [])
      (h1 : AddAllRun ops e .newToRoadmap (ops.size g) starts g (g1, .ok si))
      (h2 : AddAllRun ops e .roadmapToNew (ops.size g1) goals g1 (g2, .throw x)) : QueryRun ops e lazy limit starts goals g (g2, .throw x)
  | goalsUb {g1 g2 : G} {si : List Int} (h : starts ≠ []) (h' : goals ≠ [])
      (h1 : AddAllRun ops e .newToRoadmap (ops.size g) starts g (g1, .ok si))
      (h2 : AddAllRun ops e .roadmapToNew (ops.size g1) goals g1 (g2, .ub)) : QueryRun ops e lazy limit starts goals g (g2, .ub)
  | searched {g1 g2 : G} {si gi : List Int} {r : Res (List Int × C)} (h : starts ≠ []) (h' : goals ≠ [])
      (h1 : AddAllRun ops e .newToRoadmap (ops.size g) starts g (g1, .ok si))
      (h2 : AddAllRun ops e .roadmapToNew (ops.size g1) goals g1 (g2, .ok gi)) (hs : SearchRun ops e lazy limit g2 si gi r) :
      QueryRun ops e lazy limit starts goals g (g2, do
        let sol ← r
        extractSolution ops g2 sol)

/-- simple_prm_planner.hpp:971-1003 `LazyQueryPath` and 1033-1065 `QueryPath`: the query runs on an overlay of the roadmap or on a
copy; the roadmap as the caller sees it afterwards (the overlay's base, or the original the copy was made from), and the answer. -/
inductive QueryPathRun [Inhabited V] (e : Env V C) (lazy limit : Bool) (starts goals : List V) (g : Graph V C) :
    (useOverlay : Bool) → Graph V C × Res (List V × C) → Prop
  | overlay {o : Overlay V C} {r : Res (List V × C)} (h : QueryRun overlayOps e lazy limit starts goals (mkOverlay g) (o, r)) :
      QueryPathRun e lazy limit starts goals g true (o.base, r)
  | copy {g' : Graph V C} {r : Res (List V × C)} (h : QueryRun graphOps e lazy limit starts goals g (g', r)) :
      QueryPathRun e lazy limit starts goals g false (g, r)

end CRU.Prm
