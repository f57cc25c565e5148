import Verif.Prm.Spec
import Verif.Knn.Model
import Verif.GraphSearch.Model
/-
  Model of include/common_robotics_utilities/simple_prm_planner.hpp. Costs are values of a linear order with 0 and ∞ (`⊤`), as
  in `Verif/Cost.lean`. The distance and edge-validity functions are functions (the documentation asks for thread-safe
  functions; the thread number is not modelled as an argument). `infeasible` is the value -1.0 that the code uses as a mark. A
  loop that runs in parallel runs its bodies in any order the parallel loop allows (`IndexRun`), each body atomically.
-/
namespace CRU.Prm
open CRU.Graph CRU.Knn CRU.Parallel CRU.GraphSearch

variable {V C G σ : Type}

/-- The operations of the graph type, a `Graph` or an overlay. (simple_graph.hpp:262-547, 679-916) -/
structure GraphOps (G V C : Type) where
  size : G → Int
  get : G → Int → Res (Node V C)
  addValue : G → V → G × Int
  addEdge : G → Int → Int → C → G × Res Unit

/-- simple_graph.hpp:679-738 -/
def graphOps : GraphOps (Graph V C) V C where
  size g := g.length
  get := getNode
  addValue := addNodeValue
  addEdge := CRU.Graph.addEdge

/-- simple_graph.hpp:798-887 -/
def overlayOps : GraphOps (Overlay V C) V C where
  size o := o.size
  get := Overlay.get
  addValue o v := o.addNode ⟨v, [], []⟩
  addEdge := Overlay.addEdge

/-- The arguments shared by the functions of the planner. (simple_prm_planner.hpp:233-245) -/
structure Env (V C : Type) where
  knn : Provider V C
  dist : V → V → C
  valid : V → V → Bool
  infeasible : C
  K : Int
  backend : Backend
  threads : Int
  symmetric : Bool
  addDuplicates : Bool

section
variable [LinearOrder C] [Zero C]

/-- simple_prm_planner.hpp:111-126 `SanityCheckKNNResults`. -/
def sanityCheck (l : List (Entry C)) (size maxNode : Int) : Res Unit :=
  if l.any (fun e => decide (e.index ≥ size) || decide (e.index ≥ maxNode)) then .throw .runtimeError else .ok ()

/-- simple_prm_planner.hpp:46-79 `GetKNearestNeighbors` (both overloads): `r` is a possible outcome. -/
def KnnQuery (knn : Provider V C) (size : Int) (get : Int → Res (Node V C)) (state : V) (K : Int) (dir : Dir) (maxNode : Int)
    (r : Res (List (Entry C))) : Prop :=
  ∃ r0, knn size get state K dir maxNode r0 ∧ r = (do
    let l ← r0
    sanityCheck l size maxNode
    pure l)

/-- simple_prm_planner.hpp:253-262: the first neighbour at distance zero. -/
def firstDuplicate (l : List (Entry C)) : Option (Entry C) := l.find? fun e => decide (e.dist = 0)

/-- simple_prm_planner.hpp:271-320 `per_item_work`: the pair (distance for the edge neighbour → new node, distance for the
edge new node → neighbour) computed for a neighbour with state `nb` at distance `d`. -/
def itemDistances (e : Env V C) (dir : Dir) (state nb : V) (d : C) : C × C :=
  let graphToNodeValid := e.valid nb state
  if graphToNodeValid && e.symmetric then (d, d)
  else if !e.symmetric then
    let nodeToGraphValid := e.valid state nb
    let nodeToGraphDistance := e.dist state nb
    let realGraphToNode := if graphToNodeValid then d else e.infeasible
    let realNodeToGraph := if nodeToGraphValid then nodeToGraphDistance else e.infeasible
    match dir with
    | .roadmapToNew => (realGraphToNode, realNodeToGraph)
    | .newToRoadmap => (realNodeToGraph, realGraphToNode)
  else (e.infeasible, e.infeasible)

/-- simple_prm_planner.hpp:327-346, the loop that adds the edges. -/
def addEdgesLoop (ops : GraphOps G V C) (newIdx : Int) : List (Entry C × (C × C)) → G → G × Res Unit
  | [], g => (g, .ok ())
  | (e, d) :: rest, g =>
    match (if 0 ≤ d.1 then ops.addEdge g e.index newIdx d.1 else (g, .ok ())) with
    | (g1, .ok ()) =>
      match (if 0 ≤ d.2 then ops.addEdge g1 newIdx e.index d.2 else (g1, .ok ())) with
      | (g2, .ok ()) => addEdgesLoop ops newIdx rest g2
      | r => r
    | r => r

/-- simple_prm_planner.hpp:265-348: add the node, compute the distances in the order `order` into `init`, add the edges. The
roadmap as left behind is returned together with the outcome. -/
def insertState (ops : GraphOps G V C) (e : Env V C) (state : V) (dir : Dir) (l : List (Entry C)) (order : List Int)
    (init : List (C × C)) (g : G) : G × Res Int :=
  let (g1, newIdx) := ops.addValue g state
  match fillAll (fun i => do
      let nb ← atInt l i
      let n ← ops.get g1 nb.index
      pure (itemDistances e dir state n.value nb.dist)) 0 order init with
  | .ok ds =>
    match addEdgesLoop ops newIdx (l.zip ds) g1 with
    | (g2, .ok ()) => (g2, .ok newIdx)
    | (g2, .throw x) => (g2, .throw x)
    | (g2, .ub) => (g2, .ub)
  | .throw x => (g1, .throw x)
  | .ub => (g1, .ub)

/-- simple_prm_planner.hpp:233-349 `AddNodeToRoadmap`: possible results (roadmap afterwards, returned index or failure). -/
inductive AddNodeRun (ops : GraphOps G V C) (e : Env V C) (state : V) (dir : Dir) (maxNode : Int) (g : G) : G × Res Int → Prop
  | knnThrows {x : Exc} (h : KnnQuery e.knn (ops.size g) (ops.get g) state e.K dir maxNode (.throw x)) :
      AddNodeRun ops e state dir maxNode g (g, .throw x)
  | knnUb (h : KnnQuery e.knn (ops.size g) (ops.get g) state e.K dir maxNode .ub) : AddNodeRun ops e state dir maxNode g (g, .ub)
  | duplicate {l : List (Entry C)} {d : Entry C}
      (h : KnnQuery e.knn (ops.size g) (ops.get g) state e.K dir maxNode (.ok l)) (hd : e.addDuplicates = false)
      (hf : firstDuplicate l = some d) : AddNodeRun ops e state dir maxNode g (g, .ok d.index)
  | added {l : List (Entry C)} {order : List Int} {init : List (C × C)}
      (h : KnnQuery e.knn (ops.size g) (ops.get g) state e.K dir maxNode (.ok l))
      (hd : e.addDuplicates = true ∨ firstDuplicate l = none)
      (ho : IndexRun e.backend e.threads 0 l.length order) (hi : init.length = l.length) :
      AddNodeRun ops e state dir maxNode g (insertState ops e state dir l order init g)

/-! ### GrowRoadMap -/

/-- simple_prm_planner.hpp:394-397, 404-429: statistics, counted in doubles by the code (exact below 2^53). The elapsed time is not
modelled. -/
structure Stats where
  total : Nat
  successful : Nat
  duplicate : Nat
  failed : Nat
  deriving DecidableEq, Repr

/-- The stateful functions handed to `GrowRoadMap`. (simple_prm_planner.hpp:379-391) -/
structure GrowEnv (σ V : Type) where
  sample : σ → V × σ
  stateValid : σ → V → Bool × σ
  terminate : σ → Int → Bool × σ

/-- simple_prm_planner.hpp:379-432 `GrowRoadMap`: from statistics `st`, the possible ends. -/
inductive GrowRun (e : Env V C) (ge : GrowEnv σ V) : σ → Graph V C → Stats → Graph V C × Res Stats → Prop
  | stop {s : σ} {g : Graph V C} {st : Stats} (h : (ge.terminate s g.length).1 = true) : GrowRun e ge s g st (g, .ok st)
  | failed {s : σ} {g : Graph V C} {st : Stats} {out : Graph V C × Res Stats} {s1 s2 s3 : σ} {x : V}
      (h : ge.terminate s g.length = (false, s1)) (hs : ge.sample s1 = (x, s2)) (hv : ge.stateValid s2 x = (false, s3))
      (rest : GrowRun e ge s3 g { st with total := st.total + 1, failed := st.failed + 1 } out) : GrowRun e ge s g st out
  | grown {s : σ} {g g' : Graph V C} {st : Stats} {out : Graph V C × Res Stats} {s1 s2 s3 : σ} {x : V} {i : Int}
      (h : ge.terminate s g.length = (false, s1)) (hs : ge.sample s1 = (x, s2)) (hv : ge.stateValid s2 x = (true, s3))
      (ha : AddNodeRun graphOps e x .roadmapToNew g.length g (g', .ok i))
      (rest : GrowRun e ge s3 g' (if (g'.length : Int) > g.length
        then { st with total := st.total + 1, successful := st.successful + 1 }
        else { st with total := st.total + 1, duplicate := st.duplicate + 1 }) out) : GrowRun e ge s g st out
  | throws {s : σ} {g g' : Graph V C} {st : Stats} {s1 s2 s3 : σ} {x : V} {ex : Exc}
      (h : ge.terminate s g.length = (false, s1)) (hs : ge.sample s1 = (x, s2)) (hv : ge.stateValid s2 x = (true, s3))
      (ha : AddNodeRun graphOps e x .roadmapToNew g.length g (g', .throw ex)) : GrowRun e ge s g st (g', .throw ex)
  | ub {s : σ} {g g' : Graph V C} {st : Stats} {s1 s2 s3 : σ} {x : V}
      (h : ge.terminate s g.length = (false, s1)) (hs : ge.sample s1 = (x, s2)) (hv : ge.stateValid s2 x = (true, s3))
      (ha : AddNodeRun graphOps e x .roadmapToNew g.length g (g', .ub)) : GrowRun e ge s g st (g', .ub)

/-! ### UpdateRoadMapEdges -/

variable [OrderTop C]

/-- simple_prm_planner.hpp:709-715, the weight an edge from `a` to `b` gets. -/
def updatedWeight (valid : V → V → Bool) (dist : V → V → C) (a b : V) : C := if valid a b then dist a b else ⊤

/-- simple_prm_planner.hpp:704-726, what `per_item_work` does for the `k`-th out-edge of node `i`. -/
def updateEdge (valid : V → V → Bool) (dist : V → V → C) (i : Int) (k : Nat) (g : Graph V C) : Res (Graph V C) := do
  let cur ← getNode g i
  let edge ← atRaw cur.outs k
  let other ← getNode g edge.dst
  let w := updatedWeight valid dist cur.value other.value
  let g1 := g.modify i.toNat fun n => { n with outs := n.outs.modify k fun x => { x with weight := w } }
  pure (g1.modify edge.dst.toNat fun n => { n with ins := n.ins.map fun x => if x.src = i then { x with weight := w } else x })

/-- Run a body for each element of a list. (no project code: C++ or bookkeeping) -/
def forEach {α β : Type} (f : α → β → Res β) : List α → β → Res β
  | [], b => .ok b
  | x :: xs, b => do
    let b ← f x b
    forEach f xs b

/-- simple_prm_planner.hpp:699-727 `per_item_work`. -/
def updateNode (valid : V → V → Bool) (dist : V → V → C) (i : Int) (g : Graph V C) : Res (Graph V C) := do
  let cur ← getNode g i
  forEach (updateEdge valid dist i) (List.range cur.outs.length) g

/-- simple_prm_planner.hpp:687-732 `UpdateRoadMapEdges`: the roadmap afterwards, or the failure. -/
def UpdateRun (valid : V → V → Bool) (dist : V → V → C) (b : Backend) (threads : Int) (g : Graph V C) (r : Res (Graph V C)) :
    Prop :=
  match checkLinkage g.length (getNode g) with
  | .ok true => ∃ order, IndexRun b threads 0 g.length order ∧ r = forEach (updateNode valid dist) order g
  | .ok false => r = .throw .invalidArgument
  | .throw x => r = .throw x
  | .ub => r = .ub

end
end CRU.Prm
