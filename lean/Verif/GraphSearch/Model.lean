import Verif.Graph.Model
import Verif.Astar.Model
/-
  Model of include/common_robotics_utilities/simple_graph_search.hpp. The graph type is anything with `Size()` and
  `GetNodeImmutable` (a `Graph` or an overlay): `size` and `get`. Costs as in `Verif/Cost.lean`. Priority queues pop
  *some* element of minimal priority.
-/
namespace CRU.GraphSearch
open CRU.Graph

variable {V C : Type} [LT C] [LE C] [DecidableLT C] [DecidableLE C] [DecidableEq C] [Add C] [Zero C] [Top C]

/-- `v.at(static_cast<size_t>(i)) = x`. -/
def setAt {α : Type} (l : List α) (i : Int) (x : α) : Res (List α) :=
  if 0 ≤ i ∧ i.toNat < l.length then .ok (l.set i.toNat x) else .throw .outOfRange

/-- simple_graph_search.hpp:156-166, the local state of `PerformDijkstrasAlgorithm`. -/
structure DSt (C : Type) where
  prev : List Int
  dist : List C
  queue : List (Int × C)
  explored : List Int

/-- simple_graph_search.hpp:184-215, body of the loop over the in-edges of `top` (whose distance is `d`). -/
def relax (top : Int) (d : C) (st : DSt C) (e : Edge C) : Res (DSt C) := do
  let stored ← atInt st.dist e.src
  if d + e.weight < stored then
    let prev ← setAt st.prev e.src top
    let dist ← setAt st.dist e.src (d + e.weight)
    pure ⟨prev, dist, if e.src ∈ st.explored then st.queue else (e.src, d + e.weight) :: st.queue, st.explored⟩
  else pure st

/-- simple_graph_search.hpp:184-215 -/
def relaxAll (top : Int) (d : C) : List (Edge C) → DSt C → Res (DSt C)
  | [], st => .ok st
  | e :: es, st => do
    let st' ← relax top d st e
    relaxAll top d es st'

/-- simple_graph_search.hpp:171-172 `queue.top(); queue.pop();` -/
def DPop (q : List (Int × C)) (top : Int × C) (rest : List (Int × C)) : Prop :=
  q.Perm (top :: rest) ∧ ∀ x ∈ rest, top.2 ≤ x.2

/-- simple_graph_search.hpp:173-216, what one iteration does with the popped element. -/
def visit (get : Int → Res (Node V C)) (st : DSt C) (top : Int × C) (rest : List (Int × C)) : Res (DSt C) :=
  if top.1 ∈ st.explored then .ok { st with queue := rest }
  else do
    let n ← get top.1
    relaxAll top.1 top.2 n.ins { st with queue := rest, explored := top.1 :: st.explored }

/-- simple_graph_search.hpp:169-217, one iteration of the loop. -/
inductive DStep (get : Int → Res (Node V C)) : DSt C → DSt C → Prop
  | mk {st st' : DSt C} {top : Int × C} {rest : List (Int × C)} (hp : DPop st.queue top rest)
      (h : visit get st top rest = .ok st') : DStep get st st'

/-- (simple_graph_search.hpp:156-250) -/
inductive DSteps (get : Int → Res (Node V C)) : DSt C → DSt C → Prop
  | refl (st : DSt C) : DSteps get st st
  | step {a b c : DSt C} (h : DStep get a b) (t : DSteps get b c) : DSteps get a c

/-- simple_graph_search.hpp:152-168 -/
def dinit (size start : Int) : DSt C :=
  ⟨(List.replicate size.toNat (-1)).set start.toNat start, (List.replicate size.toNat ⊤).set start.toNat 0, [(start, 0)], []⟩

/-- simple_graph_search.hpp:63-72, constructor of `DijkstrasResult`. -/
def mkDijkstra (prev : List Int) (dist : List C) : Res (List Int × List C) :=
  if prev.length ≠ dist.length then .throw .invalidArgument else .ok (prev, dist)

/-- simple_graph_search.hpp:148-218 `PerformDijkstrasAlgorithm`: `r` is a possible outcome. -/
inductive DijkstraRun (size : Int) (get : Int → Res (Node V C)) (start : Int) : Res (List Int × List C) → Prop
  | badStart (h : indexInRange size start = false) : DijkstraRun size get start (.throw .invalidArgument)
  | done {st : DSt C} (h : indexInRange size start = true) (hr : DSteps get (dinit size start) st) (hq : st.queue = []) :
      DijkstraRun size get start (mkDijkstra st.prev st.dist)
  | throws {st : DSt C} {top : Int × C} {rest : List (Int × C)} {e : Exc} (h : indexInRange size start = true)
      (hr : DSteps get (dinit size start) st) (hp : DPop st.queue top rest) (hv : visit get st top rest = .throw e) :
      DijkstraRun size get start (.throw e)
  | ub {st : DSt C} {top : Int × C} {rest : List (Int × C)} (h : indexInRange size start = true)
      (hr : DSteps get (dinit size start) st) (hp : DPop st.queue top rest) (hv : visit get st top rest = .ub) :
      DijkstraRun size get start .ub

/-! ### A* on a graph -/

/-- simple_graph_search.hpp:374-415: the children of a popped node. The loop computes exactly what the loop of `simple_astar_search` computes on
the valid out-edges, so it is modelled as the child function of an `Astar.Problem`; the sign of a distance is *not*
checked here. -/
def graphExpand (get : Int → Res (Node V C)) (valid : Edge C → Bool) (dist : Edge C → C) (i : Int) : Res (List (Int × C)) := do
  let n ← get i
  pure ((n.outs.filter valid).map fun e => (e.dst, dist e))

/-- simple_graph_search.hpp:231-246: callbacks of the first overload. -/
def graphProblem (get : Int → Res (Node V C)) (goal : Int → Bool) (valid : Edge C → Bool) (dist : Edge C → C) (h : Int → C)
    (limit : Bool) : Astar.Problem Int C := ⟨goal, graphExpand get valid dist, h, limit⟩

/-- simple_graph_search.hpp:247-441 `PerformLazyAstarSearch`, first overload. Differs from `Astar.AstarRun` only in the early return, which
requires a non-negative index (273). -/
inductive GraphAstarRun (P : Astar.Problem Int C) (starts : List (Int × C)) : Res (List Int × C) → Prop
  | noStarts (h : starts = []) : GraphAstarRun P starts (.throw .invalidArgument)
  | early {s : Int × C} (hs : starts ≠ []) (h : Astar.bestStart P.goal starts = some s) (h0 : s.1 ≥ 0) :
      GraphAstarRun P starts (Astar.mkResult [s.1] s.2)
  | search {st : Astar.St Int C} {r : Res (List Int × C)} (hs : starts ≠ [])
      (h : ∀ s, Astar.bestStart P.goal starts = some s → ¬ s.1 ≥ 0)
      (hrun : Astar.Steps P (Astar.init P starts) st) (he : Astar.Ends P st r) : GraphAstarRun P starts r

/-- simple_graph_search.hpp:489-504: the smallest heuristic over the goals. -/
def minHeuristic (goals : List Int) (h : Int → Int → C) (i : Int) : C :=
  goals.foldl (fun best g => if h i g < best then h i g else best) ⊤

/-- simple_graph_search.hpp:443-518, second overload: ranges are checked, starts cost 0, the heuristic is the minimum over the goals. -/
inductive LazyRun (size : Int) (get : Int → Res (Node V C)) (starts goals : List Int) (valid : Edge C → Bool)
    (dist : Edge C → C) (h : Int → Int → C) (limit : Bool) : Res (List Int × C) → Prop
  | badIndex (hb : starts.any (fun i => !indexInRange size i) || goals.any (fun i => !indexInRange size i)) :
      LazyRun size get starts goals valid dist h limit (.throw .invalidArgument)
  | run {r : Res (List Int × C)}
      (hb : (starts.any (fun i => !indexInRange size i) || goals.any (fun i => !indexInRange size i)) = false)
      (hr : GraphAstarRun (graphProblem get (fun i => goals.any fun g => i = g) valid dist (minHeuristic goals h) limit)
        (starts.map fun i => (i, 0)) r) :
      LazyRun size get starts goals valid dist h limit r

/-- The value of node `i`; only used on indices for which `GetNodeImmutable` succeeds (`C23_indices_in_range`), `default`
elsewhere. (simple_graph.hpp:262-270) -/
def valueAt [Inhabited V] (get : Int → Res (Node V C)) (i : Int) : V :=
  match get i with
  | .ok n => n.value
  | _ => default

/-- simple_graph_search.hpp:520-564, third overload: callbacks on node values. -/
def LazyValueRun [Inhabited V] (size : Int) (get : Int → Res (Node V C)) (starts goals : List Int) (valid : V → V → Bool)
    (dist : V → V → C) (h : V → V → C) (limit : Bool) (r : Res (List Int × C)) : Prop :=
  LazyRun size get starts goals (fun e => valid (valueAt get e.src) (valueAt get e.dst))
    (fun e => dist (valueAt get e.src) (valueAt get e.dst)) (fun i g => h (valueAt get i) (valueAt get g)) limit r

/-- simple_graph_search.hpp:566-606 `PerformAstarSearch`: edges of finite weight, their weights as distances. -/
def GraphSearchRun [Inhabited V] (size : Int) (get : Int → Res (Node V C)) (starts goals : List Int) (h : V → V → C)
    (limit : Bool) (r : Res (List Int × C)) : Prop :=
  LazyRun size get starts goals (fun e => decide (e.weight < ⊤)) (fun e => e.weight)
    (fun i g => h (valueAt get i) (valueAt get g)) limit r

/-! ### Serialization of results -/

/-- simple_graph_search.hpp:74-87 `DijkstrasResult::SerializeSelf`: the previous-index map, then the distances. -/
def serDijkstra {I D : Type} (little : Bool) (ri : Ser.Repr I) (rd : Ser.Repr D) : Ser.Serializer (List I × List D) :=
  Ser.wrote fun x => Ser.seqW (Ser.put (Ser.serMemVec (Ser.serU64 little) ri) x.1)
    (Ser.put (Ser.serMemVec (Ser.serU64 little) rd) x.2)

/-- simple_graph_search.hpp:89-113, 42-49 `DijkstrasResult::DeserializeSelf` / `Deserialize`; the sizes must agree. -/
def deDijkstra {I D : Type} (little : Bool) (ri : Ser.Repr I) (rd : Ser.Repr D) : Ser.Deserializer (List I × List D) :=
  Ser.finish <| (Ser.field (Ser.deMemVec (Ser.deU64 little) ri)).andThen fun i =>
    (Ser.field (Ser.deMemVec (Ser.deU64 little) rd)).andThen fun d =>
      Ser.Cursor.check (decide (i.length = d.length)) .invalidArgument (Ser.Cursor.done (i, d))

end CRU.GraphSearch
