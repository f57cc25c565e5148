import Verif.GraphSearch.Model
import Verif.Astar.Callbacks
/-
  The A* searches of include/common_robotics_utilities/simple_graph_search.hpp with functions that keep state and that may throw.
  What a function answers may depend on every call made before it, of any of the functions, and on every answer given: the functions are
  functions of the list of calls so far. Every run ends with the list of the calls that were made. The graph is not changed by the functions
  (they get a `const GraphType&`); costs and the priority queue as in `Verif/GraphSearch/Model.lean`.
-/
namespace CRU.GraphSearch.Callbacks
open CRU.Graph CRU.Astar
open CRU.Astar.Callbacks (Fail ofRes dups)

variable {V C ε α β : Type}

/-- One call: its arguments, and the answer or exception. (no project code: C++ or bookkeeping) -/
inductive Event (C ε : Type) where
  /-- `goal_check_fn` (first overload) -/
  | goal (i : Int) (ans : Except ε Bool)
  /-- `heuristic_fn` of the first overload -/
  | heur (i : Int) (ans : Except ε C)
  /-- `heuristic_fn` of the others: from a node to a goal -/
  | heurTo (i g : Int) (ans : Except ε C)
  /-- `edge_validity_check_fn` -/
  | valid (e : Edge C) (ans : Except ε Bool)
  /-- `distance_fn` -/
  | dist (e : Edge C) (ans : Except ε C)

/-- The calls made so far, in order. (no project code: C++ or bookkeeping) -/
abbrev Hist (C ε : Type) := List (Event C ε)

/-- Code that makes calls. (no project code: C++ or bookkeeping) -/
abbrev Run (C ε α : Type) := Hist C ε → Except (Fail ε) α × Hist C ε

/-- A statement that does nothing but give `a`. (no project code: C++ or bookkeeping) -/
def ret (a : α) : Run C ε α := fun h => (.ok a, h)

/-- Sequential composition; an exception skips the rest: nothing in the file catches. (no project code: C++ or bookkeeping) -/
def seq (m : Run C ε α) (f : α → Run C ε β) : Run C ε β := fun h =>
  match m h with
  | (.ok a, h1) => f a h1
  | (.error x, h1) => (.error x, h1)

instance : Monad (Run C ε) where
  pure := ret
  bind := seq

/-- A call: the answer, and the call added to the list. (no project code: C++ or bookkeeping) -/
def ask (f : Hist C ε → Except ε α) (ev : Except ε α → Event C ε) : Run C ε α := fun h =>
  match f h with
  | .ok a => (.ok a, h ++ [ev (.ok a)])
  | .error x => (.error (.user x), h ++ [ev (.error x)])

/-- The functions that a user can give to a search; the first overload takes `goal` and `heur`, the second one `heurTo` instead.
(simple_graph_search.hpp:232-246, 443-457) -/
structure Fns (C ε : Type) where
  /-- `goal_check_fn` -/
  goal : Hist C ε → Int → Except ε Bool
  /-- `heuristic_fn` of the first overload -/
  heur : Hist C ε → Int → Except ε C
  /-- `heuristic_fn` of the second overload -/
  heurTo : Hist C ε → Int → Int → Except ε C
  /-- `edge_validity_check_fn` -/
  valid : Hist C ε → Edge C → Except ε Bool
  /-- `distance_fn` -/
  dist : Hist C ε → Edge C → Except ε C

/-- What the search works with. (simple_graph_search.hpp:232-246) -/
structure World (V C ε : Type) where
  /-- `graph.GetNodeImmutable` -/
  get : Int → Res (Node V C)
  /-- `goal_check_fn`, as code: a function of the user, or the lambda of the second overload -/
  goal : Int → Run C ε Bool
  /-- `heuristic_fn`, as code -/
  heur : Int → Run C ε C
  /-- `edge_validity_check_fn` -/
  valid : Hist C ε → Edge C → Except ε Bool
  /-- `distance_fn` -/
  dist : Hist C ε → Edge C → Except ε C
  /-- `limit_pqueue_duplicates` -/
  limit : Bool

variable [LT C] [LE C] [DecidableLT C] [DecidableLE C] [DecidableEq C] [Add C] [Zero C] [Top C]

/-- simple_graph_search.hpp:256-269: the loop over the starts: every start is checked. -/
def bestStarts (W : World V C ε) : Option (Int × C) → List (Int × C) → Run C ε (Option (Int × C))
  | best, [] => ret best
  | best, s :: l => do
    let g ← W.goal s.1
    bestStarts W (if g then (if s.2 < bestCost best then some s else best) else best) l

/-- simple_graph_search.hpp:333-348: the loop that queues the starts. -/
def pushStarts (W : World V C ε) : St Int C → List (Int × C) → Run C ε (St Int C)
  | st, [] => ret st
  | st, s :: l =>
    if queueBetter (dups W.limit) st.members s.1 s.2 then pushStarts W st l else do
      let v ← W.heur s.1
      pushStarts W (push (dups W.limit) st ⟨s.1, none, s.2, v⟩) l

/-- simple_graph_search.hpp:387-429: the loop over the out-edges of `parent`, whose cost-to-come is `pc`: an edge is checked, measured and its
child queued before the next edge is looked at. -/
def pushEdges (W : World V C ε) (parent : Int) (pc : C) : St Int C → List (Edge C) → Run C ε (St Int C)
  | st, [] => ret st
  | st, e :: l => do
    let v ← ask (fun h => W.valid h e) (Event.valid e)
    if v then do
      let d ← ask (fun h => W.dist h e) (Event.dist e)
      if exploredBetter st.explored e.dst (pc + d) || queueBetter (dups W.limit) st.members e.dst (pc + d) then pushEdges W parent pc st l else do
        let hv ← W.heur e.dst
        pushEdges W parent pc (push (dups W.limit) st ⟨e.dst, some parent, pc + d, pc + d + hv⟩) l
    else pushEdges W parent pc st l

/-- simple_graph_search.hpp:384-430: the out-edges of the accepted node, and the loop over them. -/
def expandTop (W : World V C ε) (top : Elem Int C) (st : St Int C) : Run C ε (St Int C) := do
  let n ← (fun h => (ofRes (W.get top.state), h))
  pushEdges W top.state top.cost st n.outs

/-- simple_graph_search.hpp:357-376: the search after an element was taken and found worth exploring. -/
def accept (W : World V C ε) (st : St Int C) (top : Elem Int C) (rest : List (Elem Int C)) : St Int C :=
  ⟨rest, erased (dups W.limit) st.members top.state, upd st.explored top.state (some (top.cost, top.back))⟩

/-- simple_graph_search.hpp:354-431: one iteration of the search loop that does not leave it. -/
inductive Step (W : World V C ε) : St Int C × Hist C ε → St Int C × Hist C ε → Prop
  | skip {st : St Int C} {h : Hist C ε} {top : Elem Int C} {rest : List (Elem Int C)} (hp : Pop st.queue top rest)
      (hb : exploredBetter st.explored top.state top.cost = true) :
      Step W (st, h) (⟨rest, erased (dups W.limit) st.members top.state, st.explored⟩, h)
  | expand {st st' : St Int C} {h h1 h2 : Hist C ε} {top : Elem Int C} {rest : List (Elem Int C)} (hp : Pop st.queue top rest)
      (hb : exploredBetter st.explored top.state top.cost = false) (hg : W.goal top.state h = (.ok false, h1))
      (hk : expandTop W top (accept W st top rest) h1 = (.ok st', h2)) : Step W (st, h) (st', h2)

/-- Any number of iterations. (simple_graph_search.hpp:354-431) -/
inductive Steps (W : World V C ε) : St Int C × Hist C ε → St Int C × Hist C ε → Prop
  | refl (a : St Int C × Hist C ε) : Steps W a a
  | step {a b c : St Int C × Hist C ε} (h : Step W a b) (t : Steps W b c) : Steps W a c

/-- simple_graph_search.hpp:354-440: how the search loop ends: outcome and calls. -/
inductive Ends (W : World V C ε) : St Int C × Hist C ε → Except (Fail ε) (List Int × C) → Hist C ε → Prop
  | empty {st : St Int C} {h : Hist C ε} (hq : st.queue = []) : Ends W (st, h) (.ok ([], ⊤)) h
  | goalThrows {st : St Int C} {h h1 : Hist C ε} {x : Fail ε} {top : Elem Int C} {rest : List (Elem Int C)} (hp : Pop st.queue top rest)
      (hb : exploredBetter st.explored top.state top.cost = false) (hg : W.goal top.state h = (.error x, h1)) : Ends W (st, h) (.error x) h1
  | goal {st : St Int C} {h h1 : Hist C ε} {r : Res (List Int × C)} {top : Elem Int C} {rest : List (Elem Int C)} (hp : Pop st.queue top rest)
      (hb : exploredBetter st.explored top.state top.cost = false) (hg : W.goal top.state h = (.ok true, h1))
      (hx : Extract (accept W st top rest).explored top.state r) : Ends W (st, h) (ofRes r) h1
  | edgesThrow {st : St Int C} {h h1 h2 : Hist C ε} {x : Fail ε} {top : Elem Int C} {rest : List (Elem Int C)} (hp : Pop st.queue top rest)
      (hb : exploredBetter st.explored top.state top.cost = false) (hg : W.goal top.state h = (.ok false, h1))
      (hk : expandTop W top (accept W st top rest) h1 = (.error x, h2)) : Ends W (st, h) (.error x) h2

/-- simple_graph_search.hpp:253-276: `best_start_index_meeting_goal` after the loop is negative: no start was accepted, or one with a negative index. -/
def noEarly (best : Option (Int × C)) : Prop := ∀ s, best = some s → ¬ s.1 ≥ 0

/-- simple_graph_search.hpp:231-441 `PerformLazyAstarSearch`, first overload: a possible outcome, with all the calls that were made. -/
inductive AstarRun (W : World V C ε) (starts : List (Int × C)) : Except (Fail ε) (List Int × C) → Hist C ε → Prop
  | noStarts (hs : starts = []) : AstarRun W starts (.error (.lib .invalidArgument)) []
  | checkThrows {x : Fail ε} {h : Hist C ε} (hs : starts ≠ []) (hb : bestStarts W none starts [] = (.error x, h)) :
      AstarRun W starts (.error x) h
  | early {s : Int × C} {h : Hist C ε} (hs : starts ≠ []) (hb : bestStarts W none starts [] = (.ok (some s), h)) (h0 : s.1 ≥ 0) :
      AstarRun W starts (ofRes (mkResult [s.1] s.2)) h
  | initThrows {x : Fail ε} {h h1 : Hist C ε} {best : Option (Int × C)} (hs : starts ≠ [])
      (hb : bestStarts W none starts [] = (.ok best, h)) (hn : noEarly best)
      (hi : pushStarts W ⟨[], fun _ => none, fun _ => none⟩ starts h = (.error x, h1)) : AstarRun W starts (.error x) h1
  | search {st st' : St Int C} {h h1 h2 h3 : Hist C ε} {best : Option (Int × C)} {r : Except (Fail ε) (List Int × C)} (hs : starts ≠ [])
      (hb : bestStarts W none starts [] = (.ok best, h)) (hn : noEarly best)
      (hi : pushStarts W ⟨[], fun _ => none, fun _ => none⟩ starts h = (.ok st, h1)) (hrun : Steps W (st, h1) (st', h2))
      (he : Ends W (st', h2) r h3) : AstarRun W starts r h3

/-- simple_graph_search.hpp:231-246: the first overload: goal check and heuristic are functions of the user. -/
def world1 (get : Int → Res (Node V C)) (F : Fns C ε) (limit : Bool) : World V C ε :=
  ⟨get, fun i => ask (fun h => F.goal h i) (Event.goal i), fun i => ask (fun h => F.heur h i) (Event.heur i), F.valid, F.dist, limit⟩

/-- simple_graph_search.hpp:490-507: the loop of `heuristic_function`: the heuristic is asked for every goal, in order. -/
def bestHeur (heurTo : Hist C ε → Int → Int → Except ε C) (i : Int) : C → List Int → Run C ε C
  | best, [] => ret best
  | best, g :: l => do
    let v ← ask (fun h => heurTo h i g) (Event.heurTo i g)
    bestHeur heurTo i (if v < best then v else best) l

/-- simple_graph_search.hpp:474-517: the second overload: the node is compared with the goals, the heuristic is the smallest one over the goals. -/
def world2 (get : Int → Res (Node V C)) (goals : List Int) (F : Fns C ε) (limit : Bool) : World V C ε :=
  ⟨get, fun i => ret (goals.any fun g => i = g), fun i => bestHeur F.heurTo i ⊤ goals, F.valid, F.dist, limit⟩

/-- simple_graph_search.hpp:443-518 `PerformLazyAstarSearch`, second overload: the indices are checked first; starts cost 0. -/
inductive LazyCalls (size : Int) (get : Int → Res (Node V C)) (starts goals : List Int) (F : Fns C ε) (limit : Bool) :
    Except (Fail ε) (List Int × C) → Hist C ε → Prop
  | badIndex (hb : starts.any (fun i => !indexInRange size i) || goals.any (fun i => !indexInRange size i)) :
      LazyCalls size get starts goals F limit (.error (.lib .invalidArgument)) []
  | run {r : Except (Fail ε) (List Int × C)} {h : Hist C ε}
      (hb : (starts.any (fun i => !indexInRange size i) || goals.any (fun i => !indexInRange size i)) = false)
      (hr : AstarRun (world2 get goals F limit) (starts.map fun i => (i, 0)) r h) : LazyCalls size get starts goals F limit r h

/-- simple_graph_search.hpp:533-563: the third overload calls the second one with these functions, made from functions of node values. The nodes
exist when the graph is linked correctly (`C114_values`), see `valueAt`. -/
def valueFns [Inhabited V] (get : Int → Res (Node V C)) (valid : Hist C ε → V → V → Except ε Bool) (dist : Hist C ε → V → V → Except ε C)
    (heur : Hist C ε → V → V → Except ε C) : Fns C ε :=
  ⟨fun _ _ => .ok false, fun _ _ => .ok ⊤, fun h i g => heur h (valueAt get i) (valueAt get g),
    fun h e => valid h (valueAt get e.src) (valueAt get e.dst), fun h e => dist h (valueAt get e.src) (valueAt get e.dst)⟩

/-- simple_graph_search.hpp:575-605: `PerformAstarSearch` calls the second overload with these functions: the edges of finite weight, their
weights as distances. -/
def weightFns [Inhabited V] (get : Int → Res (Node V C)) (heur : Hist C ε → V → V → Except ε C) : Fns C ε :=
  ⟨fun _ _ => .ok false, fun _ _ => .ok ⊤, fun h i g => heur h (valueAt get i) (valueAt get g),
    fun _ e => .ok (decide (e.weight < ⊤)), fun _ e => .ok e.weight⟩

end CRU.GraphSearch.Callbacks
