import Verif.Astar.Model
/-
  include/common_robotics_utilities/simple_astar_search.hpp with functions that keep state and that may throw.
  What a function answers may depend on every call made before it, of any of the functions, and on every answer given: the functions are
  functions of the list of calls so far. Every run ends with the list of the calls that were made. States are compared with `=`, and the
  comparison and the hash do not throw; costs and the priority queue as in `Verif/Astar/Model.lean`.
-/
namespace CRU.Astar.Callbacks
open CRU.Astar

variable {S C ε α β : Type}

/-- One call: its arguments, and the answer or exception. (no project code: C++ or bookkeeping) -/
inductive Event (S C ε : Type) where
  /-- `goal_check_fn` -/
  | goal (s : S) (ans : Except ε Bool)
  /-- `heuristic_fn` -/
  | heur (s : S) (ans : Except ε C)
  /-- `generate_valid_children_fn` -/
  | kids (s : S) (ans : Except ε (List (S × C)))
  /-- `generate_children_fn` -/
  | gen (s : S) (ans : Except ε (List S))
  /-- `edge_validity_check_fn` -/
  | valid (s t : S) (ans : Except ε Bool)
  /-- `distance_fn` -/
  | dist (s t : S) (ans : Except ε C)

/-- The calls made so far, in order. (no project code: C++ or bookkeeping) -/
abbrev Hist (S C ε : Type) := List (Event S C ε)

/-- How a search can fail: an exception of the library, one of a function given by the user, undefined behaviour. (no project code: C++ or
bookkeeping) -/
inductive Fail (ε : Type) where
  | lib (x : Exc)
  | user (x : ε)
  | ub

/-- Code that makes calls. (no project code: C++ or bookkeeping) -/
abbrev Run (S C ε α : Type) := Hist S C ε → Except (Fail ε) α × Hist S C ε

/-- A statement that does nothing but give `a`. (no project code: C++ or bookkeeping) -/
def ret (a : α) : Run S C ε α := fun h => (.ok a, h)

/-- Sequential composition; an exception skips the rest: nothing in the file catches. (no project code: C++ or bookkeeping) -/
def seq (m : Run S C ε α) (f : α → Run S C ε β) : Run S C ε β := fun h =>
  match m h with
  | (.ok a, h1) => f a h1
  | (.error x, h1) => (.error x, h1)

instance : Monad (Run S C ε) where
  pure := ret
  bind := seq

/-- The outcome of code that calls nothing. (no project code: C++ or bookkeeping) -/
def ofRes : Res α → Except (Fail ε) α
  | .ok a => .ok a
  | .throw x => .error (.lib x)
  | .ub => .error .ub

/-- A call: the answer, and the call added to the list. (no project code: C++ or bookkeeping) -/
def ask (f : Hist S C ε → Except ε α) (ev : Except ε α → Event S C ε) : Run S C ε α := fun h =>
  match f h with
  | .ok a => (.ok a, h ++ [ev (.ok a)])
  | .error x => (.error (.user x), h ++ [ev (.error x)])

/-- The functions that a user can give to a search; the first overload takes `kids`, the second one `gen`, `valid` and `dist` instead.
(simple_astar_search.hpp:227-235, 456-468) -/
structure Fns (S C ε : Type) where
  /-- `goal_check_fn` -/
  goal : Hist S C ε → S → Except ε Bool
  /-- `heuristic_fn` -/
  heur : Hist S C ε → S → Except ε C
  /-- `generate_valid_children_fn` -/
  kids : Hist S C ε → S → Except ε (List (S × C))
  /-- `generate_children_fn` -/
  gen : Hist S C ε → S → Except ε (List S)
  /-- `edge_validity_check_fn` -/
  valid : Hist S C ε → S → S → Except ε Bool
  /-- `distance_fn` -/
  dist : Hist S C ε → S → S → Except ε C

/-- What the search works with. (simple_astar_search.hpp:227-235) -/
structure World (S C ε : Type) where
  /-- `goal_check_fn` -/
  goal : Hist S C ε → S → Except ε Bool
  /-- `heuristic_fn` -/
  heur : Hist S C ε → S → Except ε C
  /-- `generate_valid_children_fn`, as code: one function of the user, or the lambda of the second overload -/
  children : S → Run S C ε (List (S × C))
  /-- `limit_pqueue_duplicates` -/
  limit : Bool

variable [DecidableEq S] [LT C] [LE C] [DecidableLT C] [DecidableLE C] [DecidableEq C] [Add C] [Zero C] [Top C]

/-- The part of `Verif/Astar/Model.lean` that reads no function, only `limit_pqueue_duplicates`. (no project code: C++ or bookkeeping) -/
def dups (b : Bool) : Problem S C := ⟨fun _ => false, fun _ => .ok [], fun _ => ⊤, b⟩

/-- simple_astar_search.hpp:248-259: the loop over the starts: every start is checked. -/
def bestStarts (W : World S C ε) : Option (S × C) → List (S × C) → Run S C ε (Option (S × C))
  | best, [] => ret best
  | best, s :: l => do
    let g ← ask (fun h => W.goal h s.1) (Event.goal s.1)
    bestStarts W (if g then (if s.2 < bestCost best then some s else best) else best) l

/-- simple_astar_search.hpp:333-348: the loop that queues the starts. -/
def pushStarts (W : World S C ε) : St S C → List (S × C) → Run S C ε (St S C)
  | st, [] => ret st
  | st, s :: l =>
    if queueBetter (dups W.limit) st.members s.1 s.2 then pushStarts W st l else do
      let v ← ask (fun h => W.heur h s.1) (Event.heur s.1)
      pushStarts W (push (dups W.limit) st ⟨s.1, none, s.2, v⟩) l

/-- simple_astar_search.hpp:386-420: the loop over the children of `parent`, whose cost-to-come is `pc`. -/
def pushKids (W : World S C ε) (parent : S) (pc : C) : St S C → List (S × C) → Run S C ε (St S C)
  | st, [] => ret st
  | st, k :: l =>
    if exploredBetter st.explored k.1 (pc + k.2) || queueBetter (dups W.limit) st.members k.1 (pc + k.2) then pushKids W parent pc st l else do
      let v ← ask (fun h => W.heur h k.1) (Event.heur k.1)
      pushKids W parent pc (push (dups W.limit) st ⟨k.1, some parent, pc + k.2, pc + k.2 + v⟩) l

/-- simple_astar_search.hpp:383-420: the children of the accepted element, and the loop over them. -/
def expandTop (W : World S C ε) (top : Elem S C) (st : St S C) : Run S C ε (St S C) := do
  let kids ← W.children top.state
  pushKids W top.state top.cost st kids

/-- simple_astar_search.hpp:357-374: the search after an element was taken and found worth exploring. -/
def accept (W : World S C ε) (st : St S C) (top : Elem S C) (rest : List (Elem S C)) : St S C :=
  ⟨rest, erased (dups W.limit) st.members top.state, upd st.explored top.state (some (top.cost, top.back))⟩

/-- simple_astar_search.hpp:354-422: one iteration of the search loop that does not leave it. -/
inductive Step (W : World S C ε) : St S C × Hist S C ε → St S C × Hist S C ε → Prop
  | skip {st : St S C} {h : Hist S C ε} {top : Elem S C} {rest : List (Elem S C)} (hp : Pop st.queue top rest)
      (hb : exploredBetter st.explored top.state top.cost = true) :
      Step W (st, h) (⟨rest, erased (dups W.limit) st.members top.state, st.explored⟩, h)
  | expand {st st' : St S C} {h h1 h2 : Hist S C ε} {top : Elem S C} {rest : List (Elem S C)} (hp : Pop st.queue top rest)
      (hb : exploredBetter st.explored top.state top.cost = false)
      (hg : ask (fun h => W.goal h top.state) (Event.goal top.state) h = (.ok false, h1))
      (hk : expandTop W top (accept W st top rest) h1 = (.ok st', h2)) : Step W (st, h) (st', h2)

/-- Any number of iterations. (simple_astar_search.hpp:354-422) -/
inductive Steps (W : World S C ε) : St S C × Hist S C ε → St S C × Hist S C ε → Prop
  | refl (a : St S C × Hist S C ε) : Steps W a a
  | step {a b c : St S C × Hist S C ε} (h : Step W a b) (t : Steps W b c) : Steps W a c

/-- simple_astar_search.hpp:354-433: how the search loop ends: outcome and calls. -/
inductive Ends (W : World S C ε) : St S C × Hist S C ε → Except (Fail ε) (List S × C) → Hist S C ε → Prop
  | empty {st : St S C} {h : Hist S C ε} (hq : st.queue = []) : Ends W (st, h) (.ok ([], ⊤)) h
  | goalThrows {st : St S C} {h h1 : Hist S C ε} {x : Fail ε} {top : Elem S C} {rest : List (Elem S C)} (hp : Pop st.queue top rest)
      (hb : exploredBetter st.explored top.state top.cost = false)
      (hg : ask (fun h => W.goal h top.state) (Event.goal top.state) h = (.error x, h1)) : Ends W (st, h) (.error x) h1
  | goal {st : St S C} {h h1 : Hist S C ε} {r : Res (List S × C)} {top : Elem S C} {rest : List (Elem S C)} (hp : Pop st.queue top rest)
      (hb : exploredBetter st.explored top.state top.cost = false)
      (hg : ask (fun h => W.goal h top.state) (Event.goal top.state) h = (.ok true, h1))
      (hx : Extract (accept W st top rest).explored top.state r) : Ends W (st, h) (ofRes r) h1
  | childrenThrow {st : St S C} {h h1 h2 : Hist S C ε} {x : Fail ε} {top : Elem S C} {rest : List (Elem S C)} (hp : Pop st.queue top rest)
      (hb : exploredBetter st.explored top.state top.cost = false)
      (hg : ask (fun h => W.goal h top.state) (Event.goal top.state) h = (.ok false, h1))
      (hk : expandTop W top (accept W st top rest) h1 = (.error x, h2)) : Ends W (st, h) (.error x) h2

/-- simple_astar_search.hpp:227-434 `PerformAstarSearch`: a possible outcome, with all the calls that were made. -/
inductive AstarRun (W : World S C ε) (starts : List (S × C)) : Except (Fail ε) (List S × C) → Hist S C ε → Prop
  | noStarts (hs : starts = []) : AstarRun W starts (.error (.lib .invalidArgument)) []
  | checkThrows {x : Fail ε} {h : Hist S C ε} (hs : starts ≠ []) (hb : bestStarts W none starts [] = (.error x, h)) :
      AstarRun W starts (.error x) h
  | early {s : S × C} {h : Hist S C ε} (hs : starts ≠ []) (hb : bestStarts W none starts [] = (.ok (some s), h)) :
      AstarRun W starts (ofRes (mkResult [s.1] s.2)) h
  | initThrows {x : Fail ε} {h h1 : Hist S C ε} (hs : starts ≠ []) (hb : bestStarts W none starts [] = (.ok none, h))
      (hi : pushStarts W ⟨[], fun _ => none, fun _ => none⟩ starts h = (.error x, h1)) : AstarRun W starts (.error x) h1
  | search {st st' : St S C} {h h1 h2 h3 : Hist S C ε} {r : Except (Fail ε) (List S × C)} (hs : starts ≠ [])
      (hb : bestStarts W none starts [] = (.ok none, h))
      (hi : pushStarts W ⟨[], fun _ => none, fun _ => none⟩ starts h = (.ok st, h1)) (hrun : Steps W (st, h1) (st', h2))
      (he : Ends W (st', h2) r h3) : AstarRun W starts r h3

/-- simple_astar_search.hpp:469-489: the loop of `valid_child_state_function`. -/
def filterKids (valid : Hist S C ε → S → S → Except ε Bool) (dist : Hist S C ε → S → S → Except ε C) (s : S) :
    List S → Run S C ε (List (S × C))
  | [] => ret []
  | t :: l => do
    let v ← ask (fun h => valid h s t) (Event.valid s t)
    if v then do
      let d ← ask (fun h => dist h s t) (Event.dist s t)
      let k ← (fun h => (ofRes (mkStateWithCost t d), h))
      let ks ← filterKids valid dist s l
      ret (k :: ks)
    else filterKids valid dist s l

/-- simple_astar_search.hpp:227-235: the first overload: the children are the answer of one function of the user. -/
def world1 (F : Fns S C ε) (limit : Bool) : World S C ε :=
  ⟨F.goal, F.heur, fun s => ask (fun h => F.kids h s) (Event.kids s), limit⟩

/-- simple_astar_search.hpp:456-494: the second overload. -/
def world2 (F : Fns S C ε) (limit : Bool) : World S C ε :=
  ⟨F.goal, F.heur, fun s => do
    let l ← ask (fun h => F.gen h s) (Event.gen s)
    filterKids F.valid F.dist s l, limit⟩

/-- One of the two. (no project code: C++ or bookkeeping) -/
def world (first : Bool) (F : Fns S C ε) (limit : Bool) : World S C ε := if first then world1 F limit else world2 F limit

/-- simple_astar_search.hpp:515-545: the third overload calls the second one with these functions: the goal check compares with the goal state. -/
def toGoal (target : S) (gen : Hist S C ε → S → Except ε (List S))
    (valid : Hist S C ε → S → S → Except ε Bool) (dist : Hist S C ε → S → S → Except ε C) (heur : Hist S C ε → S → S → Except ε C) :
    Fns S C ε :=
  ⟨fun _ s => .ok (decide (s = target)), fun h s => heur h s target, fun _ _ => .ok [], gen, valid, dist⟩

end CRU.Astar.Callbacks
