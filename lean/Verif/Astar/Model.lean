import Verif.Base
import Verif.Astar.Spec
/-
  Model of include/common_robotics_utilities/simple_astar_search.hpp. Costs are any type `C` with
  comparisons and addition (the laws of `Verif/Cost.lean` are assumed by the theorems that need them; `Verif/NaN` has none);
  `⊤` is infinity. States are compared with `=` (a lawful StateEqual/StateHash). Callbacks are pure
  functions; the child generator may throw. `std::priority_queue` is a multiset from which *some* element of minimal value
  is popped: every tie-breaking is covered, because the search is a relation.
-/
namespace CRU.Astar

variable {S C : Type} [DecidableEq S] [LT C] [LE C] [DecidableLT C] [DecidableLE C] [DecidableEq C] [Add C] [Zero C] [Top C]

/-- simple_astar_search.hpp:24-57 `AstarPQueueElement`. -/
structure Elem (S C : Type) where
  state : S
  back : Option S
  cost : C
  value : C

/-- Callbacks and options (simple_astar_search.hpp:227-235). `expand` is `generate_valid_children_fn`. -/
structure Problem (S C : Type) where
  goal : S → Bool
  expand : S → Res (List (S × C))
  h : S → C
  limit : Bool

/-- simple_astar_search.hpp:274-314 the local state of the search: queue, `queue_members_map`, `explored` (cost-to-come and back pointer). -/
structure St (S C : Type) where
  queue : List (Elem S C)
  members : S → Option C
  explored : S → Option (C × Option S)

/-- Map update `m[k] = v` / `m.erase(k)`. (simple_astar_search.hpp:274-330) -/
def upd {V : Type} (m : S → V) (k : S) (v : V) : S → V := fun x => if x = k then v else m x

/-- simple_astar_search.hpp:289-308 `is_queue_better`. -/
def queueBetter (P : Problem S C) (members : S → Option C) (s : S) (c : C) : Bool :=
  if P.limit then
    match members s with
    | some c' => decide (c ≥ c')
    | none => false
  else false

/-- simple_astar_search.hpp:318-330 `is_explored_better`. -/
def exploredBetter (explored : S → Option (C × Option S)) (s : S) (c : C) : Bool :=
  match explored s with
  | some e => decide (c ≥ e.1)
  | none => false

/-- Push an element and record it in `queue_members_map` if duplicates are limited (simple_astar_search.hpp:340-346, 412-418). -/
def push (P : Problem S C) (st : St S C) (e : Elem S C) : St S C :=
  { st with
    queue := e :: st.queue
    members := if P.limit then upd st.members e.state (some e.cost) else st.members }

/-- simple_astar_search.hpp:333-348, body of the initialisation loop; the value of a start element is its heuristic alone. -/
def pushStart (P : Problem S C) (st : St S C) (s : S × C) : St S C :=
  if queueBetter P st.members s.1 s.2 then st else push P st ⟨s.1, none, s.2, P.h s.1⟩

/-- simple_astar_search.hpp:274-348 -/
def init (P : Problem S C) (starts : List (S × C)) : St S C :=
  starts.foldl (pushStart P) ⟨[], fun _ => none, fun _ => none⟩

/-- simple_astar_search.hpp:386-420, body of the loop over the children of `parent`, whose cost-to-come is `pc`. -/
def pushKid (P : Problem S C) (parent : S) (pc : C) (st : St S C) (kid : S × C) : St S C :=
  if exploredBetter st.explored kid.1 (pc + kid.2) || queueBetter P st.members kid.1 (pc + kid.2) then st
  else push P st ⟨kid.1, some parent, pc + kid.2, pc + kid.2 + P.h kid.1⟩

/-- simple_astar_search.hpp:357-358 `queue.top(); queue.pop();`: any element of minimal value. -/
def Pop (q : List (Elem S C)) (top : Elem S C) (rest : List (Elem S C)) : Prop :=
  q.Perm (top :: rest) ∧ ∀ e ∈ rest, top.value ≤ e.value

/-- simple_astar_search.hpp:361-364 -/
def erased (P : Problem S C) (members : S → Option C) (s : S) : S → Option C :=
  if P.limit then upd members s none else members

/-- simple_astar_search.hpp:354-422, one iteration of the search loop that does not leave it. -/
inductive Step (P : Problem S C) : St S C → St S C → Prop
  | skip {st : St S C} {top : Elem S C} {rest : List (Elem S C)} (hp : Pop st.queue top rest)
      (hb : exploredBetter st.explored top.state top.cost = true) :
      Step P st ⟨rest, erased P st.members top.state, st.explored⟩
  | expand {st : St S C} {top : Elem S C} {rest : List (Elem S C)} {kids : List (S × C)} (hp : Pop st.queue top rest)
      (hb : exploredBetter st.explored top.state top.cost = false) (hg : P.goal top.state = false)
      (hk : P.expand top.state = .ok kids) :
      Step P st (kids.foldl (pushKid P top.state top.cost)
        ⟨rest, erased P st.members top.state, upd st.explored top.state (some (top.cost, top.back))⟩)

/-- simple_astar_search.hpp:155-166: following back pointers; `explored.at` throws when the key is missing. The loop terminates iff a result
exists. -/
inductive Chain (explored : S → Option (C × Option S)) : Option S → Res (List S) → Prop
  | nil : Chain explored none (.ok [])
  | cons {p : S} {c : C} {b : Option S} {l : List S} (h : explored p = some (c, b)) (hc : Chain explored b (.ok l)) :
      Chain explored (some p) (.ok (p :: l))
  | consThrow {p : S} {c : C} {b : Option S} {e : Exc} (h : explored p = some (c, b)) (hc : Chain explored b (.throw e)) :
      Chain explored (some p) (.throw e)
  | missing {p : S} (h : explored p = none) : Chain explored (some p) (.throw .outOfRange)

/-- simple_astar_search.hpp:85-93, constructor of `AstarResult`. -/
def mkResult (path : List S) (cost : C) : Res (List S × C) :=
  if path ≠ [] ∧ cost = ⊤ then .throw .invalidArgument else .ok (path, cost)

/-- simple_astar_search.hpp:138-176 `ExtractAstarResult`. -/
inductive Extract (explored : S → Option (C × Option S)) (g : S) : Res (List S × C) → Prop
  | notFound (h : explored g = none) : Extract explored g (.ok ([], ⊤))
  | found {c : C} {b : Option S} {r : Res (List S)} (h : explored g = some (c, b)) (hc : Chain explored b r) :
      Extract explored g (do
        let l ← r
        mkResult (g :: l).reverse c)

/-- simple_astar_search.hpp:354-433: the search loop ends in state `st` with result `r`. -/
inductive Ends (P : Problem S C) : St S C → Res (List S × C) → Prop
  | empty {st : St S C} (h : st.queue = []) : Ends P st (.ok ([], ⊤))
  | goal {st : St S C} {top : Elem S C} {rest : List (Elem S C)} {r : Res (List S × C)} (hp : Pop st.queue top rest)
      (hb : exploredBetter st.explored top.state top.cost = false) (hg : P.goal top.state = true)
      (hx : Extract (upd st.explored top.state (some (top.cost, top.back))) top.state r) : Ends P st r
  | throws {st : St S C} {top : Elem S C} {rest : List (Elem S C)} {e : Exc} (hp : Pop st.queue top rest)
      (hb : exploredBetter st.explored top.state top.cost = false) (hg : P.goal top.state = false)
      (hk : P.expand top.state = .throw e) : Ends P st (.throw e)
  | ub {st : St S C} {top : Elem S C} {rest : List (Elem S C)} (hp : Pop st.queue top rest)
      (hb : exploredBetter st.explored top.state top.cost = false) (hg : P.goal top.state = false)
      (hk : P.expand top.state = .ub) : Ends P st .ub

/-- Any number of iterations. (simple_astar_search.hpp:354-422) -/
inductive Steps (P : Problem S C) : St S C → St S C → Prop
  | refl (st : St S C) : Steps P st st
  | step {a b c : St S C} (h : Step P a b) (t : Steps P b c) : Steps P a c

/-- simple_astar_search.hpp:245-246, 252: cost of the best start so far, `infinity` before one was found. -/
def bestCost : Option (S × C) → C
  | some b => b.2
  | none => ⊤

/-- simple_astar_search.hpp:248-259, body of the loop over the starts. -/
def bestStep (goal : S → Bool) (best : Option (S × C)) (s : S × C) : Option (S × C) :=
  if goal s.1 then (if s.2 < bestCost best then some s else best) else best

/-- simple_astar_search.hpp:244-259: the cheapest start state that meets the goal, first one on ties; infinite costs never qualify. -/
def bestStart (goal : S → Bool) (starts : List (S × C)) : Option (S × C) := starts.foldl (bestStep goal) none

/-- simple_astar_search.hpp:227-434 `PerformAstarSearch`: `r` is a possible outcome. -/
inductive AstarRun (P : Problem S C) (starts : List (S × C)) : Res (List S × C) → Prop
  | noStarts (h : starts = []) : AstarRun P starts (.throw .invalidArgument)
  | early {s : S × C} (hs : starts ≠ []) (h : bestStart P.goal starts = some s) : AstarRun P starts (mkResult [s.1] s.2)
  | search {st : St S C} {r : Res (List S × C)} (hs : starts ≠ []) (h : bestStart P.goal starts = none)
      (hrun : Steps P (init P starts) st) (he : Ends P st r) : AstarRun P starts r

/-- simple_astar_search.hpp:193-200: constructor of `StateWithCost`. -/
def mkStateWithCost (s : S) (c : C) : Res (S × C) := if c < 0 then .throw .invalidArgument else .ok (s, c)

/-- simple_astar_search.hpp:469-489 `valid_child_state_function`. -/
def validChildren (valid : S → S → Bool) (dist : S → S → C) (cur : S) : List S → Res (List (S × C))
  | [] => .ok []
  | t :: ts =>
    if valid cur t then do
      let x ← mkStateWithCost t (dist cur t)
      let xs ← validChildren valid dist cur ts
      pure (x :: xs)
    else validChildren valid dist cur ts

/-- simple_astar_search.hpp:456-494, second overload: the problem it passes on. -/
def problem2 (goal : S → Bool) (gen : S → List S) (valid : S → S → Bool) (dist : S → S → C) (h : S → C) (limit : Bool) :
    Problem S C := ⟨goal, fun s => validChildren valid dist s (gen s), h, limit⟩

/-- simple_astar_search.hpp:515-545, third overload: one start with cost 0, one goal. -/
def problem3 (goal : S) (gen : S → List S) (valid : S → S → Bool) (dist : S → S → C) (h : S → S → C) (limit : Bool) :
    Problem S C := problem2 (fun s => decide (s = goal)) gen valid dist (fun s => h s goal) limit

end CRU.Astar
