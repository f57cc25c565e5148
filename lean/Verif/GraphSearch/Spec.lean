import Verif.Graph.Spec
import Verif.Astar.Spec
/-
  Paths in a graph, independent of the search.
-/
namespace CRU.GraphSearch
open CRU.Graph

variable {V C : Type}

/-- `(size, get)` gives access to the graph `g`. -/
def Access (g : Graph V C) (size : Int) (get : Int → Res (Node V C)) : Prop :=
  size = g.length ∧ ∀ (i : Nat) (n : Node V C), g[i]? = some n → get i = .ok n

/-- Node `v` records an edge of weight `w` coming in from `u`. -/
def InEdge (g : Graph V C) (u v : Int) (w : C) : Prop :=
  ∃ (i : Nat) (n : Node V C), v = i ∧ g[i]? = some n ∧ ∃ e ∈ n.ins, e.src = u ∧ e.weight = w

/-- Node `u` records an edge of weight `w` going out to `v`. -/
def OutEdge (g : Graph V C) (u v : Int) (w : C) : Prop :=
  ∃ (i : Nat) (n : Node V C), u = i ∧ g[i]? = some n ∧ ∃ e ∈ n.outs, e.dst = v ∧ e.weight = w

/-- `PathTo edge start v path c`: `path` is a path from `v` to `start` (in this order), its cost, accumulated from `start`
outwards beginning with 0, is `c`. -/
inductive PathTo [Zero C] [Add C] (edge : Int → Int → C → Prop) (start : Int) : Int → List Int → C → Prop
  | here : PathTo edge start start [start] 0
  | step {v u : Int} {path : List Int} {c w : C} (h : PathTo edge start u path c) (he : edge v u w) :
      PathTo edge start v (v :: path) (c + w)

/-- Following the previous-index map from `v` visits exactly `path` and stops at `start`. -/
inductive Follows (prev : List Int) (start : Int) : Int → List Int → Prop
  | here : Follows prev start start [start]
  | step {v p : Int} {path : List Int} (hne : v ≠ start) (hp : atInt prev v = .ok p) (h : Follows prev start p path) :
      Follows prev start v (v :: path)

end CRU.GraphSearch
