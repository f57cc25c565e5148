import Verif.GraphSearch.Spec
import Verif.Knn.Spec
import Verif.Int64
/-
  Roadmap vocabulary: neighbour queries, checked edges, roadmaps grown by one state. Nothing here refers to the model.
-/
namespace CRU.Prm
open CRU.Graph CRU.Knn CRU.GraphSearch

variable {V C : Type}

/-- simple_prm_planner.hpp:28 `NNDistanceDirection`: is the distance measured from the roadmap to the query state or from
the query state to the roadmap? -/
inductive Dir where
  | roadmapToNew
  | newToRoadmap
  deriving DecidableEq, Repr

/-- The distance between a roadmap state and a query state, in the given direction. -/
def dirDist (dist : V → V → C) : Dir → V → V → C
  | .roadmapToNew, node, query => dist node query
  | .newToRoadmap, node, query => dist query node

/-- A neighbour query as a user can implement it: from the roadmap (`Size()` and `GetNodeImmutable`), the query state, `K`,
the direction and the bound on node indices, some answer or failure. -/
abbrev Provider (V C : Type) :=
  (size : Int) → (get : Int → Res (Node V C)) → (state : V) → (K : Int) → (dir : Dir) → (maxNode : Int) →
    (r : Res (List (Entry C))) → Prop

/-- The provider keeps the contract in the documentation (simple_prm_planner.hpp:37-45): asked about the first `maxNode`
nodes of a roadmap it names nodes among them, with their true distance in the direction asked for. (The answer is a `std::vector`, its
size fits in `int64_t`.) -/
def Provider.Sound (knn : Provider V C) (dist : V → V → C) : Prop :=
  ∀ (g : Graph V C) (size : Int) (get : Int → Res (Node V C)) (state : V) (K : Int) (dir : Dir) (maxNode : Int)
    (r : Res (List (Entry C))), Access g size get → InI64 size → 0 ≤ K → 0 ≤ maxNode → maxNode ≤ size → knn size get state K dir maxNode r →
    ∃ l, r = .ok l ∧ InI64 l.length ∧ ∀ e ∈ l, ∃ (i : Nat) (n : Node V C), e.index = i ∧ (i : Int) < maxNode ∧ g[i]? = some n ∧
      e.dist = dirDist dist dir n.value state

/-- The distance of node `i` of the roadmap, for use with `IsKNearest`; 0 outside the roadmap. -/
def nodeDist [Zero C] (dist : V → V → C) (dir : Dir) (g : Graph V C) (state : V) (i : Int) : C :=
  match g[i.toNat]? with
  | some n => dirDist dist dir n.value state
  | none => 0

/-- The provider returns the `K` nearest nodes. -/
def Provider.Nearest [LinearOrder C] [Zero C] (knn : Provider V C) (dist : V → V → C) : Prop :=
  ∀ (g : Graph V C) (size : Int) (get : Int → Res (Node V C)) (state : V) (K : Int) (dir : Dir) (maxNode : Int)
    (r : Res (List (Entry C))), Access g size get → InI64 size → 0 ≤ K → 0 ≤ maxNode → maxNode ≤ size →
    knn size get state K dir maxNode r → ∃ l, r = .ok l ∧ IsKNearest (nodeDist dist dir g state) 0 maxNode K.toNat l

/-- The value of node `i`. -/
def HasValue (g : Graph V C) (i : Int) (v : V) : Prop := ∃ (k : Nat) (n : Node V C), i = k ∧ g[k]? = some n ∧ n.value = v

/-- An edge from state `a` to state `b` that was accepted by the validity check in this direction and carries the
distance in this direction. -/
def Checked (valid : V → V → Bool) (dist : V → V → C) (a b : V) (w : C) : Prop := valid a b = true ∧ w = dist a b

/-- Every edge of `g` satisfies `P` on the states of its two ends and its weight. -/
def EdgesSatisfy (g : Graph V C) (P : V → V → C → Prop) : Prop :=
  ∀ u v w, OutEdge g u v w → ∃ a b, HasValue g u a ∧ HasValue g v b ∧ P a b w

end CRU.Prm
