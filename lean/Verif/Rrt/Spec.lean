import Verif.Int64
/-
  Specification vocabulary for RRT trees, solution chains and plans. Nothing here refers to the model's functions.
-/
namespace CRU.Rrt

/-- simple_rrt_planner.hpp:28-36 `SimpleRRTPlannerState`: value, parent index (negative for a root), child indices. -/
structure Node (V : Type) where
  value : V
  parent : Int
  children : List Int
  deriving DecidableEq, Repr

/-- simple_rrt_planner.hpp:155-161 `SimpleRRTPlannerTree`: a vector of nodes. -/
abbrev Tree (V : Type) := List (Node V)

variable {V : Type}

/-- Valid linkage: a parent has a smaller index and lists the node; a listed child has a larger index, exists, and names
the node as its parent. A node with a negative parent is a root. -/
def Linked (t : Tree V) : Prop :=
  ∀ (i : Nat) (n : Node V), t[i]? = some n →
    n.parent < i ∧
    (0 ≤ n.parent → ∃ p, t[n.parent.toNat]? = some p ∧ (i : Int) ∈ p.children) ∧
    ∀ c ∈ n.children, (i : Int) < c ∧ ∃ m, t[c.toNat]? = some m ∧ m.parent = i

/-- No node lists a child twice. -/
def ChildrenOnce (t : Tree V) : Prop := ∀ n ∈ t, n.children.Nodup

/-- `idxs` leads from a root of `t` along parent links to node `i`. -/
inductive RootChain (t : Tree V) : List Nat → Nat → Prop
  | root {r : Nat} {n : Node V} : t[r]? = some n → n.parent < 0 → RootChain t [r] r
  | step {idxs : List Nat} {p i : Nat} {n : Node V} :
      RootChain t idxs p → t[i]? = some n → n.parent = p → RootChain t (idxs ++ [i]) i

/-- `vs` are the states of the nodes `idxs` of `t`. -/
def ValuesAt (t : Tree V) (idxs : List Nat) (vs : List V) : Prop :=
  idxs.map (fun i => (t[i]?).map Node.value) = vs.map some

/-- What one call of a propagation function returned: states with the relative index of their parent. -/
abbrev Propagation (V : Type) := List (V × Int)

/-- In a propagation that started at state `q`, the `k`-th state is `b` and its parent, as named by its relative index
(negative: the start `q`; otherwise an earlier entry of the same propagation), is `a`. -/
def ParentIn (q : V) (ps : Propagation V) (a b : V) : Prop :=
  ∃ (k : Nat) (rel : Int), ps[k]? = some (b, rel) ∧
    ((rel < 0 ∧ a = q) ∨ (0 ≤ rel ∧ rel < k ∧ ∃ r, ps[rel.toNat]? = some (a, r)))

/-- Consecutive elements are related. -/
def Consecutive (R : V → V → Prop) (l : List V) : Prop := ∀ (i : Nat) (a b : V), l[i]? = some a → l[i + 1]? = some b → R a b

/-- A tree grown from `t₀`: the nodes of `t₀` keep their states and parents; each later node hangs below an earlier node
and the two states are related by `R`. -/
structure GrownFrom (R : V → V → Prop) (t₀ t : Tree V) : Prop where
  old : ∀ (i : Nat) (n : Node V), t₀[i]? = some n → ∃ m, t[i]? = some m ∧ m.value = n.value ∧ m.parent = n.parent
  new : ∀ (i : Nat) (n : Node V), t₀.length ≤ i → t[i]? = some n →
    0 ≤ n.parent ∧ n.parent < i ∧ ∃ p, t[n.parent.toNat]? = some p ∧ R p.value n.value

end CRU.Rrt
