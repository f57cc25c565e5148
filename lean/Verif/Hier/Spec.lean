import Mathlib.Order.BoundedOrder.Basic
import Mathlib.Logic.Relation
/-
  What a hierarchical clustering is. `m i j` is the distance of elements `i` and `j`.
-/
namespace CRU.Hier

/-- simple_hierarchical_clustering.hpp:33 -/
inductive Strategy where
  | singleLink | completeLink
  deriving DecidableEq

variable {D : Type} [LinearOrder D] [OrderTop D]

/-- Every index below `n` is in exactly one cluster, and no cluster is empty. -/
def IsPartition (n : Nat) (cs : List (List Nat)) : Prop := cs.flatten.Perm (List.range n) ∧ ∀ c ∈ cs, c ≠ []

/-- The distance of `i` and `j` is finite and within the bound. -/
def Within (m : Nat → Nat → D) (bound : D) (i j : Nat) : Prop := m i j ≤ bound ∧ m i j < ⊤

/-- Two clusters are within the bound of each other: all pairs (complete link), some pair (single link). -/
def CouldMerge (s : Strategy) (m : Nat → Nat → D) (bound : D) (a b : List Nat) : Prop :=
  match s with
  | .completeLink => ∀ i ∈ a, ∀ j ∈ b, Within m bound i j
  | .singleLink => ∃ i ∈ a, ∃ j ∈ b, Within m bound i j

/-- No two clusters could be merged within the bound. -/
def Maximal (s : Strategy) (m : Nat → Nat → D) (bound : D) (cs : List (List Nat)) : Prop :=
  cs.Pairwise fun a b => ¬ CouldMerge s m bound a b

/-- Every two different elements of a cluster are within the bound. -/
def BoundedDiameter (m : Nat → Nat → D) (bound : D) (cs : List (List Nat)) : Prop :=
  ∀ c ∈ cs, ∀ i ∈ c, ∀ j ∈ c, i ≠ j → Within m bound i j

/-- `i` and `j` are linked by a chain of elements below `n`, consecutive ones within the bound. -/
def Linked (n : Nat) (m : Nat → Nat → D) (bound : D) : Nat → Nat → Prop :=
  Relation.ReflTransGen fun x y => x < n ∧ y < n ∧ Within m bound x y

/-- `i` and `j` are in one cluster. -/
def Together (cs : List (List Nat)) (i j : Nat) : Prop := ∃ c ∈ cs, i ∈ c ∧ j ∈ c

end CRU.Hier
