import Verif.Base
/-
  Directed graphs as a user sees them, and what "valid linkage" means. Independent of the model of the code.
-/
namespace CRU.Graph

/-- A directed weighted edge with the user's scratchpad word. -/
structure Edge (W : Type) where
  src : Int
  dst : Int
  weight : W
  scratch : Nat
  deriving DecidableEq, Repr

/-- A node: value, edges coming in, edges going out. -/
structure Node (V W : Type) where
  value : V
  ins : List (Edge W)
  outs : List (Edge W)
  deriving DecidableEq, Repr

/-- A graph is its list of nodes; the index of a node is its position. -/
abbrev Graph (V W : Type) := List (Node V W)

variable {V W : Type}

/-- Every in-edge of node `i` ends at `i`, comes from another existing node, and that node has an out-edge to `i`; and the
same for out-edges. -/
def ValidLinkage (g : Graph V W) : Prop :=
  ∀ (i : Nat) (n : Node V W), g[i]? = some n →
    (∀ e ∈ n.ins, e.dst = i ∧ ∃ (j : Nat) (m : Node V W), e.src = j ∧ j ≠ i ∧ g[j]? = some m ∧ ∃ e' ∈ m.outs, e'.dst = i) ∧
    (∀ e ∈ n.outs, e.src = i ∧ ∃ (j : Nat) (m : Node V W), e.dst = j ∧ j ≠ i ∧ g[j]? = some m ∧ ∃ e' ∈ m.ins, e'.src = i)

/-- The in- and out-edge lists describe the same edges: every edge has both endpoints in the graph, no edge is a
self-edge, and for all nodes `i`, `j` the edges from `i` to `j` recorded at `i` are those recorded at `j`, weights and
multiplicity included. -/
def Mirrored (g : Graph V W) : Prop :=
  (∀ (i : Nat) (n : Node V W), g[i]? = some n →
    (∀ e ∈ n.ins, e.dst = i ∧ ∃ j : Nat, e.src = j ∧ j ≠ i ∧ j < g.length) ∧
    (∀ e ∈ n.outs, e.src = i ∧ ∃ j : Nat, e.dst = j ∧ j ≠ i ∧ j < g.length)) ∧
  (∀ (i j : Nat) (n m : Node V W), g[i]? = some n → g[j]? = some m →
    n.outs.filter (fun e => e.dst = (j : Int)) = m.ins.filter (fun e => e.src = (i : Int)))

/-- A mirrored graph has valid linkage. -/
theorem Mirrored.validLinkage {g : Graph V W} (h : Mirrored g) : ValidLinkage g := by
  intro i n hn
  obtain ⟨h1, h2⟩ := h.1 i n hn
  constructor
  · intro e he
    obtain ⟨hd, j, hj, hne, hlt⟩ := h1 e he
    refine ⟨hd, j, g[j], hj, hne, List.getElem?_eq_getElem hlt, ?_⟩
    have hm := h.2 j i g[j] n (List.getElem?_eq_getElem hlt) hn
    have : e ∈ n.ins.filter (fun e => e.src = (j : Int)) := by simp [he, hj]
    rw [← hm] at this
    simp only [List.mem_filter, decide_eq_true_eq] at this
    exact ⟨e, this.1, this.2⟩
  · intro e he
    obtain ⟨hd, j, hj, hne, hlt⟩ := h2 e he
    refine ⟨hd, j, g[j], hj, hne, List.getElem?_eq_getElem hlt, ?_⟩
    have hm := h.2 i j n g[j] hn (List.getElem?_eq_getElem hlt)
    have : e ∈ n.outs.filter (fun e => e.dst = (j : Int)) := by simp [he, hj]
    rw [hm] at this
    simp only [List.mem_filter, decide_eq_true_eq] at this
    exact ⟨e, this.1, this.2⟩

end CRU.Graph

namespace CRU.Graph
variable {V W : Type}

/-! ### Pruning -/

/-- New index of node `i` once the nodes in `prune` are gone: the number of kept nodes before it. -/
def newIndex (prune : List Int) (i : Nat) : Nat := ((List.range i).filter fun k : Nat => decide ((k : Int) ∉ prune)).length

/-- The graph without the nodes in `prune`: the other nodes in order with their values, the edges between kept nodes
with their weights, in order, both ends renumbered. -/
def prunedGraph (g : Graph V W) (prune : List Int) : Graph V W :=
  (g.zipIdx.filter fun p => decide ((p.2 : Int) ∉ prune)).map fun p =>
    { value := p.1.value
      ins := (p.1.ins.filter fun e => e.src ∉ prune).map fun e =>
        { e with src := newIndex prune e.src.toNat, dst := newIndex prune p.2 }
      outs := (p.1.outs.filter fun e => e.dst ∉ prune).map fun e =>
        { e with src := newIndex prune p.2, dst := newIndex prune e.dst.toNat } }

end CRU.Graph
