import Verif.Graph.Prune
import Verif.Graph.OverlayLemmas
import Verif.Graph.Ser
/-
  Properties of directed graphs and overlays (C14–C18, C58).
-/
namespace CRU.Graph
open CRU.Ser CRU.Parallel

variable {V W : Type}

/-- Calls a user can make to grow a graph. -/
inductive GrowOp (V W : Type) where
  | addNode (v : V)
  | addEdge (src dst : Int) (w : W)
  | addEdges (a b : Int) (w : W)

/-- Graph after the call, whether or not it threw. -/
def GrowOp.run (g : Graph V W) : GrowOp V W → Graph V W
  | .addNode v => (CRU.Graph.addNodeValue g v).1
  | .addEdge s d w => (CRU.Graph.addEdge g s d w).1
  | .addEdges a b w => (CRU.Graph.addEdges g a b w).1

/-- A small graph: 0 → 1 with weight 5, 1 ↔ 2 with weight 7. -/
def exGraph : Graph String Nat :=
  [.addNode "a", .addNode "b", .addNode "c", .addEdge 0 1 5, .addEdges 1 2 7].foldl GrowOp.run []

/-- **C14** From valid linkage, every sequence of calls, throwing ones included, ends in valid linkage. -/
theorem C14_linkage_preserved (g : Graph V W) (h : ValidLinkage g) (ops : List (GrowOp V W)) :
    ValidLinkage (ops.foldl GrowOp.run g) := by
  induction ops generalizing g with
  | nil => exact h
  | cons op ops ih =>
    apply ih
    cases op with
    | addNode v => exact addNodeValue_valid h v
    | addEdge s d w =>
      show ValidLinkage (addEdge g s d w).1
      rw [addEdge_eq]
      split
      · split
        · exact h
        · exact link_valid h _ _ w (by omega) (by omega) (by omega)
      · exact h
    | addEdges s d w =>
      show ValidLinkage (addEdges g s d w).1
      rw [addEdges_eq]
      split
      · split
        · exact h
        · exact link_valid (link_valid h _ _ w (by omega) (by omega) (by omega)) _ _ w
            (by rw [length_link]; omega) (by rw [length_link]; omega) (by omega)
      · exact h

example : ValidLinkage (V := String) (W := Nat) [] := fun i n h => by simp at h
example : ValidLinkage exGraph := C14_linkage_preserved _ (fun i n h => by simp at h) _
example : exGraph.length = 3 ∧ (exGraph.map fun n => n.outs.length) = [1, 1, 1] := by decide

/-- **C14** What a call does: `AddNode` appends one unconnected node and returns its index; a legal `AddEdgeBetweenNodes`
appends exactly one edge to the out-edges of `src` and the in-edges of `dst`; an illegal one throws and changes
nothing. -/
theorem C14_effects (g : Graph V W) :
    (∀ v, (addNodeValue g v).1 = g ++ [⟨v, [], []⟩] ∧ (addNodeValue g v).2 = g.length) ∧
    (∀ (s d : Int) (w : W), ¬ (0 ≤ s ∧ s < g.length ∧ 0 ≤ d ∧ d < g.length ∧ s ≠ d) →
      ((∃ e, addEdge g s d w = (g, .throw e)) ∧ ∃ e, addEdges g s d w = (g, .throw e))) ∧
    (∀ (s d : Nat) (w : W), s < g.length → d < g.length → s ≠ d →
      (addEdge g s d w).2 = .ok () ∧ (addEdge g s d w).1.length = g.length ∧
      (∀ k : Nat, (addEdge g s d w).1[k]? = g[k]?.map fun n =>
        { value := n.value
          ins := if k = d then n.ins ++ [⟨s, d, w, 0⟩] else n.ins
          outs := if k = s then n.outs ++ [⟨s, d, w, 0⟩] else n.outs }) ∧
      (addEdges g s d w).2 = .ok () ∧
      (addEdges g s d w).1 = (addEdge (addEdge g s d w).1 d s w).1) := by
  refine ⟨fun v => ⟨rfl, by simp [addNodeValue, addNode]⟩, ?_, ?_⟩
  · intro s d w h
    rw [addEdge_eq, addEdges_eq]
    split
    · rename_i h1
      have : s = d := by by_contra hc; exact h ⟨h1.1, h1.2.1, h1.2.2.1, h1.2.2.2, hc⟩
      rw [if_pos this, if_pos this]
      exact ⟨⟨_, rfl⟩, ⟨_, rfl⟩⟩
    · exact ⟨⟨_, rfl⟩, ⟨_, rfl⟩⟩
  · intro s d w hs hd hne
    have e1 : addEdge g s d w = (link g s d w, .ok ()) := by
      rw [addEdge_eq, if_pos ⟨by omega, by omega, by omega, by omega⟩, if_neg (by omega)]; simp
    have e2 : addEdges g s d w = (link (link g s d w) d s w, .ok ()) := by
      rw [addEdges_eq, if_pos ⟨by omega, by omega, by omega, by omega⟩, if_neg (by omega)]; simp
    have e3 : addEdge (link g s d w) d s w = (link (link g s d w) d s w, .ok ()) := by
      rw [addEdge_eq, if_pos (by rw [length_link]; omega), if_neg (by omega)]; simp
    rw [e1, e2]
    refine ⟨rfl, length_link _ _ _ _, fun k => link_get g s d w k, rfl, ?_⟩
    dsimp only
    rw [e3]

example : (addEdge exGraph 0 2 9).2 = .ok () ∧ (∃ e, addEdge exGraph 0 3 9 = (exGraph, .throw e)) :=
  ⟨((C14_effects exGraph).2.2 0 2 9 (by decide) (by decide) (by decide)).1,
   ((C14_effects exGraph).2.1 0 3 9 (by decide)).1⟩

/-- **C15** `CheckGraphLinkage` terminates without undefined behaviour or exception on every node list, and answers
`true` exactly for valid linkage. -/
theorem C15_check_decides (g : Graph V W) :
    ∃ b, checkLinkage g.length (getNode g) = .ok b ∧ (b = true ↔ ValidLinkage g) := checkLinkage_ok g

/-- **C15** The constructor from nodes accepts exactly the node lists with valid linkage and keeps them as they are. -/
theorem C15_constructor (g : Graph V W) :
    (ValidLinkage g → mkGraph g = .ok g) ∧ (¬ ValidLinkage g → mkGraph g = .throw .invalidArgument) := by
  obtain ⟨b, hb, hq⟩ := checkLinkage_ok g
  unfold mkGraph
  rw [hb, Res.ok_bind]
  cases b with
  | true => exact ⟨fun _ => rfl, fun hc => absurd (hq.mp rfl) hc⟩
  | false => exact ⟨fun hc => by simpa using hq.mpr hc, fun _ => rfl⟩

/-- Both answers occur: a valid graph, an edge to a missing node, a self-edge, an edge without its mirror image. -/
example : checkLinkage exGraph.length (getNode exGraph) = .ok true := by decide
example : checkLinkage 1 (getNode [(⟨(), [], [⟨0, 7, (), 0⟩]⟩ : Node Unit Unit)]) = .ok false := by decide
example : checkLinkage 1 (getNode [(⟨(), [⟨0, 0, (), 0⟩], [⟨0, 0, (), 0⟩]⟩ : Node Unit Unit)]) = .ok false := by decide
example : checkLinkage 2 (getNode [(⟨(), [], [⟨0, 1, (), 0⟩]⟩ : Node Unit Unit), ⟨(), [], []⟩]) = .ok false := by decide

/-- **C16** A graph with valid linkage round-trips, given (de)serializers that round-trip its values and weights and sizes
that fit in memory. -/
theorem C16_round_trip (l : Bool) (nsz : Nat) (sv : Serializer V) (dv : Deserializer V) (sw : Serializer W)
    (dw : Deserializer W) (g : Graph V W) (hv : ValidLinkage g) (hl : g.length < TWO63) (hg : g.length * nsz < TWO63)
    (hvals : ∀ n ∈ g, RoundTrips sv dv n.value)
    (hws : ∀ n ∈ g, ∀ e ∈ n.ins ++ n.outs, RoundTrips sw dw e.weight ∧ e.scratch < TWO64)
    (hes : ∀ n ∈ g, n.ins.length * 32 < TWO63 ∧ n.outs.length * 32 < TWO63) :
    RoundTrips (serGraph l sv sw) (deGraph l nsz dv dw) g := by
  refine rt_graph l nsz hg hl (fun n hn => ⟨hvals n hn, (hes n hn).1, (hes n hn).2, ?_, ?_⟩) hv
  · intro e he
    obtain ⟨i, hi⟩ := List.mem_iff_getElem?.mp hn
    obtain ⟨h1, j, m, h2, _, h3, _⟩ := (hv i n hi).1 e he
    obtain ⟨hil, _⟩ := List.getElem?_eq_some_iff.mp hi
    obtain ⟨hjl, _⟩ := List.getElem?_eq_some_iff.mp h3
    have := hws n hn e (by simp [he])
    exact ⟨by unfold InI64; omega, by unfold InI64; omega, this.2, this.1⟩
  · intro e he
    obtain ⟨i, hi⟩ := List.mem_iff_getElem?.mp hn
    obtain ⟨h1, j, m, h2, _, h3, _⟩ := (hv i n hi).2 e he
    obtain ⟨hil, _⟩ := List.getElem?_eq_some_iff.mp hi
    obtain ⟨hjl, _⟩ := List.getElem?_eq_some_iff.mp h3
    have := hws n hn e (by simp [he])
    exact ⟨by unfold InI64; omega, by unfold InI64; omega, this.2, this.1⟩

/-- **C16** Bytes written for a node list without valid linkage are refused. -/
theorem C16_invalid_throws (l : Bool) (nsz : Nat) (sv : Serializer V) (dv : Deserializer V) (sw : Serializer W)
    (dw : Deserializer W) (g : Graph V W) (hv : ¬ ValidLinkage g) (hl : g.length < TWO63) (hg : g.length * nsz < TWO63)
    (hfit : ∀ n ∈ g, NodeFits sv dv sw dw n) :
    ∃ enc : Buf, (∀ buf : Buf, (buf ++ enc).length < TWO63 → serGraph l sv sw g buf = .ok (buf ++ enc, enc.length)) ∧
      ∀ pre post : Buf, (pre ++ enc ++ post).length < TWO63 →
        deGraph l nsz dv dw (pre ++ enc ++ post) pre.length = .throw .invalidArgument := by
  obtain ⟨enc, ne, s, d⟩ := rt_nodes l nsz hg hl hfit
  refine ⟨enc, fun buf hb => serGraph_eq l sv sw g buf enc (s buf hb), fun pre post hlen => ?_⟩
  obtain ⟨y, hy, rfl⟩ := d pre post hlen
  exact (deGraph_of (by simpa using ne) hy).2 hv

/-- **C16** Whatever the bytes, deserialization throws or returns a graph with valid linkage. -/
theorem C16_result_valid (l : Bool) (nsz : Nat) (dv : Deserializer V) (dw : Deserializer W) (buf : Buf) (off : Nat)
    (g : Graph V W) (n : Nat) (h : deGraph l nsz dv dw buf off = .ok (g, n)) : ValidLinkage g := by
  unfold deGraph at h
  obtain ⟨d, h1, h⟩ := Res.bind_eq_ok.mp h
  obtain ⟨d', h2, h⟩ := Res.bind_eq_ok.mp h
  obtain ⟨b, h3, h⟩ := Res.bind_eq_ok.mp h
  obtain ⟨b', hb, hq⟩ := checkLinkage_ok d'.1
  rw [hb] at h3
  cases h3
  cases b with
  | false => cases h
  | true =>
    have hd : mkDeserialized d'.1 d'.2 = .ok (g, n) := h
    unfold mkDeserialized at hd
    split at hd
    · cases hd
    · cases hd; exact hq.mp rfl

/-- **C16** On every buffer and offset it throws or stays inside the buffer. -/
theorem C16_safe (l : Bool) (nsz : Nat) (dv : Deserializer V) (dw : Deserializer W) (hv : SafeDeserializer dv)
    (hw : SafeDeserializer dw) : SafeDeserializer (deGraph l nsz dv dw) := safe_graph l nsz hv hw

/-- A graph of 64-bit words as node values and weights. -/
def exNatGraph : Graph Nat Nat :=
  [.addNode 10, .addNode 11, .addEdge 0 1 5, .addEdges 1 0 7].foldl GrowOp.run []

example : RoundTrips (serGraph true (serU64 true) (serU64 true)) (deGraph true 64 (deU64 true) (deU64 true)) exNatGraph := by
  apply C16_round_trip
  · exact C14_linkage_preserved _ (fun i n h => by simp at h) _
  · decide
  · decide
  · intro n hn; exact header_good true _ (by revert n; decide)
  · intro n hn e he
    have h : ∀ n ∈ exNatGraph, ∀ e ∈ n.ins ++ n.outs, e.weight < 100 ∧ e.scratch < 100 := by decide
    exact ⟨header_good true _ (by have := (h n hn e he).1; omega), by have := (h n hn e he).2; omega⟩
  · decide

example : SafeDeserializer (deGraph true 64 (deU64 true) (deU64 true)) :=
  C16_safe true 64 _ _ (header_safe true) (header_safe true)

/-- **C17** For a graph with valid linkage and any set of existing node indices, every run of `MakePrunedCopy`, for every
backend, degree of parallelism and schedule, returns the pruned graph of the specification, which has valid linkage. -/
theorem C17_prune (b : Backend) (threads : Int) (g : Graph V W) (prune : List Int) (hlink : ValidLinkage g)
    (hnd : prune.Nodup) (hpr : ∀ p ∈ prune, 0 ≤ p ∧ p < g.length) (hI : InI64 g.length) (hth : InI64 threads)
    (r : Res (Graph V W)) (hrun : PruneRun b threads g prune r) :
    r = .ok (prunedGraph g prune) ∧ ValidLinkage (prunedGraph g prune) :=
  ⟨pruneRun_eq b threads g prune hlink hnd hpr hI hth r hrun, pruned_valid hlink prune⟩

/-- **C17** A run exists (the statement above is not about an empty set of runs). -/
theorem C17_run_exists (b : Backend) (threads : Int) (g : Graph V W) (prune : List Int) (hI : InI64 g.length)
    (hth : InI64 threads) : ∃ r, PruneRun b threads g prune r := pruneRun_exists b threads g prune hI hth

/-- **C17** Sanity of the specification: pruning nothing changes nothing, node `i` that is kept is found at its new
index with its value, and the number of nodes is right. -/
theorem C17_spec_sanity (g : Graph V W) (prune : List Int) :
    (prunedGraph g prune).length = newIndex prune g.length ∧
    ∀ (i : Nat) (n : Node V W), g[i]? = some n → (i : Int) ∉ prune →
      ∃ m, (prunedGraph g prune)[newIndex prune i]? = some m ∧ m.value = n.value ∧
        m.outs.map (·.weight) = (n.outs.filter fun e => e.dst ∉ prune).map (·.weight) ∧
        m.ins.map (·.weight) = (n.ins.filter fun e => e.src ∉ prune).map (·.weight) := by
  refine ⟨by rw [prunedGraph_eq, List.length_map, length_kept], fun i n hn hi => ?_⟩
  refine ⟨_, pruned_get_of hn hi, rfl, ?_, ?_⟩ <;> simp [newNode, Function.comp_def]

example : prunedGraph exGraph [0] =
    [⟨"b", [⟨1, 0, 7, 0⟩], [⟨0, 1, 7, 0⟩]⟩, ⟨"c", [⟨0, 1, 7, 0⟩], [⟨1, 0, 7, 0⟩]⟩] := by decide

example : ∃ r, PruneRun .async 3 exGraph [1] r ∧ r = .ok (prunedGraph exGraph [1]) := by
  obtain ⟨r, hr⟩ := C17_run_exists .async 3 exGraph [1] (by unfold InI64; decide) (by unfold InI64; decide)
  exact ⟨r, hr, (C17_prune .async 3 exGraph [1] (C14_linkage_preserved _ (fun i n h => by simp at h) _) (by decide)
    (by decide) (by unfold InI64; decide) (by unfold InI64; decide) r hr).1⟩

/-- Calls on a graph or overlay, including assignment through the reference returned by `GetNodeMutable`. -/
inductive Op (V W : Type) where
  | addNode (n : Node V W)
  | addValue (v : V)
  | addEdge (src dst : Int) (w : W)
  | addEdges (a b : Int) (w : W)
  | mutate (i : Int) (f : Node V W → Node V W)

/-- New state and returned value (index for the `AddNode` calls, 0 otherwise) on a plain graph. -/
def Op.onGraph (g : Graph V W) : Op V W → Graph V W × Res Int
  | .addNode n => ((CRU.Graph.addNode g n).1, .ok (CRU.Graph.addNode g n).2)
  | .addValue v => ((CRU.Graph.addNodeValue g v).1, .ok (CRU.Graph.addNodeValue g v).2)
  | .addEdge s d w => ((CRU.Graph.addEdge g s d w).1, (fun _ => 0) <$> (CRU.Graph.addEdge g s d w).2)
  | .addEdges s d w => ((CRU.Graph.addEdges g s d w).1, (fun _ => 0) <$> (CRU.Graph.addEdges g s d w).2)
  | .mutate i f => ((CRU.Graph.mutate g i f).1, (fun _ => 0) <$> (CRU.Graph.mutate g i f).2)

/-- The same on an overlay. -/
def Op.onOverlay (o : Overlay V W) : Op V W → Overlay V W × Res Int
  | .addNode n => ((o.addNode n).1, .ok (o.addNode n).2)
  | .addValue v => ((o.addNode ⟨v, [], []⟩).1, .ok (o.addNode ⟨v, [], []⟩).2)
  | .addEdge s d w => ((o.addEdge s d w).1, (fun _ => 0) <$> (o.addEdge s d w).2)
  | .addEdges s d w => ((o.addEdges s d w).1, (fun _ => 0) <$> (o.addEdges s d w).2)
  | .mutate i f => ((o.mutate i f).1, (fun _ => 0) <$> (o.mutate i f).2)

/-- The two calls return the same value, or both throw (the overlay reports bad indices as `invalid_argument`, the plain
graph as `out_of_range`). -/
def SameOutcome {α : Type} : Res α → Res α → Prop
  | .ok a, .ok b => a = b
  | .throw _, .throw _ => True
  | _, _ => False

/-- **C18** After any sequence of calls on an overlay of `g`, every query answers as on a plain copy of `g` after the same
calls; every call returned the same value as on the copy or threw like it; the base graph is unchanged. -/
theorem C18_overlay_refines (g : Graph V W) (ops : List (Op V W)) (op : Op V W) :
    let o := ops.foldl (fun o op => (op.onOverlay o).1) (mkOverlay g)
    let g' := ops.foldl (fun g op => (op.onGraph g).1) g
    o.base = g ∧ o.size = g'.length ∧ (∀ i, indexInRange o.size i = indexInRange g'.length i) ∧
      (∀ i, o.get i = getNode g' i) ∧ checkLinkage o.size o.get = checkLinkage g'.length (getNode g') ∧
      SameOutcome (op.onOverlay o).2 (op.onGraph g').2 := by
  have step : ∀ (o : Overlay V W) (g' : Graph V W) (op : Op V W), Rel o g' →
      Rel (op.onOverlay o).1 (op.onGraph g').1 ∧ (op.onOverlay o).1.base = o.base ∧
        SameOutcome (op.onOverlay o).2 (op.onGraph g').2 := by
    intro o g' op h
    cases op with
    | addNode n => exact ⟨(h.addNode n).1, (h.addNode n).2.1, (h.addNode n).2.2⟩
    | addValue v => exact ⟨(h.addNode ⟨v, [], []⟩).1, (h.addNode ⟨v, [], []⟩).2.1, (h.addNode ⟨v, [], []⟩).2.2⟩
    | addEdge s d w =>
      obtain ⟨h1, h2, h3⟩ := h.addEdge s d w
      refine ⟨h1, h2, ?_⟩
      simp only [Op.onOverlay, Op.onGraph]
      rcases h3 with ⟨a, b⟩ | ⟨e, e', a, b⟩ <;> rw [a, b] <;> simp [SameOutcome]
    | addEdges s d w =>
      obtain ⟨h1, h2, h3⟩ := h.addEdges s d w
      refine ⟨h1, h2, ?_⟩
      simp only [Op.onOverlay, Op.onGraph]
      rcases h3 with ⟨a, b⟩ | ⟨e, e', a, b⟩ <;> rw [a, b] <;> simp [SameOutcome]
    | mutate i f =>
      obtain ⟨h1, h2, h3⟩ := h.mutate i f
      refine ⟨h1, h2, ?_⟩
      simp only [Op.onOverlay, Op.onGraph]
      rcases h3 with ⟨a, b⟩ | ⟨e, e', a, b⟩ <;> rw [a, b] <;> simp [SameOutcome]
  have all : ∀ (ops : List (Op V W)) (o : Overlay V W) (g' : Graph V W), Rel o g' →
      Rel (ops.foldl (fun o op => (op.onOverlay o).1) o) (ops.foldl (fun g op => (op.onGraph g).1) g') ∧
        (ops.foldl (fun o op => (op.onOverlay o).1) o).base = o.base := by
    intro ops
    induction ops with
    | nil => exact fun o g' h => ⟨h, rfl⟩
    | cons op ops ih =>
      intro o g' h
      obtain ⟨h1, h2, _⟩ := step o g' op h
      obtain ⟨h3, h4⟩ := ih _ _ h1
      exact ⟨h3, h4.trans h2⟩
  obtain ⟨hR, hb⟩ := all ops (mkOverlay g) g (Rel.mk' g)
  refine ⟨hb, hR.size, fun i => by rw [hR.size], hR.get, hR.checkLinkage, (step _ _ op hR).2.2⟩

example :
    let o := [Op.addValue "d", .addEdge 3 0 1, .addEdge 9 0 1].foldl (fun o op => (op.onOverlay o).1) (mkOverlay exGraph)
    o.size = 4 ∧ checkLinkage o.size o.get = .ok true ∧ o.base = exGraph :=
  ⟨by decide, by decide, by decide⟩

/-- **C58** From a graph whose in- and out-edge lists describe the same edges, every sequence of calls keeps them in step:
for all nodes `i`, `j`, the edges `i → j` recorded at `i` are those recorded at `j`, with weights and multiplicity. -/
theorem C58_mirrored_preserved (g : Graph V W) (h : Mirrored g) (ops : List (GrowOp V W)) :
    Mirrored (ops.foldl GrowOp.run g) := by
  induction ops generalizing g with
  | nil => exact h
  | cons op ops ih =>
    apply ih
    cases op with
    | addNode v => exact addNodeValue_mirrored h v
    | addEdge s d w =>
      show Mirrored (addEdge g s d w).1
      rw [addEdge_eq]
      split
      · split
        · exact h
        · exact link_mirrored h _ _ w (by omega) (by omega) (by omega)
      · exact h
    | addEdges s d w =>
      show Mirrored (addEdges g s d w).1
      rw [addEdges_eq]
      split
      · split
        · exact h
        · exact link_mirrored (link_mirrored h _ _ w (by omega) (by omega) (by omega)) _ _ w
            (by rw [length_link]; omega) (by rw [length_link]; omega) (by omega)
      · exact h

/-- **C58** Pruning keeps the lists in step, and lists in step imply valid linkage. -/
theorem C58_mirrored_pruned (g : Graph V W) (h : Mirrored g) (prune : List Int) :
    Mirrored (prunedGraph g prune) ∧ ValidLinkage g := ⟨pruned_mirrored h prune, h.validLinkage⟩

theorem mirrored_nil : Mirrored ([] : Graph V W) := ⟨fun i n h => by simp at h, fun i j n m h => by simp at h⟩

example : Mirrored exGraph := C58_mirrored_preserved _ mirrored_nil _
example : Mirrored (prunedGraph exGraph [0]) := (C58_mirrored_pruned _ (C58_mirrored_preserved _ mirrored_nil _) [0]).1

end CRU.Graph
