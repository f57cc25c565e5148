import Verif.Graph.Spec
import Verif.Parallel.Run
import Verif.Serialization.Cursor
/-
  Model of include/common_robotics_utilities/simple_graph.hpp. Edge weights are of any type `W`, node values of any type
  `V`. A mutator returns the new state together with its outcome, so that the state after an exception is visible.
-/
namespace CRU.Graph
open CRU.Ser CRU.Parallel

variable {V W : Type}

/-- simple_graph.hpp:702-710 `GetNodeImmutable` / `GetNodeMutable`: `nodes_.at((size_t)index)`. -/
def getNode (g : Graph V W) (i : Int) : Res (Node V W) := atInt g i

/-- simple_graph.hpp:679-691 `Size`, `IndexInRange`. -/
def indexInRange (size i : Int) : Bool := 0 ≤ i && i < size

/-- simple_graph.hpp:712-716 `AddNode(NodeType)`: new graph, returned index. -/
def addNode (g : Graph V W) (n : Node V W) : Graph V W × Int := (g ++ [n], ((g ++ [n]).length : Int) - 1)

/-- simple_graph.hpp:718-722 `AddNode(NodeValueType)`. -/
def addNodeValue (g : Graph V W) (v : V) : Graph V W × Int := addNode g ⟨v, [], []⟩

/-- simple_graph.hpp:262-265 `AddInEdge` on the node at an index known to exist. -/
def pushIn (g : Graph V W) (i : Int) (e : Edge W) : Graph V W := g.modify i.toNat fun n => { n with ins := n.ins ++ [e] }

/-- simple_graph.hpp:267-270 `AddOutEdge`. -/
def pushOut (g : Graph V W) (i : Int) (e : Edge W) : Graph V W := g.modify i.toNat fun n => { n with outs := n.outs ++ [e] }

/-- simple_graph.hpp:724-738 `AddEdgeBetweenNodes`. -/
def addEdge (g : Graph V W) (src dst : Int) (w : W) : Graph V W × Res Unit :=
  match getNode g src with
  | .throw e => (g, .throw e)
  | .ub => (g, .ub)
  | .ok _ =>
    match getNode g dst with
    | .throw e => (g, .throw e)
    | .ub => (g, .ub)
    | .ok _ =>
      if src = dst then (g, .throw .invalidArgument)
      else (pushIn (pushOut g src ⟨src, dst, w, 0⟩) dst ⟨src, dst, w, 0⟩, .ok ())

/-- simple_graph.hpp:740-758 `AddEdgesBetweenNodes`. -/
def addEdges (g : Graph V W) (a b : Int) (w : W) : Graph V W × Res Unit :=
  match getNode g a with
  | .throw e => (g, .throw e)
  | .ub => (g, .ub)
  | .ok _ =>
    match getNode g b with
    | .throw e => (g, .throw e)
    | .ub => (g, .ub)
    | .ok _ =>
      if a = b then (g, .throw .invalidArgument)
      else
        let g1 := pushIn (pushOut g a ⟨a, b, w, 0⟩) b ⟨a, b, w, 0⟩
        (pushIn (pushOut g1 b ⟨b, a, w, 0⟩) a ⟨b, a, w, 0⟩, .ok ())

/-- A `for` loop with early `return false`. -/
def allRes {α : Type} (p : α → Res Bool) : List α → Res Bool
  | [] => .ok true
  | x :: xs => do
    let b ← p x
    if b then allRes p xs else pure false

/-- simple_graph.hpp:344-380, body of the in-edge loop. -/
def checkIn (size : Int) (get : Int → Res (Node V W)) (idx : Int) (e : Edge W) : Res Bool :=
  if e.src < 0 ∨ e.src ≥ size then .ok false
  else if e.dst ≠ idx then .ok false
  else if e.src = e.dst then .ok false
  else do
    let fromNode ← get e.src
    pure (fromNode.outs.any fun e' => e'.dst = idx)

/-- simple_graph.hpp:383-419, body of the out-edge loop. -/
def checkOut (size : Int) (get : Int → Res (Node V W)) (idx : Int) (e : Edge W) : Res Bool :=
  if e.src ≠ idx then .ok false
  else if e.dst < 0 ∨ e.dst ≥ size then .ok false
  else if e.src = e.dst then .ok false
  else do
    let toNode ← get e.dst
    pure (toNode.ins.any fun e' => e'.src = idx)

/-- simple_graph.hpp:335-422 `CheckGraphLinkage`, for any graph type given by `Size()` and `GetNodeImmutable`. -/
def checkLinkage (size : Int) (get : Int → Res (Node V W)) : Res Bool :=
  allRes (fun idx => do
    let n ← get idx
    let b ← allRes (checkIn size get idx) n.ins
    if b then allRes (checkOut size get idx) n.outs else pure false) (irange 0 size)

/-- simple_graph.hpp:583-596, constructor from a node vector. -/
def mkGraph (nodes : Graph V W) : Res (Graph V W) := do
  let ok ← checkLinkage nodes.length (getNode nodes)
  if ok then pure nodes else .throw .invalidArgument

/-! ### Pruning -/

/-- simple_graph.hpp:472-491 / 512-531: the loop that renumbers one edge end. -/
def renumber (orig : Int) : List Int → Int → Res Int
  | [], cur => .ok cur
  | p :: ps, cur =>
    if p < orig then renumber orig ps (cur - 1)
    else if p > orig then .ok cur
    else .throw .runtimeError

/-- simple_graph.hpp:458-496, the in-edges of one kept node. -/
def pruneIns (prune sorted : List Int) (kept : Int) : List (Edge W) → Res (List (Edge W))
  | [] => .ok []
  | e :: es =>
    if e.src ∈ prune then pruneIns prune sorted kept es
    else do
      let s ← renumber e.src sorted e.src
      let rest ← pruneIns prune sorted kept es
      pure ({ e with dst := kept, src := s } :: rest)

/-- simple_graph.hpp:498-536, the out-edges. -/
def pruneOuts (prune sorted : List Int) (kept : Int) : List (Edge W) → Res (List (Edge W))
  | [] => .ok []
  | e :: es =>
    if e.dst ∈ prune then pruneOuts prune sorted kept es
    else do
      let t ← renumber e.dst sorted e.dst
      let rest ← pruneOuts prune sorted kept es
      pure ({ e with src := kept, dst := t } :: rest)

/-- simple_graph.hpp:453-540 `per_item_work`. -/
def pruneNode (prune sorted : List Int) (kept : Int) (n : Node V W) : Res (Node V W) := do
  let i ← pruneIns prune sorted kept n.ins
  let o ← pruneOuts prune sorted kept n.outs
  pure { n with ins := i, outs := o }

/-- simple_graph.hpp:441-449: copy the nodes to keep. -/
def keepNodes (g : Graph V W) (prune : List Int) : List Int → Res (Graph V W)
  | [] => .ok []
  | i :: is =>
    if i ∈ prune then keepNodes g prune is
    else do
      let n ← getNode g i
      let rest ← keepNodes g prune is
      pure (n :: rest)

/-- `std::sort` on distinct integers. -/
def sortInts (l : List Int) : List Int := l.mergeSort (· ≤ ·)

/-- simple_graph.hpp:424-547 `PruneGraph` / `MakePrunedCopy`: `r` is the outcome of one run, the second pass being run by a
static parallel loop under an arbitrary schedule. `prune` lists the set to prune in the set's iteration order.
A negative `reserve` argument becomes a huge size and throws `std::length_error` (438-439). -/
def PruneRun (b : Backend) (threads : Int) (g : Graph V W) (prune : List Int) (r : Res (Graph V W)) : Prop :=
  if (g.length : Int) - prune.length < 0 then r = .throw .lengthError
  else ∃ kept, (keepNodes g prune (irange 0 g.length) = .ok kept ∧
    ∃ order, IndexRun b threads 0 kept.length order ∧ r = modifyAll (pruneNode prune (sortInts prune)) order kept)

/-! ### Serialization -/

/-- simple_graph.hpp:63-73 `GraphEdge::SerializeSelf`. -/
def serEdge (little : Bool) (sw : Serializer W) : Serializer (Edge W) :=
  wrote fun e => seqW (put (serI64 little) e.src) (seqW (put (serI64 little) e.dst)
    (seqW (put sw e.weight) (put (serU64 little) e.scratch)))

/-- simple_graph.hpp:75-104, 40-47 `GraphEdge::DeserializeSelf` / `Deserialize`. -/
def deEdge (little : Bool) (dw : Deserializer W) : Deserializer (Edge W) :=
  finish <| (field (deI64 little)).andThen fun s => (field (deI64 little)).andThen fun d => (field dw).andThen fun w =>
    (field (deU64 little)).andThen fun k => Cursor.done ⟨s, d, w, k⟩

/-- simple_graph.hpp:187-205 `GraphNode::SerializeSelf`. -/
def serNode (little : Bool) (sv : Serializer V) (sw : Serializer W) : Serializer (Node V W) :=
  wrote fun n => seqW (put sv n.value) (seqW (put (serSeq (serU64 little) (serEdge little sw)) n.ins)
    (put (serSeq (serU64 little) (serEdge little sw)) n.outs))

/-- simple_graph.hpp:207-235, 164-174 `GraphNode::DeserializeSelf` / `Deserialize`; an edge takes 32 bytes in memory. -/
def deNode (little : Bool) (dv : Deserializer V) (dw : Deserializer W) : Deserializer (Node V W) :=
  finish <| (field dv).andThen fun v => (field (deSeq (deU64 little) 32 (deEdge little dw))).andThen fun i =>
    (field (deSeq (deU64 little) 32 (deEdge little dw))).andThen fun o => Cursor.done ⟨v, i, o⟩

/-- simple_graph.hpp:604-620 `Graph::SerializeSelf`. -/
def serGraph (little : Bool) (sv : Serializer V) (sw : Serializer W) : Serializer (Graph V W) :=
  wrote fun g => put (serSeq (serU64 little) (serNode little sv sw)) g

/-- simple_graph.hpp:622-649, 571-581 `Graph::DeserializeSelf` / `Deserialize`; `nsz` is the size of a node in memory. -/
def deGraph (little : Bool) (nsz : Nat) (dv : Deserializer V) (dw : Deserializer W) : Deserializer (Graph V W) :=
  fun buf off => do
    let d ← deSeq (deU64 little) nsz (deNode little dv dw) buf off
    let d ← getValue d
    let ok ← checkLinkage d.1.length (getNode d.1)
    if ok then mkDeserialized d.1 d.2 else .throw .invalidArgument

/-! ### Overlay -/

/-- simple_graph.hpp:761-776 `NonOwningGraphOverlay`: the base graph, the overlay map, the size. -/
structure Overlay (V W : Type) where
  base : Graph V W
  over : Int → Option (Node V W)
  size : Int

/-- simple_graph.hpp:784-796, constructor (non-null base). -/
def mkOverlay (g : Graph V W) : Overlay V W := ⟨g, fun _ => none, g.length⟩

/-- simple_graph.hpp:819-830 `GetNodeImmutable`. -/
def Overlay.get (o : Overlay V W) (i : Int) : Res (Node V W) :=
  match o.over i with
  | some n => .ok n
  | none => getNode o.base i

/-- `overlay_.emplace(i, n)` / assignment through a reference into the map. (simple_graph.hpp:844-862) -/
def Overlay.put (o : Overlay V W) (i : Int) (n : Node V W) : Overlay V W :=
  { o with over := fun j => if j = i then some n else o.over j }

/-- simple_graph.hpp:832-847 `GetNodeMutable`: migrates the node to the overlay; returns the node. -/
def Overlay.getMut (o : Overlay V W) (i : Int) : Overlay V W × Res (Node V W) :=
  match o.over i with
  | some n => (o, .ok n)
  | none =>
    match getNode o.base i with
    | .ok n => (o.put i n, .ok n)
    | .throw e => (o, .throw e)
    | .ub => (o, .ub)

/-- simple_graph.hpp:849-863 `AddNode(NodeType)`; `emplace` does not replace an existing entry. -/
def Overlay.addNode (o : Overlay V W) (n : Node V W) : Overlay V W × Int :=
  match o.over o.size with
  | some _ => ({ o with size := o.size + 1 }, o.size)
  | none => ({ (o.put o.size n) with size := o.size + 1 }, o.size)

/-- Push onto the in-edges / out-edges of a node already in the overlay (a reference obtained from `GetNodeMutable`). (simple_graph.hpp:880-916) -/
def Overlay.pushIn (o : Overlay V W) (i : Int) (e : Edge W) : Overlay V W :=
  { o with over := fun j => if j = i then (o.over j).map fun n => { n with ins := n.ins ++ [e] } else o.over j }

/-- (simple_graph.hpp:880-916) -/
def Overlay.pushOut (o : Overlay V W) (i : Int) (e : Edge W) : Overlay V W :=
  { o with over := fun j => if j = i then (o.over j).map fun n => { n with outs := n.outs ++ [e] } else o.over j }

/-- simple_graph.hpp:865-887 `AddEdgeBetweenNodes`. -/
def Overlay.addEdge (o : Overlay V W) (src dst : Int) (w : W) : Overlay V W × Res Unit :=
  if src = dst then (o, .throw .invalidArgument)
  else if !indexInRange o.size src || !indexInRange o.size dst then (o, .throw .invalidArgument)
  else
    match o.getMut src with
    | (o1, .throw e) => (o1, .throw e)
    | (o1, .ub) => (o1, .ub)
    | (o1, .ok _) =>
      match o1.getMut dst with
      | (o2, .throw e) => (o2, .throw e)
      | (o2, .ub) => (o2, .ub)
      | (o2, .ok _) => ((o2.pushOut src ⟨src, dst, w, 0⟩).pushIn dst ⟨src, dst, w, 0⟩, .ok ())

/-- simple_graph.hpp:889-916 `AddEdgesBetweenNodes`. -/
def Overlay.addEdges (o : Overlay V W) (a b : Int) (w : W) : Overlay V W × Res Unit :=
  if a = b then (o, .throw .invalidArgument)
  else if !indexInRange o.size a || !indexInRange o.size b then (o, .throw .invalidArgument)
  else
    match o.getMut a with
    | (o1, .throw e) => (o1, .throw e)
    | (o1, .ub) => (o1, .ub)
    | (o1, .ok _) =>
      match o1.getMut b with
      | (o2, .throw e) => (o2, .throw e)
      | (o2, .ub) => (o2, .ub)
      | (o2, .ok _) =>
        let o3 := (o2.pushOut a ⟨a, b, w, 0⟩).pushIn b ⟨a, b, w, 0⟩
        ((o3.pushOut b ⟨b, a, w, 0⟩).pushIn a ⟨b, a, w, 0⟩, .ok ())

/-- Assignment through the reference returned by `GetNodeMutable(i)`: `graph.GetNodeMutable(i) = f(node)`. (simple_graph.hpp:832-848) -/
def Overlay.mutate (o : Overlay V W) (i : Int) (f : Node V W → Node V W) : Overlay V W × Res Unit :=
  match o.getMut i with
  | (o1, .ok n) => (o1.put i (f n), .ok ())
  | (o1, .throw e) => (o1, .throw e)
  | (o1, .ub) => (o1, .ub)

/-- The same on a plain graph (simple_graph.hpp:707-710). -/
def mutate (g : Graph V W) (i : Int) (f : Node V W → Node V W) : Graph V W × Res Unit :=
  match getNode g i with
  | .ok n => (g.set i.toNat (f n), .ok ())
  | .throw e => (g, .throw e)
  | .ub => (g, .ub)

end CRU.Graph
