import Verif.Voxel.DSer
import Verif.Graph.Model
import Verif.GraphSearch.Props
/-
  Deserializing into an object that already has contents: the public `DeserializeSelf` members, which assign the members of the object
  while they read, so that an exception can leave some of them assigned; and derived grid classes with members of their own.
-/
namespace CRU.Ser.Self
open CRU.Ser CRU.Voxel

variable {σ A B : Type}

attribute [local irreducible] add64 mul64 diff64 mkDeserialized getValue allocate memRead memWrite

/-! ### Statements that read and assign -/

/-- A statement of a `DeserializeSelf`: read something and assign members, or check the members. (no project code: C++ or bookkeeping) -/
inductive Stmt (σ : Type) where
  /-- read, then assign -/
  | read (c : Cursor (σ → σ))
  /-- `if (!f) throw e` -/
  | check (f : σ → Res Bool) (e : Exc)

/-- `const auto x = de(buffer, current_position); member = x.Value(); current_position += x.BytesRead();` (no project code: C++ or bookkeeping) -/
def assign (de : Deserializer A) (upd : A → σ → σ) : Stmt σ := .read ((field de).andThen fun a => Cursor.done (upd a))

/-- The statements one after the other: position after the last, or the exception, and the object as it then is. (no project code: C++ or
bookkeeping) -/
def run : List (Stmt σ) → σ → Buf → Nat → Res Nat × σ
  | [], s, _, pos => (.ok pos, s)
  | .read c :: l, s, buf, pos =>
    match c buf pos with
    | .ok (f, p) => run l (f s) buf p
    | .throw e => (.throw e, s)
    | .ub => (.ub, s)
  | .check f e :: l, s, buf, pos =>
    match f s with
    | .ok true => run l s buf pos
    | .ok false => (.throw e, s)
    | .throw e' => (.throw e', s)
    | .ub => (.ub, s)

/-- `return current_position - starting_offset` at the end. (no project code: C++ or bookkeeping) -/
def bytesRead (off : Nat) (r : Res Nat × σ) : Res Nat × σ :=
  match r with
  | (.ok pos, s) => (.ok (diff64 pos off), s)
  | (.throw e, s) => (.throw e, s)
  | (.ub, s) => (.ub, s)

/-- A `DeserializeSelf` with these statements. (no project code: C++ or bookkeeping) -/
def selfOf (l : List (Stmt σ)) (s : σ) (buf : Buf) (off : Nat) : Res Nat × σ := bytesRead off (run l s buf off)

/-- A static `Deserialize`: `DeserializeSelf` of a fresh object, then `MakeDeserialized`. (no project code: C++ or bookkeeping) -/
def ofFresh (r : Res Nat × σ) : Res (σ × Nat) := do
  let n ← r.1
  mkDeserialized r.2 n

/-! ### The classes -/

variable {K T M V W I D : Type}

/-- voxel_grid.hpp:611-660 `VoxelGridBase::BaseDeserializeSelf`. -/
def gridStmts (Ar : Arith K) (little : Bool) (rm : Ser.Repr M) (rk : Ser.Repr K) (invOf : M → Vec K → Vec K) (esz : Nat)
    (dv : Deserializer T) : List (Stmt (Stored M K T)) :=
  [assign (deMem rm) fun m s => ⟨m, { s.grid with inv := invOf m }⟩,
   assign dv fun v s => { s with grid := { s.grid with default := v } },
   assign dv fun v s => { s with grid := { s.grid with oob := v } },
   assign (deSeq (deU64 little) esz dv) fun data s => { s with grid := { s.grid with data := data } },
   assign (deSizes Ar little rk) fun z s => { s with grid := { s.grid with sizes := z } },
   .check (fun s => do
     let n ← s.grid.sizes.totalCells
     .ok (decide (n = s.grid.data.length))) .runtimeError,
   assign (deMem byteRepr) fun b s => { s with grid := { s.grid with initialized := b != 0 } },
   .check (fun s => .ok (s.grid.sizes.valid == s.grid.initialized)) .runtimeError]

/-- voxel_grid.hpp:611-660. -/
def gridBaseSelf (Ar : Arith K) (little : Bool) (rm : Ser.Repr M) (rk : Ser.Repr K) (invOf : M → Vec K → Vec K) (esz : Nat)
    (dv : Deserializer T) (s : Stored M K T) (buf : Buf) (off : Nat) : Res Nat × Stored M K T :=
  selfOf (gridStmts Ar little rm rk invOf esz dv) s buf off

variable [LinearOrder K]

/-- dynamic_spatial_hashed_voxel_grid.hpp:660-713 `DynamicSpatialHashedVoxelGridBase::BaseDeserializeSelf`. -/
def dynStmts (Ar : Arith K) (little : Bool) (rm : Ser.Repr M) (rv : Ser.Repr (Vec K)) (rk : Ser.Repr K) (invOf : M → Vec K → Vec K)
    (esz : Nat) (ins : Region K × SChunk K T → List (Region K × SChunk K T) → List (Region K × SChunk K T)) (dv : Deserializer T) :
    List (Stmt (StoredD M K T)) :=
  [assign (deMem rm) fun m s => { s with origin := m, inv := invOf m },
   assign dv fun v s => { s with default := v },
   assign (deSizes Ar little rk) fun z s => { s with sizes := z },
   assign (deContainer (deU64 little) (dePair (deRegion Ar rv) (deChunk Ar little rv rk esz dv)) ins) fun cs s => { s with chunks := cs },
   assign (deMem byteRepr) fun b s => { s with initialized := b != 0 },
   .check (fun s => .ok (s.sizes.valid == s.initialized)) .runtimeError,
   .check (fun s => .ok (decide (s.chunks.length = 0) || s.sizes.valid)) .runtimeError]

/-- dynamic_spatial_hashed_voxel_grid.hpp:660-713. -/
def dynBaseSelf (Ar : Arith K) (little : Bool) (rm : Ser.Repr M) (rv : Ser.Repr (Vec K)) (rk : Ser.Repr K) (invOf : M → Vec K → Vec K)
    (esz : Nat) (ins : Region K × SChunk K T → List (Region K × SChunk K T) → List (Region K × SChunk K T)) (dv : Deserializer T)
    (s : StoredD M K T) (buf : Buf) (off : Nat) : Res Nat × StoredD M K T := selfOf (dynStmts Ar little rm rv rk invOf esz ins dv) s buf off

omit [LinearOrder K]

/-- simple_graph.hpp:75-104 `GraphEdge::DeserializeSelf`. -/
def edgeSelf (little : Bool) (dw : Deserializer W) : Graph.Edge W → Buf → Nat → Res Nat × Graph.Edge W :=
  selfOf [assign (deI64 little) fun x s => { s with src := x }, assign (deI64 little) fun x s => { s with dst := x },
    assign dw fun x s => { s with weight := x }, assign (deU64 little) fun x s => { s with scratch := x }]

/-- simple_graph.hpp:207-235 `GraphNode::DeserializeSelf`. -/
def nodeSelf (little : Bool) (dv : Deserializer V) (dw : Deserializer W) : Graph.Node V W → Buf → Nat → Res Nat × Graph.Node V W :=
  selfOf [assign dv fun x s => { s with value := x },
    assign (deSeq (deU64 little) 32 (Graph.deEdge little dw)) fun x s => { s with ins := x },
    assign (deSeq (deU64 little) 32 (Graph.deEdge little dw)) fun x s => { s with outs := x }]

/-- simple_graph_search.hpp:89-113 `DijkstrasResult::DeserializeSelf`. -/
def dijkstraSelf (little : Bool) (ri : Ser.Repr I) (rd : Ser.Repr D) : List I × List D → Buf → Nat → Res Nat × (List I × List D) :=
  selfOf [assign (deMemVec (deU64 little) ri) fun x s => (x, s.2), assign (deMemVec (deU64 little) rd) fun x s => (s.1, x),
    .check (fun s => .ok (decide (s.1.length = s.2.length))) .invalidArgument]

/-- simple_graph.hpp:622-649 `Graph::DeserializeSelf`: the nodes are read and checked in a temporary graph. -/
def graphSelf (little : Bool) (nsz : Nat) (dv : Deserializer V) (dw : Deserializer W) (g : Graph.Graph V W) (buf : Buf) (off : Nat) :
    Res Nat × Graph.Graph V W :=
  match (do
    let d ← deSeq (deU64 little) nsz (Graph.deNode little dv dw) buf off
    let d ← getValue d
    let ok ← Graph.checkLinkage d.1.length (Graph.getNode d.1)
    if ok then pure d else .throw .invalidArgument : Res (Graph.Graph V W × Nat)) with
  | .ok d => (.ok d.2, d.1)
  | .throw e => (.throw e, g)
  | .ub => (.ub, g)

/-- voxel_grid.hpp:274-320 `GridSizes::DeserializeSelf`: the six numbers are read into locals, then `Initialize`, then `DefaultInitialize` if
that refused them. -/
def sizesSelf (Ar : Arith K) (little : Bool) (rk : Ser.Repr K) (s : Sizes K) (buf : Buf) (off : Nat) : Res Nat × Sizes K :=
  selfOf [.read (((rawSizes little rk).andThen fun r => Cursor.lift (reinit Ar r.1.x r.1.y r.1.z r.2)).andThen fun z =>
    Cursor.done fun _ => z)] s buf off

/-! ### The same as deserializing into a fresh object -/

/-- The statements as one read that gives the final object. -/
def cursorOf : List (Stmt σ) → σ → Cursor σ
  | [], s => Cursor.done s
  | .read c :: l, s => c.andThen fun f => cursorOf l (f s)
  | .check f e :: l, s => (Cursor.lift (f s)).andThen fun b => Cursor.check b e (cursorOf l s)

theorem cursorOf_eq (l : List (Stmt σ)) (buf : Buf) : ∀ (s : σ) (pos : Nat), cursorOf l s buf pos = (do
    let p ← (run l s buf pos).1
    .ok ((run l s buf pos).2, p)) := by
  induction l with
  | nil => intro s pos; rfl
  | cons a l ih =>
    intro s pos
    cases a with
    | read c =>
      unfold cursorOf run Cursor.andThen
      cases h : c buf pos with
      | ok x => rw [ok_bind_nr]; exact ih _ _
      | throw e => rfl
      | ub => rfl
    | check f e =>
      unfold cursorOf run Cursor.andThen Cursor.lift Cursor.check
      cases h : f s with
      | ok b =>
        cases b with
        | true => simp only [ok_bind_nr, Res.pure_eq]; exact ih _ _
        | false => simp [ok_bind_nr]
      | throw e => rfl
      | ub => rfl

theorem ofFresh_self (l : List (Stmt σ)) (s : σ) : (fun buf off => ofFresh (selfOf l s buf off)) = finish (cursorOf l s) := by
  funext buf off
  unfold ofFresh selfOf finish
  rw [cursorOf_eq]
  cases h : run l s buf off with
  | mk r s' =>
    cases r with
    | ok p => simp only [bytesRead, ok_bind_nr]
    | throw e => rfl
    | ub => rfl

theorem done_andThen (x : A) (f : A → Cursor B) : (Cursor.done x).andThen f = f x := by
  funext buf pos; simp [Cursor.andThen, Cursor.done, ok_bind_nr]

theorem lift_ok_andThen (x : A) (f : A → Cursor B) : (Cursor.lift (.ok x)).andThen f = f x := by
  funext buf pos; simp [Cursor.andThen, Cursor.lift, ok_bind_nr]

theorem lift_bind_andThen (r : Res A) (g : A → B) (f : B → Cursor σ) :
    (Cursor.lift (r >>= fun a => .ok (g a))).andThen f = (Cursor.lift r).andThen fun a => f (g a) := by
  funext buf pos
  unfold Cursor.andThen Cursor.lift
  cases r <;> simp [ok_bind_nr] <;> rfl

theorem grid_fresh (Ar : Arith K) (l : Bool) (rm : Ser.Repr M) (rk : Ser.Repr K) (invOf : M → Vec K → Vec K) (esz : Nat)
    (dv : Deserializer T) (s : Stored M K T) :
    finish (cursorOf (gridStmts Ar l rm rk invOf esz dv) s) = deGrid Ar l rm rk invOf esz dv := by
  unfold deGrid gridStmts
  simp only [cursorOf, assign, andThen_assoc, done_andThen, lift_bind_andThen, lift_ok_andThen]

/-- **C116** Voxel grids: whatever the object held before, deserializing into it throws what the static `Deserialize` throws, and otherwise
returns the same number of bytes and leaves exactly the grid that `Deserialize` gives: nothing of the old contents remains. -/
theorem C116_grid_forgets (Ar : Arith K) (l : Bool) (rm : Ser.Repr M) (rk : Ser.Repr K) (invOf : M → Vec K → Vec K) (esz : Nat)
    (dv : Deserializer T) (s : Stored M K T) (buf : Buf) (off : Nat) :
    ofFresh (gridBaseSelf Ar l rm rk invOf esz dv s buf off) = deGrid Ar l rm rk invOf esz dv buf off := by
  rw [← grid_fresh Ar l rm rk invOf esz dv s]
  exact congrFun (congrFun (ofFresh_self (gridStmts Ar l rm rk invOf esz dv) s) buf) off

/-- **C116** … dynamic grids. -/
theorem C116_dynamic_forgets [LinearOrder K] (Ar : Arith K) (l : Bool) (rm : Ser.Repr M) (rv : Ser.Repr (Vec K)) (rk : Ser.Repr K)
    (invOf : M → Vec K → Vec K) (esz : Nat)
    (ins : Region K × SChunk K T → List (Region K × SChunk K T) → List (Region K × SChunk K T)) (dv : Deserializer T) (s : StoredD M K T)
    (buf : Buf) (off : Nat) :
    ofFresh (dynBaseSelf Ar l rm rv rk invOf esz ins dv s buf off) = deD Ar l rm rv rk invOf esz ins dv buf off := by
  have h : finish (cursorOf (dynStmts Ar l rm rv rk invOf esz ins dv) s) = deD Ar l rm rv rk invOf esz ins dv := by
    unfold deD dynStmts
    simp only [cursorOf, assign, andThen_assoc, done_andThen, lift_ok_andThen]
  rw [← h]
  exact congrFun (congrFun (ofFresh_self (dynStmts Ar l rm rv rk invOf esz ins dv) s) buf) off

/-- **C116** … edges of graphs. -/
theorem C116_edge_forgets (l : Bool) (dw : Deserializer W) (s : Graph.Edge W) (buf : Buf) (off : Nat) :
    ofFresh (edgeSelf l dw s buf off) = Graph.deEdge l dw buf off := by
  have h := congrFun (congrFun (ofFresh_self [assign (deI64 l) fun x (s : Graph.Edge W) => { s with src := x },
    assign (deI64 l) fun x s => { s with dst := x }, assign dw fun x s => { s with weight := x },
    assign (deU64 l) fun x s => { s with scratch := x }] s) buf) off
  simp only [cursorOf, assign, andThen_assoc, done_andThen] at h
  exact h

/-- **C116** … nodes of graphs. -/
theorem C116_node_forgets (l : Bool) (dv : Deserializer V) (dw : Deserializer W) (s : Graph.Node V W) (buf : Buf) (off : Nat) :
    ofFresh (nodeSelf l dv dw s buf off) = Graph.deNode l dv dw buf off := by
  have h := congrFun (congrFun (ofFresh_self [assign dv fun x (s : Graph.Node V W) => { s with value := x },
    assign (deSeq (deU64 l) 32 (Graph.deEdge l dw)) fun x s => { s with ins := x },
    assign (deSeq (deU64 l) 32 (Graph.deEdge l dw)) fun x s => { s with outs := x }] s) buf) off
  simp only [cursorOf, assign, andThen_assoc, done_andThen] at h
  exact h

/-- **C116** … results of Dijkstra's algorithm. -/
theorem C116_dijkstra_forgets (l : Bool) (ri : Ser.Repr I) (rd : Ser.Repr D) (s : List I × List D) (buf : Buf) (off : Nat) :
    ofFresh (dijkstraSelf l ri rd s buf off) = GraphSearch.deDijkstra l ri rd buf off := by
  have h := congrFun (congrFun (ofFresh_self [assign (deMemVec (deU64 l) ri) fun x (s : List I × List D) => (x, s.2),
    assign (deMemVec (deU64 l) rd) fun x s => (s.1, x), .check (fun s => .ok (decide (s.1.length = s.2.length))) .invalidArgument] s) buf) off
  simp only [cursorOf, assign, andThen_assoc, done_andThen, lift_ok_andThen] at h
  exact h

/-- **C116** … graphs. -/
theorem C116_graph_forgets (l : Bool) (nsz : Nat) (dv : Deserializer V) (dw : Deserializer W) (g : Graph.Graph V W) (buf : Buf) (off : Nat) :
    ofFresh (graphSelf l nsz dv dw g buf off) = Graph.deGraph l nsz dv dw buf off := by
  unfold graphSelf Graph.deGraph ofFresh
  cases deSeq (deU64 l) nsz (Graph.deNode l dv dw) buf off with
  | throw e => rfl
  | ub => rfl
  | ok d =>
    simp only [ok_bind_nr]
    cases getValue d with
    | throw e => rfl
    | ub => rfl
    | ok d =>
      simp only [ok_bind_nr]
      cases Graph.checkLinkage d.1.length (Graph.getNode d.1) with
      | throw e => rfl
      | ub => rfl
      | ok b => cases b <;> simp [ok_bind_nr, Res.pure_eq]

/-- **C116** … grid sizes. -/
theorem C116_sizes_forgets (Ar : Arith K) (l : Bool) (rk : Ser.Repr K) (s : Sizes K) (buf : Buf) (off : Nat) :
    ofFresh (sizesSelf Ar l rk s buf off) = deSizes Ar l rk buf off := by
  have h := congrFun (congrFun (ofFresh_self [Stmt.read (((rawSizes l rk).andThen fun r =>
    Cursor.lift (reinit Ar r.1.x r.1.y r.1.z r.2)).andThen fun z => Cursor.done fun _ => z)] s) buf) off
  simp only [cursorOf, andThen_assoc, done_andThen] at h
  have e : ∀ r : Res (Sizes K), ((Cursor.lift r).andThen fun a => Cursor.done a) = Cursor.lift r := by
    intro r
    funext buf pos
    unfold Cursor.andThen Cursor.lift Cursor.done
    cases r <;> simp [ok_bind_nr] <;> rfl
  simp only [e] at h
  unfold sizesSelf deSizes
  simp only [andThen_assoc]
  exact h

/-! ### After an exception -/

/-- **C116** A graph keeps its contents when deserializing into it throws: the strong guarantee. -/
theorem C116_graph_keeps (l : Bool) (nsz : Nat) (dv : Deserializer V) (dw : Deserializer W) (g : Graph.Graph V W) (buf : Buf) (off : Nat)
    (e : Exc) (h : (graphSelf l nsz dv dw g buf off).1 = .throw e) : (graphSelf l nsz dv dw g buf off).2 = g := by
  unfold graphSelf at h ⊢
  split at h
  · cases h
  · rfl
  · cases h

/-- **C116** Grid sizes keep their contents when deserializing into them throws. -/
theorem C116_sizes_keep (Ar : Arith K) (l : Bool) (rk : Ser.Repr K) (s : Sizes K) (buf : Buf) (off : Nat) (e : Exc)
    (h : (sizesSelf Ar l rk s buf off).1 = .throw e) : (sizesSelf Ar l rk s buf off).2 = s := by
  unfold sizesSelf selfOf run at h ⊢
  split at h
  · rename_i f p heq
    unfold run bytesRead at h
    cases h
  · rfl
  · cases h

theorem run_assign (de : Deserializer A) (upd : A → σ → σ) (l : List (Stmt σ)) (s : σ) (buf : Buf) (pos : Nat) :
    run (assign de upd :: l) s buf pos = match field de buf pos with
      | .ok (a, p) => run l (upd a s) buf p
      | .throw e => (.throw e, s)
      | .ub => (.ub, s) := by
  unfold assign
  rw [run]
  unfold Cursor.andThen Cursor.done
  cases field de buf pos <;> simp [ok_bind_nr] <;> rfl

theorem selfOf_throw {l : List (Stmt σ)} {s : σ} {buf : Buf} {off : Nat} {e : Exc} (h : (selfOf l s buf off).1 = .throw e) :
    run l s buf off = (.throw e, (selfOf l s buf off).2) := by
  unfold selfOf at h ⊢
  cases hr : run l s buf off with
  | mk r s' =>
    rw [hr] at h
    cases r with
    | ok p => unfold bytesRead at h; cases h
    | throw e' => unfold bytesRead at h ⊢; cases h; rfl
    | ub => unfold bytesRead at h; cases h

/-- **C116** A result of Dijkstra's algorithm into which deserializing throws: unchanged, or with the new indices and the old distances, or
with both new but not of the same size. -/
theorem C116_dijkstra_after_exception (l : Bool) (ri : Ser.Repr I) (rd : Ser.Repr D) (s : List I × List D) (buf : Buf) (off : Nat) (e : Exc)
    (h : (dijkstraSelf l ri rd s buf off).1 = .throw e) :
    (field (deMemVec (deU64 l) ri) buf off = .throw e ∧ (dijkstraSelf l ri rd s buf off).2 = s) ∨
    ∃ x p, field (deMemVec (deU64 l) ri) buf off = .ok (x, p) ∧
      ((field (deMemVec (deU64 l) rd) buf p = .throw e ∧ (dijkstraSelf l ri rd s buf off).2 = (x, s.2)) ∨
       ∃ y q, field (deMemVec (deU64 l) rd) buf p = .ok (y, q) ∧ x.length ≠ y.length ∧ e = .invalidArgument ∧
        (dijkstraSelf l ri rd s buf off).2 = (x, y)) := by
  have hr := selfOf_throw h
  change _ = (_, (dijkstraSelf l ri rd s buf off).2) at hr
  generalize (dijkstraSelf l ri rd s buf off).2 = t at hr ⊢
  rw [run_assign] at hr
  split at hr
  · rename_i x p h1
    rw [run_assign] at hr
    refine .inr ⟨x, p, h1, ?_⟩
    split at hr
    · rename_i y q h2
      refine .inr ⟨y, q, h2, ?_⟩
      rw [run] at hr
      split at hr
      · rw [run] at hr; cases hr
      · rename_i hc; cases hr; simp at hc; exact ⟨hc, rfl, rfl⟩
      · rename_i hc; cases hc
      · cases hr
    · rename_i h2; cases hr; exact .inl ⟨h2, rfl⟩
    · cases hr
  · rename_i h1; cases hr; exact .inl ⟨h1, rfl⟩
  · cases hr

/-- How far the reading of a grid got: the first `k` members (of origin, default value, out-of-bounds value, data, sizes, initialized) were
read one after the other, at the positions `p`, with the values of `new`, and stored; the others are still those of `old`. -/
structure GridRead (Ar : Arith K) (l : Bool) (rm : Ser.Repr M) (rk : Ser.Repr K) (invOf : M → Vec K → Vec K) (esz : Nat) (dv : Deserializer T)
    (buf : Buf) (off : Nat) (old new now : Stored M K T) (p : Nat → Nat) (k : Nat) : Prop where
  start : p 0 = off
  origin : 0 < k → field (deMem rm) buf (p 0) = .ok (new.origin, p 1)
  default : 1 < k → field dv buf (p 1) = .ok (new.grid.default, p 2)
  oob : 2 < k → field dv buf (p 2) = .ok (new.grid.oob, p 3)
  data : 3 < k → field (deSeq (deU64 l) esz dv) buf (p 3) = .ok (new.grid.data, p 4)
  sizes : 4 < k → field (deSizes Ar l rk) buf (p 4) = .ok (new.grid.sizes, p 5)
  initialized : 5 < k → ∃ b, field (deMem byteRepr) buf (p 5) = .ok (b, p 6) ∧ new.grid.initialized = (b != 0)
  now_origin : now.origin = if 0 < k then new.origin else old.origin
  now_inv : now.grid.inv = if 0 < k then invOf new.origin else old.grid.inv
  now_default : now.grid.default = if 1 < k then new.grid.default else old.grid.default
  now_oob : now.grid.oob = if 2 < k then new.grid.oob else old.grid.oob
  now_data : now.grid.data = if 3 < k then new.grid.data else old.grid.data
  now_sizes : now.grid.sizes = if 4 < k then new.grid.sizes else old.grid.sizes
  now_initialized : now.grid.initialized = if 5 < k then new.grid.initialized else old.grid.initialized

/-- Why the reading of a grid stopped with the exception `e` after `k` members: the next one cannot be read, or the number of values is not
the number of cells, or the grid is said to be initialized and has no valid sizes, or the other way round. -/
def GridStops (Ar : Arith K) (l : Bool) (rm : Ser.Repr M) (rk : Ser.Repr K) (esz : Nat) (dv : Deserializer T) (buf : Buf)
    (new : Stored M K T) (p : Nat → Nat) (e : Exc) : Nat → Prop
  | 0 => field (deMem rm) buf (p 0) = .throw e
  | 1 => field dv buf (p 1) = .throw e
  | 2 => field dv buf (p 2) = .throw e
  | 3 => field (deSeq (deU64 l) esz dv) buf (p 3) = .throw e
  | 4 => field (deSizes Ar l rk) buf (p 4) = .throw e
  | 5 => InI64 (volume new.grid.sizes.n) ∧ (if volume new.grid.sizes.n = new.grid.data.length
      then field (deMem byteRepr) buf (p 5) = .throw e else e = .runtimeError)
  | 6 => volume new.grid.sizes.n = new.grid.data.length ∧ InI64 (volume new.grid.sizes.n) ∧
      new.grid.initialized ≠ new.grid.sizes.valid ∧ e = .runtimeError
  | _ => False

theorem totalCells_ne_throw {s : Sizes K} {e : Exc} : s.totalCells ≠ .throw e := by
  unfold Sizes.totalCells chk64
  split
  · rw [Res.ok_bind]; split <;> exact fun h => by cases h
  · exact fun h => by cases h

/-- **C116** A voxel grid into which deserializing throws has, of its members, the first few read from the buffer and the rest as before; the
inverse always belongs to the transform it was read with. -/
theorem C116_grid_after_exception (Ar : Arith K) (l : Bool) (rm : Ser.Repr M) (rk : Ser.Repr K) (invOf : M → Vec K → Vec K) (esz : Nat)
    (dv : Deserializer T) (old : Stored M K T) (buf : Buf) (off : Nat) (e : Exc)
    (h : (gridBaseSelf Ar l rm rk invOf esz dv old buf off).1 = .throw e) :
    ∃ new p k, k ≤ 6 ∧
      GridRead Ar l rm rk invOf esz dv buf off old new (gridBaseSelf Ar l rm rk invOf esz dv old buf off).2 p k ∧
      GridStops Ar l rm rk esz dv buf new p e k := by
  have hr := selfOf_throw h
  change _ = (_, (gridBaseSelf Ar l rm rk invOf esz dv old buf off).2) at hr
  generalize (gridBaseSelf Ar l rm rk invOf esz dv old buf off).2 = now at hr ⊢
  unfold gridStmts at hr
  rw [run_assign] at hr
  split at hr
  swap
  · rename_i h0; cases hr
    exact ⟨old, fun _ => off, 0, by omega, ⟨rfl, by omega, by omega, by omega, by omega, by omega, by omega, rfl, rfl, rfl, rfl, rfl, rfl, rfl⟩, h0⟩
  swap
  · cases hr
  rename_i m p1 h0
  rw [run_assign] at hr
  split at hr
  swap
  · rename_i h1; cases hr
    exact ⟨⟨m, old.grid⟩, fun i => [off, p1].getD i 0, 1, by omega,
      ⟨rfl, fun _ => h0, by omega, by omega, by omega, by omega, by omega, rfl, rfl, rfl, rfl, rfl, rfl, rfl⟩, h1⟩
  swap
  · cases hr
  rename_i d p2 h1
  rw [run_assign] at hr
  split at hr
  swap
  · rename_i h2; cases hr
    exact ⟨⟨m, { old.grid with default := d }⟩, fun i => [off, p1, p2].getD i 0, 2, by omega,
      ⟨rfl, fun _ => h0, fun _ => h1, by omega, by omega, by omega, by omega, rfl, rfl, rfl, rfl, rfl, rfl, rfl⟩, h2⟩
  swap
  · cases hr
  rename_i o p3 h2
  rw [run_assign] at hr
  split at hr
  swap
  · rename_i h3; cases hr
    exact ⟨⟨m, { old.grid with default := d, oob := o }⟩, fun i => [off, p1, p2, p3].getD i 0, 3, by omega,
      ⟨rfl, fun _ => h0, fun _ => h1, fun _ => h2, by omega, by omega, by omega, rfl, rfl, rfl, rfl, rfl, rfl, rfl⟩, h3⟩
  swap
  · cases hr
  rename_i data p4 h3
  rw [run_assign] at hr
  split at hr
  swap
  · rename_i h4; cases hr
    exact ⟨⟨m, { old.grid with default := d, oob := o, data := data }⟩, fun i => [off, p1, p2, p3, p4].getD i 0, 4, by omega,
      ⟨rfl, fun _ => h0, fun _ => h1, fun _ => h2, fun _ => h3, by omega, by omega, rfl, rfl, rfl, rfl, rfl, rfl, rfl⟩, h4⟩
  swap
  · cases hr
  rename_i z p5 h4
  have read5 : ∀ now', now' = (⟨m, ⟨invOf m, d, o, data, z, old.grid.initialized⟩⟩ : Stored M K T) →
      GridRead Ar l rm rk invOf esz dv buf off old ⟨m, { old.grid with default := d, oob := o, data := data, sizes := z }⟩
        now' (fun i => [off, p1, p2, p3, p4, p5].getD i 0) 5 := by
    rintro _ rfl
    exact ⟨rfl, fun _ => h0, fun _ => h1, fun _ => h2, fun _ => h3, fun _ => h4, by omega, rfl, rfl, rfl, rfl, rfl, rfl, rfl⟩
  rw [run] at hr
  split at hr
  · rename_i hc
    obtain ⟨n, hn, hc⟩ := Res.bind_eq_ok.mp hc
    change z.totalCells = .ok n at hn
    obtain ⟨hv, hf⟩ := totalCells_fits hn
    simp at hc
    rw [hv] at hc
    rw [run_assign] at hr
    split at hr
    swap
    · rename_i h5; cases hr
      refine ⟨_, _, 5, by omega, read5 _ rfl, hf, ?_⟩
      rw [if_pos hc]
      exact h5
    swap
    · cases hr
    rename_i b p6 h5
    rw [run] at hr
    split at hr
    · rw [run] at hr; cases hr
    · rename_i hb; cases hr
      refine ⟨⟨m, { old.grid with default := d, oob := o, data := data, sizes := z, initialized := b != 0 }⟩,
        fun i => [off, p1, p2, p3, p4, p5, p6].getD i 0, 6, by omega,
        ⟨rfl, fun _ => h0, fun _ => h1, fun _ => h2, fun _ => h3, fun _ => h4, fun _ => ⟨b, h5, rfl⟩, rfl, rfl, rfl, rfl, rfl, rfl, rfl⟩,
        hc, hf, ?_, rfl⟩
      intro he
      change (b != 0) = z.valid at he
      change Res.ok (z.valid == (b != 0)) = _ at hb
      rw [he] at hb
      simp at hb
    · rename_i hb; cases hb
    · cases hr
  · rename_i hc
    obtain ⟨n, hn, hc⟩ := Res.bind_eq_ok.mp hc
    change z.totalCells = .ok n at hn
    obtain ⟨hv, hf⟩ := totalCells_fits hn
    simp at hc
    rw [hv] at hc
    cases hr
    refine ⟨_, _, 5, by omega, read5 _ rfl, hf, ?_⟩
    rw [if_neg hc]
  · rename_i hc
    change (z.totalCells >>= _) = _ at hc
    cases hn : z.totalCells with
    | ok n => rw [hn, ok_bind_nr] at hc; cases hc
    | throw e' => exact absurd hn totalCells_ne_throw
    | ub => rw [hn] at hc; cases hc
  · cases hr

/-- Sizes as every grid has them: made by `Initialize` with a number of cells that fits, or the default ones without cells. -/
def UsableSizes (Ar : Arith K) (s : Sizes K) : Prop := GoodSizes s ∨ s = defaultSizes Ar

theorem deSizes_usable {Ar : Arith K} {l : Bool} {rk : Ser.Repr K} {buf : Buf} {pos q : Nat} {s : Sizes K}
    (h : field (deSizes Ar l rk) buf pos = .ok (s, q)) (hf : InI64 (volume s.n)) : UsableSizes Ar s := by
  unfold field at h
  obtain ⟨d, hd, h⟩ := Res.bind_eq_ok.mp h
  obtain ⟨d', hd', h⟩ := Res.bind_eq_ok.mp h
  unfold getValue at hd'
  split at hd'
  · cases hd'
  · cases hd'
    cases h
    unfold deSizes finish at hd
    obtain ⟨x, hx, hd⟩ := Res.bind_eq_ok.mp hd
    unfold mkDeserialized at hd
    split at hd
    · cases hd
    · cases hd
      unfold Cursor.andThen at hx
      obtain ⟨r, _, hx⟩ := Res.bind_eq_ok.mp hx
      unfold Cursor.lift at hx
      obtain ⟨z, hz, hx⟩ := Res.bind_eq_ok.mp hx
      cases hx
      rcases reinit_cases hz with hm | hm
      · have hn := (mkSizes_ok hm).2.2.1
        exact .inl (good_of_mk hm (hn ▸ hf))
      · exact .inr hm

/-- **C116** A grid into which deserializing threw can still be used: its sizes are usable, so that looking up any cell is no undefined
behaviour; it gives a stored value, or says out of bounds, or throws. Refilling it (`ResetWith…`) gives every cell a value again. -/
theorem C116_grid_usable_after_exception (Ar : Arith K) (l : Bool) (rm : Ser.Repr M) (rk : Ser.Repr K) (invOf : M → Vec K → Vec K) (esz : Nat)
    (dv : Deserializer T) (old : Stored M K T) (hold : UsableSizes Ar old.grid.sizes) (buf : Buf) (off : Nat) (e : Exc)
    (h : (gridBaseSelf Ar l rm rk invOf esz dv old buf off).1 = .throw e) :
    let now := (gridBaseSelf Ar l rm rk invOf esz dv old buf off).2.grid
    UsableSizes Ar now.sizes ∧
    (∀ c, getImmutable now c = .ok none ∨ getImmutable now c = .throw .outOfRange ∨ ∃ v ∈ now.data, getImmutable now c = .ok (some v)) ∧
    ∀ v, ∃ g, setContents now v = .ok g ∧ g.data = List.replicate (volume now.sizes.n).toNat v ∧
      ∀ c, InGrid now.sizes.n c → getImmutable g c = .ok (some v) := by
  obtain ⟨new, p, k, hk, hread, hstop⟩ := C116_grid_after_exception Ar l rm rk invOf esz dv old buf off e h
  intro now
  have hu : UsableSizes Ar now.sizes := by
    have hz : now.sizes = _ := hread.now_sizes
    by_cases h4 : 4 < k
    · rw [hz, if_pos h4]
      refine deSizes_usable (hread.sizes h4) ?_
      have : k = 5 ∨ k = 6 := by omega
      rcases this with rfl | rfl
      · exact hstop.1
      · exact hstop.2.1
    · rw [hz, if_neg h4]; exact hold
  have hget : ∀ (g : Grid K T), g.sizes = now.sizes → ∀ c, (¬ InGrid g.sizes.n c ∧ getImmutable g c = .ok none) ∨
      (InGrid g.sizes.n c ∧ getImmutable g c = (do
        let i ← access g.data (position g.sizes.n c)
        let v ← atRaw g.data i
        pure (some v))) := by
    intro g hg c
    by_cases hc : InGrid g.sizes.n c
    · refine .inr ⟨hc, ?_⟩
      have hgood : GoodSizes g.sizes := by
        rcases hu with hu | hu
        · rw [hg]; exact hu
        · rw [hg, hu] at hc
          obtain ⟨⟨h1, h2⟩, _⟩ := hc
          change c.x < 0 at h2
          omega
      unfold getImmutable
      rw [if_pos ((inBounds_iff _ _).mpr hc), dataIndex_ok hgood hc, ok_bind_nr]
    · refine .inl ⟨hc, ?_⟩
      unfold getImmutable
      rw [if_neg (fun hb => hc ((inBounds_iff _ _).mp hb))]
  refine ⟨hu, ?_, ?_⟩
  · intro c
    rcases hget now rfl c with ⟨_, h1⟩ | ⟨hc, h1⟩
    · exact .inl h1
    · right
      rw [h1]
      unfold access
      by_cases hp : position now.sizes.n c ≥ 0 ∧ position now.sizes.n c < now.data.length
      · right
        have hlt : (position now.sizes.n c).toNat < now.data.length := by omega
        refine ⟨now.data[(position now.sizes.n c).toNat], List.getElem_mem _, ?_⟩
        rw [if_pos hp, ok_bind_nr]
        unfold atRaw
        rw [List.getElem?_eq_getElem hlt]
        rfl
      · left
        rw [if_neg hp]; rfl
  · intro v
    have htot : now.sizes.totalCells = .ok (volume now.sizes.n) ∧ 0 ≤ volume now.sizes.n := by
      rcases hu with hu | hu
      · refine ⟨totalCells_ok hu.nums, ?_⟩
        have := hu.nums.x; have := hu.nums.y; have := hu.nums.z
        unfold volume
        positivity
      · rw [hu]; exact ⟨rfl, by show (0 : Int) ≤ 0 * 0 * 0; decide⟩
    refine ⟨{ now with data := List.replicate (volume now.sizes.n).toNat v }, ?_, rfl, ?_⟩
    · unfold setContents
      rw [htot.1, ok_bind_nr, if_neg (by omega)]
      rfl
    · intro c hc
      rcases hget { now with data := List.replicate (volume now.sizes.n).toNat v } rfl c with ⟨hn, _⟩ | ⟨_, h1⟩
      · exact absurd hc hn
      · rw [h1]
        have hr := position_range hc
        unfold access
        dsimp only
        rw [if_pos (by simp; omega), ok_bind_nr]
        unfold atRaw
        rw [List.getElem?_replicate, if_pos (by omega)]
        rfl

/-- **C116** A dynamic grid into which deserializing throws: the first `k` members are read from the buffer, the others are as before. -/
theorem C116_dynamic_after_exception [LinearOrder K] (Ar : Arith K) (l : Bool) (rm : Ser.Repr M) (rv : Ser.Repr (Vec K)) (rk : Ser.Repr K)
    (invOf : M → Vec K → Vec K) (esz : Nat)
    (ins : Region K × SChunk K T → List (Region K × SChunk K T) → List (Region K × SChunk K T)) (dv : Deserializer T) (old : StoredD M K T)
    (buf : Buf) (off : Nat) (e : Exc) (h : (dynBaseSelf Ar l rm rv rk invOf esz ins dv old buf off).1 = .throw e) :
    let now := (dynBaseSelf Ar l rm rv rk invOf esz ins dv old buf off).2
    let cs := deContainer (deU64 l) (dePair (deRegion Ar rv) (deChunk Ar l rv rk esz dv)) ins
    (field (deMem rm) buf off = .throw e ∧ now = old) ∨
    ∃ m p1, field (deMem rm) buf off = .ok (m, p1) ∧
     ((field dv buf p1 = .throw e ∧ now = { old with origin := m, inv := invOf m }) ∨
      ∃ d p2, field dv buf p1 = .ok (d, p2) ∧
       ((field (deSizes Ar l rk) buf p2 = .throw e ∧ now = { old with origin := m, inv := invOf m, default := d }) ∨
        ∃ z p3, field (deSizes Ar l rk) buf p2 = .ok (z, p3) ∧
         ((field cs buf p3 = .throw e ∧ now = { old with origin := m, inv := invOf m, default := d, sizes := z }) ∨
          ∃ c p4, field cs buf p3 = .ok (c, p4) ∧
           ((field (deMem byteRepr) buf p4 = .throw e ∧
              now = { old with origin := m, inv := invOf m, default := d, sizes := z, chunks := c }) ∨
            ∃ b p5, field (deMem byteRepr) buf p4 = .ok (b, p5) ∧ e = .runtimeError ∧
              now = ⟨m, invOf m, d, z, c, b != 0⟩ ∧ (z.valid ≠ (b != 0) ∨ (c ≠ [] ∧ z.valid = false)))))) := by
  have hr := selfOf_throw h
  change _ = (_, (dynBaseSelf Ar l rm rv rk invOf esz ins dv old buf off).2) at hr
  generalize (dynBaseSelf Ar l rm rv rk invOf esz ins dv old buf off).2 = now at hr ⊢
  unfold dynStmts at hr
  dsimp only
  rw [run_assign] at hr
  split at hr
  swap
  · rename_i h0; cases hr; exact .inl ⟨h0, rfl⟩
  swap
  · cases hr
  rename_i m p1 h0
  refine .inr ⟨m, p1, h0, ?_⟩
  rw [run_assign] at hr
  split at hr
  swap
  · rename_i h1; cases hr; exact .inl ⟨h1, rfl⟩
  swap
  · cases hr
  rename_i d p2 h1
  refine .inr ⟨d, p2, h1, ?_⟩
  rw [run_assign] at hr
  split at hr
  swap
  · rename_i h2; cases hr; exact .inl ⟨h2, rfl⟩
  swap
  · cases hr
  rename_i z p3 h2
  refine .inr ⟨z, p3, h2, ?_⟩
  rw [run_assign] at hr
  split at hr
  swap
  · rename_i h3; cases hr; exact .inl ⟨h3, rfl⟩
  swap
  · cases hr
  rename_i c p4 h3
  refine .inr ⟨c, p4, h3, ?_⟩
  rw [run_assign] at hr
  split at hr
  swap
  · rename_i h4; cases hr; exact .inl ⟨h4, rfl⟩
  swap
  · cases hr
  rename_i b p5 h4
  refine .inr ⟨b, p5, h4, ?_⟩
  rw [run] at hr
  split at hr
  · rw [run] at hr
    split at hr
    · rw [run] at hr; cases hr
    · rename_i hc; cases hr
      refine ⟨rfl, rfl, .inr ?_⟩
      change Res.ok (decide (c.length = 0) || z.valid) = .ok false at hc
      simp at hc
      exact hc
    · rename_i hc; cases hc
    · cases hr
  · rename_i hc; cases hr
    refine ⟨rfl, rfl, .inl ?_⟩
    intro he
    change Res.ok (z.valid == (b != 0)) = .ok false at hc
    rw [he] at hc
    simp at hc
  · rename_i hc; cases hc
  · cases hr

/-- **C116** A graph edge into which deserializing throws. -/
theorem C116_edge_after_exception (l : Bool) (dw : Deserializer W) (old : Graph.Edge W) (buf : Buf) (off : Nat) (e : Exc)
    (h : (edgeSelf l dw old buf off).1 = .throw e) :
    let now := (edgeSelf l dw old buf off).2
    (field (deI64 l) buf off = .throw e ∧ now = old) ∨
    ∃ a p1, field (deI64 l) buf off = .ok (a, p1) ∧
     ((field (deI64 l) buf p1 = .throw e ∧ now = { old with src := a }) ∨
      ∃ b p2, field (deI64 l) buf p1 = .ok (b, p2) ∧
       ((field dw buf p2 = .throw e ∧ now = { old with src := a, dst := b }) ∨
        ∃ w p3, field dw buf p2 = .ok (w, p3) ∧ field (deU64 l) buf p3 = .throw e ∧ now = { old with src := a, dst := b, weight := w })) := by
  have hr := selfOf_throw h
  change _ = (_, (edgeSelf l dw old buf off).2) at hr
  generalize (edgeSelf l dw old buf off).2 = now at hr ⊢
  dsimp only
  rw [run_assign] at hr
  split at hr
  swap
  · rename_i h0; cases hr; exact .inl ⟨h0, rfl⟩
  swap
  · cases hr
  rename_i m p1 h0
  refine .inr ⟨m, p1, h0, ?_⟩
  rw [run_assign] at hr
  split at hr
  swap
  · rename_i h1; cases hr; exact .inl ⟨h1, rfl⟩
  swap
  · cases hr
  rename_i d p2 h1
  refine .inr ⟨d, p2, h1, ?_⟩
  rw [run_assign] at hr
  split at hr
  swap
  · rename_i h2; cases hr; exact .inl ⟨h2, rfl⟩
  swap
  · cases hr
  rename_i z p3 h2
  refine .inr ⟨z, p3, h2, ?_⟩
  rw [run_assign] at hr
  split at hr
  swap
  · rename_i h3; cases hr; exact ⟨h3, rfl⟩
  swap
  · cases hr
  rw [run] at hr; cases hr

/-- **C116** A graph node into which deserializing throws. -/
theorem C116_node_after_exception (l : Bool) (dv : Deserializer V) (dw : Deserializer W) (old : Graph.Node V W) (buf : Buf) (off : Nat) (e : Exc)
    (h : (nodeSelf l dv dw old buf off).1 = .throw e) :
    let now := (nodeSelf l dv dw old buf off).2
    let edges := deSeq (deU64 l) 32 (Graph.deEdge l dw)
    (field dv buf off = .throw e ∧ now = old) ∨
    ∃ v p1, field dv buf off = .ok (v, p1) ∧
     ((field edges buf p1 = .throw e ∧ now = { old with value := v }) ∨
      ∃ i p2, field edges buf p1 = .ok (i, p2) ∧ field edges buf p2 = .throw e ∧ now = { old with value := v, ins := i }) := by
  have hr := selfOf_throw h
  change _ = (_, (nodeSelf l dv dw old buf off).2) at hr
  generalize (nodeSelf l dv dw old buf off).2 = now at hr ⊢
  dsimp only
  rw [run_assign] at hr
  split at hr
  swap
  · rename_i h0; cases hr; exact .inl ⟨h0, rfl⟩
  swap
  · cases hr
  rename_i m p1 h0
  refine .inr ⟨m, p1, h0, ?_⟩
  rw [run_assign] at hr
  split at hr
  swap
  · rename_i h1; cases hr; exact .inl ⟨h1, rfl⟩
  swap
  · cases hr
  rename_i d p2 h1
  refine .inr ⟨d, p2, h1, ?_⟩
  rw [run_assign] at hr
  split at hr
  swap
  · rename_i h2; cases hr; exact ⟨h2, rfl⟩
  swap
  · cases hr
  rw [run] at hr; cases hr

/-! ### What an exception can do -/

theorem field_mem {T : Type} (r : Ser.Repr T) (pre post : Buf) (x : T) (h : (pre ++ r.bytes x ++ post).length < TWO63) :
    field (deMem r) (pre ++ r.bytes x ++ post) pre.length = .ok (x, (pre ++ r.bytes x).length) := by
  have hpos := r.pos
  have hb := r.length_bytes x
  have hs := r.small
  have hl : pre.length + r.size + post.length < TWO63 := by simpa [hb, add_assoc] using h
  unfold field deMem
  have hL : (pre ++ r.bytes x ++ post).length = pre.length + r.size + post.length := by simp [hb, add_assoc]
  rw [hL, if_neg (by omega), add64_eq (by omega), if_neg (by omega)]
  have := read_ctx pre (r.bytes x) post (by intro h; rw [h] at hb; simp at hb; omega)
  rw [hb] at this
  rw [this, Res.ok_bind, r.ofBytes_bytes, mkD_ok (by omega), Res.ok_bind, getValue_ok (by dsimp only; omega), Res.ok_bind, Res.pure_eq]
  dsimp only
  rw [add64_eq (by omega), List.length_append, hb]

theorem field_no_values {T : Type} (l : Bool) (esz : Nat) (dv : Deserializer T) (pre post : Buf)
    (h : (pre ++ u64Bytes l 0 ++ post).length < TWO63) :
    field (deSeq (deU64 l) esz dv) (pre ++ u64Bytes l 0 ++ post) pre.length = .ok ([], (pre ++ u64Bytes l 0).length) := by
  have hb : (u64Bytes l 0).length = 8 := length_hostBytes l 8 0
  have hne : u64Bytes l 0 ≠ [] := by intro h; rw [h] at hb; simp at hb
  have hl : pre.length + 8 + post.length < TWO63 := by simpa [hb, add_assoc] using h
  unfold field deSeq deU64
  have hL : (pre ++ u64Bytes l 0 ++ post).length = pre.length + 8 + post.length := by simp [hb, add_assoc]
  rw [hL, if_neg (by omega), add64_eq (by omega), if_neg (by omega)]
  have := read_ctx pre (u64Bytes l 0) post hne
  rw [hb] at this
  rw [this, Res.ok_bind, mkD_ok (by omega), Res.ok_bind, getValue_ok (by dsimp only; omega), Res.ok_bind]
  dsimp only
  have hz : hostValue l (u64Bytes l 0) = 0 := by rw [u64Bytes, hostValue_hostBytes l 8 0 (by norm_num)]
  rw [hz, alloc_ok (by omega), Res.ok_bind]
  unfold deItems
  rw [Res.ok_bind, add64_eq (by omega)]
  dsimp only
  have hd : diff64 (pre.length + 8) pre.length = 8 := by
    unfold diff64
    omega
  rw [hd, mkD_ok (by omega), Res.ok_bind, getValue_ok (by dsimp only; omega), Res.ok_bind, Res.pure_eq]
  dsimp only
  rw [add64_eq (by omega), List.length_append, hb]

theorem field_end {T : Type} (r : Ser.Repr T) (buf : Buf) (pos : Nat) (h : buf.length ≤ pos) :
    field (deMem r) buf pos = .throw .invalidArgument := by
  unfold field deMem
  rw [if_pos h]; rfl

theorem sizes_end (Ar : Arith K) (l : Bool) (rk : Ser.Repr K) (buf : Buf) (pos : Nat) (h : buf.length ≤ pos) :
    field (deSizes Ar l rk) buf pos = .throw .invalidArgument := by
  unfold field deSizes finish rawSizes Cursor.andThen
  simp only [field_end rk buf pos h]
  rfl

/-- **C116** No strong guarantee: every grid with cells can be made useless by an attempt to deserialize into it that throws. For a buffer
that ends after an empty list of values, the call throws, and the grid still says that it is initialized, with the sizes it had, but
looking up any of its cells throws. -/
theorem C116_grid_strong_guarantee_false (Ar : Arith K) (l : Bool) (rm : Ser.Repr M) (rk : Ser.Repr K) (invOf : M → Vec K → Vec K)
    (esz : Nat) (rt : Ser.Repr T) (old : Stored M K T) (hg : GoodSizes old.grid.sizes) :
    ∃ buf : Buf, (gridBaseSelf Ar l rm rk invOf esz (deMem rt) old buf 0).1 = .throw .invalidArgument ∧
      let now := (gridBaseSelf Ar l rm rk invOf esz (deMem rt) old buf 0).2.grid
      now.initialized = old.grid.initialized ∧ now.sizes = old.grid.sizes ∧
      ∀ c, InGrid old.grid.sizes.n c → getImmutable now c = .throw .outOfRange := by
  let b1 := rm.bytes old.origin
  let b2 := rt.bytes old.grid.default
  let b3 := rt.bytes old.grid.oob
  let b4 := u64Bytes l 0
  have l1 : b1.length = rm.size := rm.length_bytes _
  have l2 : b2.length = rt.size := rt.length_bytes _
  have l3 : b3.length = rt.size := rt.length_bytes _
  have l4 : b4.length = 8 := length_hostBytes l 8 0
  have := rm.small
  have := rt.small
  have hbuf : ∀ x : Buf, x = b1 ++ b2 ++ b3 ++ b4 → x.length < TWO63 := by
    rintro x rfl
    simp only [List.length_append, l1, l2, l3, l4]
    omega
  have r1 := field_mem rm [] (b2 ++ b3 ++ b4) old.origin (hbuf _ (by simp [b1]))
  have r2 := field_mem rt b1 (b3 ++ b4) old.grid.default (hbuf _ (by simp [b2]))
  have r3 := field_mem rt (b1 ++ b2) b4 old.grid.oob (hbuf _ (by simp [b3]))
  have r4 := field_no_values l esz (deMem rt) (b1 ++ b2 ++ b3) [] (hbuf _ (by simp [b4]))
  have e1 : ([] : Buf) ++ rm.bytes old.origin ++ (b2 ++ b3 ++ b4) = b1 ++ b2 ++ b3 ++ b4 := by simp [b1]
  have e2 : b1 ++ rt.bytes old.grid.default ++ (b3 ++ b4) = b1 ++ b2 ++ b3 ++ b4 := by simp [b2]
  have e3 : b1 ++ b2 ++ rt.bytes old.grid.oob ++ b4 = b1 ++ b2 ++ b3 ++ b4 := by simp [b3]
  have e4 : b1 ++ b2 ++ b3 ++ u64Bytes l 0 ++ [] = b1 ++ b2 ++ b3 ++ b4 := by simp [b4]
  rw [e1] at r1; rw [e2] at r2; rw [e3] at r3; rw [e4] at r4
  have r5 := sizes_end Ar l rk (b1 ++ b2 ++ b3 ++ b4) (b1 ++ b2 ++ b3 ++ u64Bytes l 0).length le_rfl
  have key : run (gridStmts Ar l rm rk invOf esz (deMem rt)) old (b1 ++ b2 ++ b3 ++ b4) 0 =
      (.throw .invalidArgument, ⟨old.origin, { old.grid with inv := invOf old.origin, data := [] }⟩) := by
    unfold gridStmts
    simp only [List.length_nil] at r1
    rw [run_assign, r1]
    dsimp only
    rw [List.nil_append, run_assign, r2]
    dsimp only
    rw [run_assign, r3]
    dsimp only
    rw [run_assign, r4]
    dsimp only
    rw [run_assign, r5]
  refine ⟨b1 ++ b2 ++ b3 ++ b4, ?_, ?_⟩
  · unfold gridBaseSelf selfOf; rw [key]; rfl
  · unfold gridBaseSelf selfOf
    rw [key]
    refine ⟨rfl, rfl, fun c hc => ?_⟩
    unfold getImmutable bytesRead
    dsimp only
    rw [if_pos ((inBounds_iff _ _).mpr hc), dataIndex_ok hg hc, ok_bind_nr]
    unfold access
    rw [if_neg (by simp)]
    rfl

/-- **C116** … and a result of Dijkstra's algorithm can get as many indices as one likes, with the old distances. -/
theorem C116_dijkstra_strong_guarantee_false (l : Bool) (ri : Ser.Repr I) (rd : Ser.Repr D) (old : List I × List D)
    (new : List I) (hsz : new.length * ri.size + 8 < TWO63) :
    ∃ (buf : Buf) (e : Exc), dijkstraSelf l ri rd old buf 0 = (.throw e, (new, old.2)) := by
  have hpos := ri.pos
  have hle := length_flatMap_bytes ri new
  have hb : (u64Bytes l new.length).length = 8 := length_hostBytes l 8 _
  have hn : new.length < TWO63 := by
    have := Nat.le_mul_of_pos_right new.length hpos
    omega
  let buf := u64Bytes l new.length ++ new.flatMap ri.bytes
  have hbl : buf.length = 8 + new.length * ri.size := by simp [buf, hb, hle]
  have hd : deU64 l buf 0 = .ok (new.length, 8) := by
    unfold deU64
    rw [hbl, if_neg (by omega), add64_eq (by omega), if_neg (by omega)]
    have hr : memRead buf 0 8 = .ok (u64Bytes l new.length) := by
      unfold memRead
      rw [if_pos (by rw [hbl]; omega)]
      simp [buf, ← hb]
    rw [hr, Res.ok_bind, u64Bytes, hostValue_hostBytes l 8 _ (by norm_num; omega), mkD_ok (by omega)]
  have h1 := deMemVec_ok ri (by omega) (by omega) hd (by omega : 0 + 8 + new.length * ri.size ≤ buf.length)
  have hch : chunks ri new.length ((buf.drop (0 + 8)).take (new.length * ri.size)) = new := by
    have : (buf.drop (0 + 8)).take (new.length * ri.size) = new.flatMap ri.bytes := by
      simp only [buf, Nat.zero_add]
      rw [List.drop_append_of_le_length (by omega), List.drop_of_length_le (by omega), List.nil_append, ← hle, List.take_length]
    rw [this, chunks_flatMap]
  rw [hch] at h1
  have f1 : field (deMemVec (deU64 l) ri) buf 0 = .ok (new, buf.length) := by
    unfold field
    rw [h1, Res.ok_bind, getValue_ok (by dsimp only; omega), Res.ok_bind, Res.pure_eq]
    dsimp only
    rw [add64_eq (by omega), hbl, Nat.zero_add]
  have f2 : field (deMemVec (deU64 l) rd) buf buf.length = .throw .invalidArgument := by
    unfold field deMemVec deU64
    rw [if_pos le_rfl]; rfl
  refine ⟨buf, .invalidArgument, ?_⟩
  unfold dijkstraSelf selfOf
  rw [run_assign, f1]
  dsimp only
  rw [run_assign, f2]
  rfl

/-! ### Grid classes with members of their own -/

variable {δ : Type}

/-- voxel_grid.hpp:758-765, dynamic_spatial_hashed_voxel_grid.hpp:821-828 `SerializeSelf`: the operands of `+` are evaluated in an order that
C++ leaves open, and both append to the buffer. Simplification: the derived class writes only members of its own. -/
def serSelf (baseFirst : Bool) (sb : Serializer σ) (sd : Serializer δ) : Serializer (σ × δ) := fun x buf =>
  if baseFirst then do
    let a ← sb x.1 buf
    let b ← sd x.2 a.1
    .ok (b.1, add64 a.2 b.2)
  else do
    let b ← sd x.2 buf
    let a ← sb x.1 b.1
    .ok (a.1, add64 a.2 b.2)

/-- voxel_grid.hpp:767-779, dynamic_spatial_hashed_voxel_grid.hpp:830-843 `DeserializeSelf`: always the base class first. -/
def deSelf (base : σ → Buf → Nat → Res Nat × σ) (der : δ → Buf → Nat → Res Nat × δ) (x : σ × δ) (buf : Buf) (off : Nat) : Res Nat × (σ × δ) :=
  match base x.1 buf off with
  | (.ok n, s) =>
    match der x.2 buf (add64 off n) with
    | (.ok m, d) => (.ok (diff64 (add64 (add64 off n) m) off), (s, d))
    | (.throw e, d) => (.throw e, (s, d))
    | (.ub, d) => (.ub, (s, d))
  | (.throw e, s) => (.throw e, (s, x.2))
  | (.ub, s) => (.ub, (s, x.2))

/-- voxel_grid.hpp:1328-1335, dynamic_spatial_hashed_voxel_grid.hpp:1088-1095 `DerivedSerializeSelf` of the concrete classes. -/
def writeNothing : Serializer Unit := fun _ buf => .ok (buf, 0)

/-- voxel_grid.hpp:1337-1345, dynamic_spatial_hashed_voxel_grid.hpp:1097-1105 `DerivedDeserializeSelf` of the concrete classes. -/
def readNothing : Unit → Buf → Nat → Res Nat × Unit := fun _ _ _ => (.ok 0, ())

/-- **C116** For the concrete classes, which have no members of their own, the order does not matter and the public calls do what the base
class does. -/
theorem C116_concrete (baseFirst : Bool) (sb : Serializer σ) (x : σ) (buf buf' : Buf) (n : Nat) (hs : sb x buf = .ok (buf', n)) (hn : n < TWO64)
    (l : List (Stmt σ)) (s : σ) (off : Nat) (ho : off < TWO64) :
    serSelf baseFirst sb writeNothing (x, ()) buf = .ok (buf', n) ∧
    deSelf (selfOf l) readNothing (s, ()) buf off = ((selfOf l s buf off).1, ((selfOf l s buf off).2, ())) := by
  constructor
  · unfold serSelf writeNothing
    cases baseFirst
    · rw [if_neg (by simp), Res.ok_bind]
      dsimp only
      rw [hs, Res.ok_bind, add64_eq (by omega)]
      rfl
    · rw [if_pos rfl]
      dsimp only
      rw [hs, Res.ok_bind, Res.ok_bind, add64_eq (by omega)]
      rfl
  · unfold deSelf readNothing
    unfold selfOf bytesRead
    rcases run l s buf off with ⟨r, s'⟩
    cases r with
    | ok p =>
      dsimp only
      congr 2
      unfold diff64 add64
      omega
    | throw e => rfl
    | ub => rfl

theorem ofFresh_ok {r : Res Nat × σ} {s : σ} {n : Nat} (h : ofFresh r = .ok (s, n)) : r = (.ok n, s) := by
  obtain ⟨r1, r2⟩ := r
  unfold ofFresh at h
  obtain ⟨m, hm, h⟩ := Res.bind_eq_ok.mp h
  unfold mkDeserialized at h
  split at h
  · cases h
  · cases h; dsimp only at hm; rw [hm]

/-- **C116** Writing a grid and reading it back into an object that holds anything else gives the grid that was written, whatever precedes
and follows in the buffer. -/
theorem C116_grid_reload (Ar : Arith K) (l : Bool) (rm : Ser.Repr M) (rk : Ser.Repr K) (invOf : M → Vec K → Vec K)
    (esz : Nat) (sv : Serializer T) (dv : Deserializer T) (s old : Stored M K T) (hc : Consistent invOf s)
    (hs : Reloads Ar s.grid.sizes) (hd : RoundTrips sv dv s.grid.default) (ho : RoundTrips sv dv s.grid.oob)
    (hv : ∀ v ∈ s.grid.data, RoundTrips sv dv v) (hl : s.grid.data.length < TWO63) (hm : s.grid.data.length * esz < TWO63) :
    ∃ enc : Buf, enc ≠ [] ∧
      (∀ buf : Buf, (buf ++ enc).length < TWO63 → serGrid l rm rk sv s buf = .ok (buf ++ enc, enc.length)) ∧
      ∀ pre post : Buf, (pre ++ enc ++ post).length < TWO63 →
        gridBaseSelf Ar l rm rk invOf esz dv old (pre ++ enc ++ post) pre.length = (.ok enc.length, s) := by
  obtain ⟨enc, ne, w, d⟩ := C83_grid_round_trip Ar l rm rk invOf esz sv dv s hc hs hd ho hv hl hm
  refine ⟨enc, ne, w, fun pre post hlen => ?_⟩
  obtain ⟨y, hy, rfl⟩ := d pre post hlen
  refine ofFresh_ok ?_
  rw [C116_grid_forgets]
  exact hy

/-- **C116** With members of its own, a derived class whose base class is written first round-trips. -/
theorem C116_derived_round_trip (sb : Serializer σ) (base : σ → Buf → Nat → Res Nat × σ) (sd : Serializer δ)
    (der : δ → Buf → Nat → Res Nat × δ) (x old : σ × δ)
    (hb : ∃ enc : Buf, enc ≠ [] ∧ (∀ buf : Buf, (buf ++ enc).length < TWO63 → sb x.1 buf = .ok (buf ++ enc, enc.length)) ∧
      ∀ pre post : Buf, (pre ++ enc ++ post).length < TWO63 → base old.1 (pre ++ enc ++ post) pre.length = (.ok enc.length, x.1))
    (hd : ∃ enc : Buf, (∀ buf : Buf, (buf ++ enc).length < TWO63 → sd x.2 buf = .ok (buf ++ enc, enc.length)) ∧
      ∀ pre post : Buf, (pre ++ enc ++ post).length < TWO63 → der old.2 (pre ++ enc ++ post) pre.length = (.ok enc.length, x.2)) :
    ∃ enc : Buf, enc ≠ [] ∧ (∀ buf : Buf, (buf ++ enc).length < TWO63 → serSelf true sb sd x buf = .ok (buf ++ enc, enc.length)) ∧
      ∀ pre post : Buf, (pre ++ enc ++ post).length < TWO63 →
        deSelf base der old (pre ++ enc ++ post) pre.length = (.ok enc.length, x) := by
  obtain ⟨e1, ne, w1, d1⟩ := hb
  obtain ⟨e2, w2, d2⟩ := hd
  refine ⟨e1 ++ e2, by simp [ne], fun buf hl => ?_, fun pre post hl => ?_⟩
  · have hl' : buf.length + e1.length + e2.length < TWO63 := by simpa [Nat.add_assoc] using hl
    unfold serSelf
    rw [if_pos rfl, w1 buf (by simp; omega), Res.ok_bind]
    dsimp only
    rw [w2 (buf ++ e1) (by simp; omega), Res.ok_bind]
    dsimp only
    rw [add64_eq (by omega), List.append_assoc, List.length_append]
  · have hl' : pre.length + e1.length + e2.length + post.length < TWO63 := by simpa [Nat.add_assoc] using hl
    have q1 : pre ++ (e1 ++ e2) ++ post = pre ++ e1 ++ (e2 ++ post) := by simp
    have q2 : pre ++ (e1 ++ e2) ++ post = (pre ++ e1) ++ e2 ++ post := by simp
    have h1 := d1 pre (e2 ++ post) (by rw [← q1]; exact hl)
    have h2 := d2 (pre ++ e1) post (by rw [← q2]; exact hl)
    rw [← q1] at h1
    rw [← q2] at h2
    unfold deSelf
    rw [h1]
    dsimp only
    rw [add64_eq (by omega), ← List.length_append, h2]
    dsimp only
    rw [List.length_append, add64_eq (by omega), List.length_append]
    have : diff64 (pre.length + e1.length + e2.length) pre.length = e1.length + e2.length := by
      unfold diff64; omega
    rw [this]

/-- A statement leaves `f` of the object alone. -/
def Leaves (f : σ → A) : Stmt σ → Prop
  | .read c => ∀ buf pos g p, c buf pos = .ok (g, p) → ∀ s, f (g s) = f s
  | .check _ _ => True

theorem leaves_assign {f : σ → A} {de : Deserializer B} {upd : B → σ → σ} (h : ∀ b s, f (upd b s) = f s) : Leaves f (assign de upd) := by
  intro buf pos g p hg s
  unfold Cursor.andThen at hg
  obtain ⟨x, _, hg⟩ := Res.bind_eq_ok.mp hg
  unfold Cursor.done at hg
  cases hg
  exact h _ _

theorem run_leaves {f : σ → A} (l : List (Stmt σ)) (hl : ∀ x ∈ l, Leaves f x) (buf : Buf) :
    ∀ (s : σ) (pos : Nat), f (run l s buf pos).2 = f s := by
  induction l with
  | nil => intro s pos; rfl
  | cons a l ih =>
    intro s pos
    have ih := ih fun x hx => hl x (List.mem_cons_of_mem _ hx)
    have ha := hl a List.mem_cons_self
    cases a with
    | read c =>
      rw [run]
      cases hc : c buf pos with
      | ok x => exact (ih _ _).trans (ha buf pos x.1 x.2 hc s)
      | throw e => rfl
      | ub => rfl
    | check g e =>
      rw [run]
      cases hc : g s with
      | ok b => cases b with
        | true => exact ih _ _
        | false => rfl
      | throw e => rfl
      | ub => rfl

theorem grid_origin {Ar : Arith K} {l : Bool} {rm : Ser.Repr M} {rk : Ser.Repr K} {invOf : M → Vec K → Vec K} {esz : Nat}
    {dv : Deserializer T} {old s : Stored M K T} {buf : Buf} {off n : Nat}
    (h : gridBaseSelf Ar l rm rk invOf esz dv old buf off = (.ok n, s)) : ∃ p, field (deMem rm) buf off = .ok (s.origin, p) := by
  have hs : s = (run (gridStmts Ar l rm rk invOf esz dv) old buf off).2 := by
    unfold gridBaseSelf selfOf at h
    rcases hr : run (gridStmts Ar l rm rk invOf esz dv) old buf off with ⟨r, t⟩
    rw [hr] at h
    cases r <;> cases h
    rfl
  have hok : ∀ e t, run (gridStmts Ar l rm rk invOf esz dv) old buf off ≠ (.throw e, t) ∧
      run (gridStmts Ar l rm rk invOf esz dv) old buf off ≠ (.ub, t) := by
    intro e t
    unfold gridBaseSelf selfOf at h
    constructor <;> intro hr <;> rw [hr] at h <;> cases h
  have hcons : gridStmts Ar l rm rk invOf esz dv =
    assign (deMem rm) (fun m s => ⟨m, { s.grid with inv := invOf m }⟩) :: (gridStmts Ar l rm rk invOf esz dv).tail := rfl
  rw [hcons, run_assign] at hs
  cases hf : field (deMem rm) buf off with
  | ok x =>
    rw [hf] at hs
    dsimp only at hs
    refine ⟨x.2, ?_⟩
    rw [hs, run_leaves (f := fun s : Stored M K T => s.origin)]
    · intro y hy
      unfold gridStmts at hy
      simp only [List.tail_cons, List.mem_cons, List.not_mem_nil, or_false] at hy
      rcases hy with rfl | rfl | rfl | rfl | rfl | rfl | rfl
      · exact leaves_assign fun _ _ => rfl
      · exact leaves_assign fun _ _ => rfl
      · exact leaves_assign fun _ _ => rfl
      · exact leaves_assign fun _ _ => rfl
      · trivial
      · exact leaves_assign fun _ _ => rfl
      · trivial
  | throw e =>
    exfalso
    refine (hok e old).1 ?_
    rw [hcons, run_assign, hf]
  | ub =>
    exfalso
    refine (hok .runtimeError old).2 ?_
    rw [hcons, run_assign, hf]

theorem field_mem_value {T : Type} {r : Ser.Repr T} {buf : Buf} {off : Nat} {x : T} {p : Nat} (h : field (deMem r) buf off = .ok (x, p)) :
    x = r.ofBytes ((buf.drop off).take r.size) ∧ off + r.size ≤ buf.length := by
  unfold field at h
  obtain ⟨d, hd, h⟩ := Res.bind_eq_ok.mp h
  obtain ⟨d', hd', h⟩ := Res.bind_eq_ok.mp h
  unfold getValue at hd'
  split at hd'
  · cases hd'
  · cases hd'
    cases h
    unfold deMem at hd
    split at hd
    · cases hd
    · split at hd
      · cases hd
      · obtain ⟨b, hb, hd⟩ := Res.bind_eq_ok.mp hd
        unfold memRead at hb
        split at hb
        · rename_i hle
          cases hb
          unfold mkDeserialized at hd
          split at hd
          · cases hd
          · cases hd; exact ⟨rfl, hle.2⟩
        · cases hb

/-- **C116** … but with a compiler that evaluates the second operand first it does not: for every grid, with one more byte in the derived
class that is not the first byte of the transform, what is read back is not what was written, whatever the derived class does when it
reads. (`enc` are the bytes of the grid: `C116_grid_reload`.) -/
theorem C116_derived_order_false (Ar : Arith K) (l : Bool) (rm : Ser.Repr M) (hrm : ∀ b : Buf, b.length = rm.size → rm.bytes (rm.ofBytes b) = b)
    (rk : Ser.Repr K) (invOf : M → Vec K → Vec K) (esz : Nat) (sv : Serializer T) (dv : Deserializer T) (s : Stored M K T) (enc : Buf)
    (hw : ∀ buf : Buf, (buf ++ enc).length < TWO63 → serGrid l rm rk sv s buf = .ok (buf ++ enc, enc.length)) (hl : enc.length + 1 < TWO63)
    (d : UInt8) (hd : (rm.bytes s.origin).head? ≠ some d) :
    serSelf false (serGrid l rm rk sv) (serMem byteRepr) (s, d) [] = .ok (d :: enc, enc.length + 1) ∧
    ∀ (der : UInt8 → Buf → Nat → Res Nat × UInt8) (old : Stored M K T × UInt8) (post : Buf) (m : Nat),
      deSelf (gridBaseSelf Ar l rm rk invOf esz dv) der old (d :: enc ++ post) 0 ≠ (.ok m, (s, d)) := by
  constructor
  · unfold serSelf
    rw [if_neg (by simp)]
    have h1 : serMem byteRepr (s, d).2 [] = .ok ([d], 1) := rfl
    rw [h1, Res.ok_bind]
    dsimp only
    rw [hw [d] (by simp; omega), Res.ok_bind]
    dsimp only
    rw [add64_eq (by omega)]
    rfl
  · intro der old post m h
    have hp := rm.pos
    have hbase : ∃ k, gridBaseSelf Ar l rm rk invOf esz dv old.1 (d :: enc ++ post) 0 = (.ok k, s) := by
      unfold deSelf at h
      rcases hg : gridBaseSelf Ar l rm rk invOf esz dv old.1 (d :: enc ++ post) 0 with ⟨r, t⟩
      rw [hg] at h
      cases r with
      | ok k =>
        dsimp only at h
        split at h
        · cases h; exact ⟨k, rfl⟩
        · cases h
        · cases h
      | throw e => cases h
      | ub => cases h
    obtain ⟨k, hbase⟩ := hbase
    obtain ⟨p, hor⟩ := grid_origin hbase
    obtain ⟨ho, hlen⟩ := field_mem_value hor
    rw [Nat.zero_add] at hlen
    rw [List.drop_zero] at ho
    have hby : (rm.bytes s.origin) = (d :: enc ++ post).take rm.size := by
      rw [ho]; exact hrm _ (by rw [List.length_take]; exact Nat.min_eq_left hlen)
    apply hd
    rw [hby]
    obtain ⟨q, hq⟩ : ∃ q, rm.size = q + 1 := ⟨rm.size - 1, by omega⟩
    rw [hq]
    simp

/-! ### The hypotheses are met -/

/-- A grid of 2 x 3 x 4 bytes, all 7, with a transform that takes one byte. -/
def exGrid : Stored UInt8 UInt64 UInt8 := ⟨5, ⟨id, 7, 9, List.replicate 24 7, wordSizes, true⟩⟩

theorem exGrid_good : GoodSizes exGrid.grid.sizes := good_of_mk mk_wordSizes (by decide)

/-- `C116_grid_strong_guarantee_false`: before, the first cell of this grid could be read. -/
example : getImmutable exGrid.grid ⟨0, 0, 0⟩ = .ok (some 7) ∧
    ∃ buf : Buf, (gridBaseSelf wordArith true byteRepr (Rrt.word true) (fun _ => id) 1 (deMem byteRepr) exGrid buf 0).1 = .throw .invalidArgument ∧
      getImmutable (gridBaseSelf wordArith true byteRepr (Rrt.word true) (fun _ => id) 1 (deMem byteRepr) exGrid buf 0).2.grid ⟨0, 0, 0⟩ =
        .throw .outOfRange := by
  refine ⟨by rfl, ?_⟩
  obtain ⟨buf, h1, h2⟩ := C116_grid_strong_guarantee_false wordArith true byteRepr (Rrt.word true) (fun _ => id) 1 byteRepr exGrid exGrid_good
  exact ⟨buf, h1, h2.2.2 ⟨0, 0, 0⟩ (by show InGrid ⟨2, 3, 4⟩ ⟨0, 0, 0⟩; decide)⟩

/-- `C116_grid_after_exception`, `C116_grid_usable_after_exception`: attempts that throw exist, and afterwards the grid can be refilled. -/
example : ∃ buf : Buf, (gridBaseSelf wordArith true byteRepr (Rrt.word true) (fun _ => id) 1 (deMem byteRepr) exGrid buf 0).1 =
      .throw .invalidArgument ∧
    ∃ g, setContents (gridBaseSelf wordArith true byteRepr (Rrt.word true) (fun _ => id) 1 (deMem byteRepr) exGrid buf 0).2.grid 3 = .ok g ∧
      getImmutable g ⟨1, 2, 3⟩ = .ok (some 3) := by
  obtain ⟨buf, h1, _, h2, _⟩ :=
    C116_grid_strong_guarantee_false wordArith true byteRepr (Rrt.word true) (fun _ => id) 1 byteRepr exGrid exGrid_good
  obtain ⟨_, _, h3⟩ := C116_grid_usable_after_exception wordArith true byteRepr (Rrt.word true) (fun _ => id) 1 (deMem byteRepr) exGrid
    (.inl exGrid_good) buf 0 _ h1
  obtain ⟨g, hg, _, h4⟩ := h3 3
  refine ⟨buf, h1, g, hg, h4 ⟨1, 2, 3⟩ ?_⟩
  rw [h2]
  show InGrid ⟨2, 3, 4⟩ ⟨1, 2, 3⟩
  decide

/-- `C116_grid_reload`, `C116_derived_order_false`: the grid is written and read back into any other; with a derived class whose one byte is 6
it is written and not read back if the operands of `+` are evaluated from right to left. -/
example (old : Stored UInt8 UInt64 UInt8) : ∃ enc : Buf,
    (∀ pre post : Buf, (pre ++ enc ++ post).length < TWO63 →
      gridBaseSelf wordArith true byteRepr (Rrt.word true) (fun _ => id) 1 (deMem byteRepr) old (pre ++ enc ++ post) pre.length = (.ok enc.length, exGrid)) ∧
    (enc.length + 1 < TWO63 → serSelf false (serGrid true byteRepr (Rrt.word true) (serMem byteRepr)) (serMem byteRepr) (exGrid, 6) [] =
        .ok (6 :: enc, enc.length + 1) ∧
      ∀ (der : UInt8 → Buf → Nat → Res Nat × UInt8) old m,
        deSelf (gridBaseSelf wordArith true byteRepr (Rrt.word true) (fun _ => id) 1 (deMem byteRepr)) der old (6 :: enc ++ []) 0 ≠
          (.ok m, (exGrid, 6))) := by
  obtain ⟨enc, ne, w, rd⟩ := C116_grid_reload wordArith true byteRepr (Rrt.word true) (fun _ => id) 1 (serMem byteRepr) (deMem byteRepr) exGrid old
    ⟨by rfl, rfl, rfl⟩ (reloads_of_mk mk_wordSizes (by decide) (by decide) (by decide)) (rt_mem _ _) (rt_mem _ _) (fun v _ => rt_mem _ v)
    (by show (24 : Nat) < _; omega) (by show (24 * 1 : Nat) < _; omega)
  refine ⟨enc, rd, fun hl => ?_⟩
  obtain ⟨h1, h2⟩ := C116_derived_order_false wordArith true byteRepr (by
      intro b hb
      match b, hb with
      | [x], _ => rfl) (Rrt.word true) (fun _ => id) 1 (serMem byteRepr) (deMem byteRepr)
    exGrid enc w hl 6 (by show some (5 : UInt8) ≠ some 6; decide)
  exact ⟨h1, fun der old m => h2 der old [] m⟩

/-- `C116_dijkstra_after_exception`, `C116_dijkstra_strong_guarantee_false`. -/
example : ∃ (buf : Buf) (e : Exc), dijkstraSelf true (Rrt.word true) (Rrt.word true) ([0], [0]) buf 0 = (.throw e, ([1, 2, 3], [0])) :=
  C116_dijkstra_strong_guarantee_false true (Rrt.word true) (Rrt.word true) ([0], [0]) [1, 2, 3] (by show (3 * 8 + 8 : Nat) < _; omega)

/-- `C116_edge_after_exception`, `C116_node_after_exception`, `C116_dynamic_after_exception`, `C116_graph_keeps`, `C116_sizes_keep`: empty
buffers throw. -/
example (e : Graph.Edge UInt8) (n : Graph.Node UInt8 UInt8) (g : Graph.Graph UInt8 UInt8) (z : Sizes UInt64) :
    (edgeSelf true (deMem byteRepr) e [] 0).1 = .throw .invalidArgument ∧
    (nodeSelf true (deMem byteRepr) (deMem byteRepr) n [] 0).1 = .throw .invalidArgument ∧
    (graphSelf true 32 (deMem byteRepr) (deMem byteRepr) g [] 0).1 = .throw .invalidArgument ∧
    (sizesSelf wordArith true (Rrt.word true) z [] 0).1 = .throw .invalidArgument := ⟨rfl, rfl, rfl, rfl⟩

attribute [local instance] wordOrder in
example (old : StoredD UInt8 UInt64 UInt8) :
    (dynBaseSelf wordArith true byteRepr wordVec (Rrt.word true) (fun _ => id) 1 (fun _ c => c) (deMem byteRepr) old [] 0).1 =
      .throw .invalidArgument := rfl

/-- `C116_derived_round_trip`: a derived class with one byte. -/
example : ∃ enc : Buf, (∀ buf : Buf, (buf ++ enc).length < TWO63 → serMem byteRepr 6 buf = .ok (buf ++ enc, enc.length)) ∧
    ∀ pre post : Buf, (pre ++ enc ++ post).length < TWO63 →
      selfOf [assign (deMem byteRepr) fun b _ => b] 0 (pre ++ enc ++ post) pre.length = (.ok enc.length, 6) := by
  refine ⟨[6], fun buf _ => by simp [serMem, byteRepr], fun pre post h => ?_⟩
  have hf := field_mem byteRepr pre post 6 h
  have hb : byteRepr.bytes 6 = [6] := rfl
  rw [hb] at hf
  unfold selfOf
  rw [run_assign, hf]
  have : pre.length + 1 + post.length < TWO63 := by simp at h; omega
  unfold run bytesRead
  dsimp only
  rw [List.length_append, List.length_singleton]
  congr 2
  unfold diff64
  omega

/-- `C116_concrete`: the bytes of the grid. -/
example (enc : Buf) (hl : enc.length < TWO63) (hw : serGrid true byteRepr (Rrt.word true) (serMem byteRepr) exGrid [] = .ok (enc, enc.length))
    (b : Bool) : serSelf b (serGrid true byteRepr (Rrt.word true) (serMem byteRepr)) writeNothing (exGrid, ()) [] = .ok (enc, enc.length) :=
  (C116_concrete b _ exGrid [] enc enc.length hw (by omega) [] exGrid 0 (by omega)).1

end CRU.Ser.Self
