import Verif.Voxel.Geometry
/-
  Model of include/common_robotics_utilities/dynamic_spatial_hashed_voxel_grid.hpp. The `unordered_map` from chunk regions to
  chunks is a partial function of the region (its iteration order is only visible in serialization). Values are copied.
-/
namespace CRU.Voxel

/-! ## What users expect -/

/-- DSHVGSetType / the fill level of a chunk. (dynamic_spatial_hashed_voxel_grid.hpp:81, 86) -/
inductive Level where
  | chunk | cell
deriving DecidableEq

/-- A dynamic grid as a user sees it: chunks that were touched, each with its current level and the values of its cells
(cells are numbered globally). -/
structure DMap (T : Type) where
  default : T
  chunks : Cell → Option (Level × (Cell → T))

/-- Set at a location in cell `c` of chunk `k`. -/
def DMap.set {T : Type} (m : DMap T) (lvl : Level) (k c : Cell) (v : T) : DMap T :=
  { m with chunks := fun k' =>
      if k' = k then
        match lvl with
        | .chunk => some (.chunk, fun _ => v)
        | .cell =>
          match m.chunks k with
          | none => some (.cell, fun d => if d = c then v else m.default)
          | some (_, f) => some (.cell, fun d => if d = c then v else f d)
      else m.chunks k' }

/-- Write through the reference returned by a mutable query: a cell, or the whole chunk if it is stored as one value. -/
def DMap.write {T : Type} (m : DMap T) (k c : Cell) (v : T) : DMap T :=
  { m with chunks := fun k' =>
      if k' = k then
        match m.chunks k with
        | none => none
        | some (.chunk, _) => some (.chunk, fun _ => v)
        | some (.cell, f) => some (.cell, fun d => if d = c then v else f d)
      else m.chunks k' }

/-! ## Model -/

variable {K T H : Type}

/-- dynamic_spatial_hashed_voxel_grid.hpp:81 `DSHVGFillStatus`. -/
inductive Fill where
  | notFilled | chunkFilled | cellFilled
deriving DecidableEq

/-- dynamic_spatial_hashed_voxel_grid.hpp:23-76 `ChunkRegion`: the base point (the last component is always 1). -/
structure Region (K : Type) where
  x : K
  y : K
  z : K
deriving DecidableEq

/-- dynamic_spatial_hashed_voxel_grid.hpp:171-177 `DynamicSpatialHashedVoxelGridChunk` (its sizes are always those of the grid). -/
structure Chunk (K T : Type) where
  region : Region K
  data : List T
  fill : Fill

/-- dynamic_spatial_hashed_voxel_grid.hpp:614-631 `DynamicSpatialHashedVoxelGridBase`. -/
structure DGrid (K T : Type) where
  inv : Vec K → Vec K
  default : T
  sizes : Sizes K
  chunks : Region K → Option (Chunk K T)

/-- The hook of a derived class (it is passed the location in the grid frame, 774). -/
structure DHook (H K : Type) where
  access : H → Vec K → H × Bool

/-- A hook without state. -/
def pureHook (allow : Vec K → Bool) : DHook Unit K := ⟨fun _ l => ((), allow l)⟩

variable [LinearOrder K]

/-- dynamic_spatial_hashed_voxel_grid.hpp:179-213 `GetLocationDataIndex`. -/
def chunkDataIndex (A : Arith K) (s : Sizes K) (r : Region K) (l : Vec K) : Res Int :=
  let dx := A.sub l.x r.x
  let dy := A.sub l.y r.y
  let dz := A.sub l.z r.z
  if dx < A.ofInt 0 ∨ dy < A.ofInt 0 ∨ dz < A.ofInt 0 ∨ s.sx ≤ dx ∨ s.sy ≤ dy ∨ s.sz ≤ dz then .ok (-1)
  else do
    let x ← chk64 (A.floor (A.div dx s.cx))
    let y ← chk64 (A.floor (A.div dy s.cy))
    let z ← chk64 (A.floor (A.div dz s.cz))
    if x < 0 ∨ y < 0 ∨ z < 0 ∨ x ≥ s.n.x ∨ y ≥ s.n.y ∨ z ≥ s.n.z then .ok (-1) else s.dataIndex ⟨x, y, z⟩

/-- dynamic_spatial_hashed_voxel_grid.hpp:241-247 `SetCellFilledContents`. -/
def fillCells (s : Sizes K) (c : Chunk K T) (v : T) : Res (Chunk K T) := do
  let n ← s.totalCells
  if n < 0 then .throw .lengthError else pure { c with data := List.replicate n.toNat v, fill := .cellFilled }

/-- dynamic_spatial_hashed_voxel_grid.hpp:249-254 `SetChunkFilledContents`. -/
def fillChunk (c : Chunk K T) (v : T) : Chunk K T := { c with data := [v], fill := .chunkFilled }

/-- dynamic_spatial_hashed_voxel_grid.hpp:451-502 `GetLocationImmutable4d` / `GetLocationMutable4d` of a chunk: where the value is stored. -/
def chunkFind (A : Arith K) (s : Sizes K) (c : Chunk K T) (l : Vec K) : Res (Level × Nat) :=
  match c.fill with
  | .cellFilled => do
    let d ← chunkDataIndex A s c.region l
    if d ≥ 0 then do
      let i ← access c.data d
      pure (.cell, i)
    else .throw .runtimeError
  | .chunkFilled => do
    let i ← access c.data 0
    pure (.chunk, i)
  | .notFilled => .throw .runtimeError

/-- dynamic_spatial_hashed_voxel_grid.hpp:504-558 `SetCellLocation4d`: the chunk is expanded first (and stays expanded if the location is then rejected). -/
def chunkSetCell (A : Arith K) (s : Sizes K) (c : Chunk K T) (l : Vec K) (v : T) : Chunk K T × Res Level :=
  let exp : Res (Chunk K T) :=
    match c.fill with
    | .chunkFilled => do
      let i ← access c.data 0
      let v0 ← atRaw c.data i
      fillCells s c v0
    | _ => .ok c
  match exp with
  | .ok c' =>
    if c'.fill = .cellFilled then
      match chunkDataIndex A s c'.region l with
      | .ok d =>
        if d ≥ 0 then
          match access c'.data d with
          | .ok i => ({ c' with data := c'.data.set i v }, .ok .cell)
          | .throw e => (c', .throw e)
          | .ub => (c', .ub)
        else (c', .throw .runtimeError)
      | .throw e => (c', .throw e)
      | .ub => (c', .ub)
    else (c', .throw .runtimeError)
  | .throw e => (c, .throw e)
  | .ub => (c, .ub)

/-- dynamic_spatial_hashed_voxel_grid.hpp:560-584 `SetChunkValue`. -/
def chunkSetChunk (c : Chunk K T) (v : T) : Chunk K T × Res Level :=
  if c.fill ≠ .notFilled then (fillChunk c v, .ok .chunk) else (c, .throw .runtimeError)

/-- dynamic_spatial_hashed_voxel_grid.hpp:715-737 `GetContainingChunkRegion`. -/
def containing (A : Arith K) (s : Sizes K) (l : Vec K) : Res (Region K) :=
  if s.valid then .ok
    ⟨A.mul (A.ofInt (A.floor (A.div l.x s.sx))) s.sx, A.mul (A.ofInt (A.floor (A.div l.y s.sy))) s.sy,
     A.mul (A.ofInt (A.floor (A.div l.z s.sz))) s.sz⟩
  else .throw .runtimeError

/-- dynamic_spatial_hashed_voxel_grid.hpp:739-750 `AllocateChunkAt` with the chunk constructor 279-304. -/
def newChunk (s : Sizes K) (r : Region K) (lvl : Level) (v : T) : Res (Chunk K T) :=
  if s.valid then
    match lvl with
    | .cell => fillCells s ⟨r, [], .notFilled⟩ v
    | .chunk => .ok (fillChunk ⟨r, [], .notFilled⟩ v)
  else .throw .invalidArgument

/-- Map update. (dynamic_spatial_hashed_voxel_grid.hpp:739-750) -/
def putChunk (chunks : Region K → Option (Chunk K T)) (r : Region K) (c : Chunk K T) : Region K → Option (Chunk K T) :=
  fun r' => if r' = r then some c else chunks r'

/-- dynamic_spatial_hashed_voxel_grid.hpp:859-875 `GetLocationImmutable4d`: `none` is NOT_FOUND. -/
def dGet (A : Arith K) (g : DGrid K T) (l : Vec K) : Res (Option (Level × T)) := do
  let r ← containing A g.sizes (g.inv l)
  match g.chunks r with
  | none => .ok none
  | some c => do
    let (lvl, i) ← chunkFind A g.sizes c (g.inv l)
    let v ← atRaw c.data i
    pure (some (lvl, v))

/-- Status of `SetLocation4d`: `none` is MUTABLE_ACCESS_PROHIBITED. (dynamic_spatial_hashed_voxel_grid.hpp:88-89) -/
abbrev SetStatus := Option Level

/-- dynamic_spatial_hashed_voxel_grid.hpp:930-966 `SetLocation4d` up to a possible recursive call; `true` means: a chunk was allocated, call again. -/
def dSetOnce (A : Arith K) (hook : DHook H K) (hg : H × DGrid K T) (l : Vec K) (lvl : Level) (v : T) :
    (H × DGrid K T) × Res (Bool × SetStatus) :=
  let (h, g) := hg
  let gl := g.inv l
  let hb := hook.access h gl
  if hb.2 then
    match containing A g.sizes gl with
    | .ok r =>
      match g.chunks r with
      | some c =>
        let (c', res) := match lvl with
          | .cell => chunkSetCell A g.sizes c gl v
          | .chunk => chunkSetChunk c v
        let g' := { g with chunks := putChunk g.chunks r c' }
        match res with
        | .ok lv => ((hb.1, g'), .ok (false, some lv))
        | .throw e => ((hb.1, g'), .throw e)
        | .ub => ((hb.1, g'), .ub)
      | none =>
        match newChunk g.sizes r lvl g.default with
        | .ok c => ((hb.1, { g with chunks := putChunk g.chunks r c }), .ok (true, none))
        | .throw e => ((hb.1, g), .throw e)
        | .ub => ((hb.1, g), .ub)
    | .throw e => ((hb.1, g), .throw e)
    | .ub => ((hb.1, g), .ub)
  else ((hb.1, g), .ok (false, none))

/-- dynamic_spatial_hashed_voxel_grid.hpp:930-966, 983-1019 `SetLocation4d` (both overloads): the recursive call finds the chunk it has just allocated, so that it does not
recurse again (otherwise: unbounded recursion, `ub`). -/
def dSet (A : Arith K) (hook : DHook H K) (hg : H × DGrid K T) (l : Vec K) (lvl : Level) (v : T) :
    (H × DGrid K T) × Res SetStatus :=
  match dSetOnce A hook hg l lvl v with
  | (hg', .ok (false, st)) => (hg', .ok st)
  | (hg', .throw e) => (hg', .throw e)
  | (hg', .ub) => (hg', .ub)
  | (hg', .ok (true, _)) =>
    match dSetOnce A hook hg' l lvl v with
    | (hg'', .ok (false, st)) => (hg'', .ok st)
    | (hg'', .throw e) => (hg'', .throw e)
    | (hg'', .ub) => (hg'', .ub)
    | (hg'', .ok (true, _)) => (hg'', .ub)

/-- Result of a mutable query. (dynamic_spatial_hashed_voxel_grid.hpp:83-169) -/
inductive MutStatus where
  | notFound | prohibited | found (lvl : Level)
deriving DecidableEq

/-- dynamic_spatial_hashed_voxel_grid.hpp:890-912 `GetLocationMutable4d` followed by an assignment through the returned reference, if there is one. -/
def dWrite (A : Arith K) (hook : DHook H K) (hg : H × DGrid K T) (l : Vec K) (v : T) : (H × DGrid K T) × Res MutStatus :=
  let (h, g) := hg
  let gl := g.inv l
  match containing A g.sizes gl with
  | .ok r =>
    match g.chunks r with
    | some c =>
      let hb := hook.access h gl
      if hb.2 then
        match chunkFind A g.sizes c gl with
        | .ok (lvl, i) => ((hb.1, { g with chunks := putChunk g.chunks r { c with data := c.data.set i v } }), .ok (.found lvl))
        | .throw e => ((hb.1, g), .throw e)
        | .ub => ((hb.1, g), .ub)
      else ((hb.1, g), .ok .prohibited)
    | none => ((h, g), .ok .notFound)
  | .throw e => ((h, g), .throw e)
  | .ub => ((h, g), .ub)

/-- dynamic_spatial_hashed_voxel_grid.hpp:785-810: the constructor. -/
def newDGrid (inv : Vec K → Vec K) (s : Sizes K) (default : T) : Res (DGrid K T) :=
  if s.valid then .ok ⟨inv, default, s, fun _ => none⟩ else .throw .invalidArgument

end CRU.Voxel
