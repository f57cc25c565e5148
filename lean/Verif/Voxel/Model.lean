import Verif.Voxel.Spec
import Verif.Int64
/-
  Model of include/common_robotics_utilities/voxel_grid.hpp. Floating-point numbers are an abstract type `K` with the
  operations of `Arith` (exact or rounded, see Geometry.lean). Eigen isometries are arbitrary functions on 4-vectors.
  Copies are by value: passing a reference into the grid's own storage to a setter is not modelled.
-/
namespace CRU.Voxel

/-- The floating-point operations used. `floor`/`ceil` are exact (they are in IEEE arithmetic); the conversion to `int64_t`
is undefined if the value does not fit. -/
structure Arith (K : Type) where
  sub : K → K → K
  mul : K → K → K
  div : K → K → K
  add : K → K → K
  one : K
  half : K
  ofInt : Int → K
  floor : K → Int
  ceil : K → Int
  /-- voxel_grid.hpp:77-80 `CheckPositiveValid(double)` -/
  pos : K → Bool

/-- Eigen::Vector4d. -/
structure Vec (K : Type) where
  x : K
  y : K
  z : K
  w : K
deriving DecidableEq

variable {K T H : Type}

/-- voxel_grid.hpp:58-75 `GridSizes`. -/
structure Sizes (K : Type) where
  cx : K
  cy : K
  cz : K
  icx : K
  icy : K
  icz : K
  n : Cell
  sx : K
  sy : K
  sz : K
  stride1 : Int
  stride2 : Int
  valid : Bool

/-- voxel_grid.hpp:128-164 `Initialize` with numbers of cells: `none` is `return false`. -/
def initSizes (A : Arith K) (cx cy cz : K) (n : Cell) : Res (Option (Sizes K)) :=
  if A.pos cx && A.pos cy && A.pos cz && decide (0 < n.x) && decide (0 < n.y) && decide (0 < n.z) then do
    let stride1 ← chk64 (n.y * n.z)
    pure (some {
      cx := cx, cy := cy, cz := cz
      icx := A.div A.one cx, icy := A.div A.one cy, icz := A.div A.one cz
      n := n
      sx := A.mul (A.ofInt n.x) cx, sy := A.mul (A.ofInt n.y) cy, sz := A.mul (A.ofInt n.z) cz
      stride1 := stride1, stride2 := n.z, valid := true })
  else pure none

/-- voxel_grid.hpp:87-126 `Initialize` with sizes: the number of cells is rounded up. -/
def initSizesD (A : Arith K) (cx cy cz sx sy sz : K) : Res (Option (Sizes K)) :=
  if A.pos cx && A.pos cy && A.pos cz && A.pos sx && A.pos sy && A.pos sz then do
    let nx ← chk64 (A.ceil (A.div sx cx))
    let ny ← chk64 (A.ceil (A.div sy cy))
    let nz ← chk64 (A.ceil (A.div sz cz))
    let stride1 ← chk64 (ny * nz)
    pure (some {
      cx := cx, cy := cy, cz := cz
      icx := A.div A.one cx, icy := A.div A.one cy, icz := A.div A.one cz
      n := ⟨nx, ny, nz⟩
      sx := A.mul (A.ofInt nx) cx, sy := A.mul (A.ofInt ny) cy, sz := A.mul (A.ofInt nz) cz
      stride1 := stride1, stride2 := nz, valid := true })
  else pure none

/-- voxel_grid.hpp:166-183 `DefaultInitialize`. -/
def defaultSizes (A : Arith K) : Sizes K where
  cx := A.ofInt 0
  cy := A.ofInt 0
  cz := A.ofInt 0
  icx := A.ofInt 0
  icy := A.ofInt 0
  icz := A.ofInt 0
  n := ⟨0, 0, 0⟩
  sx := A.ofInt 0
  sy := A.ofInt 0
  sz := A.ofInt 0
  stride1 := 0
  stride2 := 0
  valid := false

/-- voxel_grid.hpp:201-247: the constructors throw if `Initialize` fails. -/
def orThrow : Res (Option (Sizes K)) → Res (Sizes K)
  | .ok (some s) => .ok s
  | .ok none => .throw .invalidArgument
  | .throw e => .throw e
  | .ub => .ub

/-- voxel_grid.hpp:231-247 -/
def mkSizes (A : Arith K) (cx cy cz : K) (n : Cell) : Res (Sizes K) := orThrow (initSizes A cx cy cz n)

/-- voxel_grid.hpp:214-229 -/
def mkSizesD (A : Arith K) (cx cy cz sx sy sz : K) : Res (Sizes K) := orThrow (initSizesD A cx cy cz sx sy sz)

/-- voxel_grid.hpp:353-356 `TotalCells`. -/
def Sizes.totalCells (s : Sizes K) : Res Int := do
  let a ← chk64 (s.n.x * s.n.y)
  chk64 (a * s.n.z)

/-- voxel_grid.hpp:373-401 `IndexInBounds` (both overloads). -/
def Sizes.inBounds (s : Sizes K) (c : Cell) : Bool :=
  decide (c.x ≥ 0) && decide (c.y ≥ 0) && decide (c.z ≥ 0) && decide (c.x < s.n.x) && decide (c.y < s.n.y)
    && decide (c.z < s.n.z)

/-- voxel_grid.hpp:403-413 `GetDataIndex` (both overloads). -/
def Sizes.dataIndex (s : Sizes K) (c : Cell) : Res Int := do
  let a ← chk64 (c.x * s.stride1)
  let b ← chk64 (c.y * s.stride2)
  let ab ← chk64 (a + b)
  chk64 (ab + c.z)

/-- voxel_grid.hpp:415-422 `GetGridIndexFromDataIndex`: C++ division truncates; division by zero is undefined. -/
def Sizes.gridIndex (s : Sizes K) (d : Int) : Res Cell :=
  if s.stride1 = 0 ∨ s.stride2 = 0 then .ub
  else
    let x := d.tdiv s.stride1
    let r := d.tmod s.stride1
    .ok ⟨x, r.tdiv s.stride2, r.tmod s.stride2⟩

/-- voxel_grid.hpp:424-438 `IndexToLocationInGridFrame`. -/
def Sizes.center (A : Arith K) (s : Sizes K) (c : Cell) : Vec K :=
  ⟨A.mul s.cx (A.add (A.ofInt c.x) A.half), A.mul s.cy (A.add (A.ofInt c.y) A.half),
   A.mul s.cz (A.add (A.ofInt c.z) A.half), A.one⟩

/-- voxel_grid.hpp:540-549 `VoxelGridBase`; `inv` applies `inverse_origin_transform_`. -/
structure Grid (K T : Type) where
  inv : Vec K → Vec K
  default : T
  oob : T
  data : List T
  sizes : Sizes K
  initialized : Bool

/-- voxel_grid.hpp:551-577 `AccessIndex`: checked position. -/
def access (data : List T) (d : Int) : Res Nat :=
  if d ≥ 0 ∧ d < data.length then .ok d.toNat else .throw .outOfRange

/-- voxel_grid.hpp:579-584 `SetContents`: fails with `length_error` only for a negative number of cells (cast to a huge unsigned), which
valid sizes exclude. -/
def setContents (g : Grid K T) (v : T) : Res (Grid K T) := do
  let n ← g.sizes.totalCells
  if n < 0 then .throw .lengthError else pure { g with data := List.replicate n.toNat v }

/-- voxel_grid.hpp:721-740 `Initialize`. -/
def initGrid (inv : Vec K → Vec K) (s : Sizes K) (default oob : T) : Res (Grid K T) :=
  if s.valid then do
    let g ← setContents ⟨inv, default, oob, [], s, false⟩ default
    pure { g with initialized := true }
  else .throw .invalidArgument

/-- voxel_grid.hpp:1186-1203 `LocationInGridFrameToGridIndex4d`. -/
def gridFrameIndex4 [DecidableEq K] (A : Arith K) (s : Sizes K) (l : Vec K) : Res Cell :=
  if l.w = A.one then do
    let x ← chk64 (A.floor (A.mul l.x s.icx))
    let y ← chk64 (A.floor (A.mul l.y s.icy))
    let z ← chk64 (A.floor (A.mul l.z s.icz))
    pure ⟨x, y, z⟩
  else .throw .invalidArgument

/-- voxel_grid.hpp:1174-1184 `LocationInGridFrameToGridIndex3d`. -/
def gridFrameIndex3 (A : Arith K) (s : Sizes K) (l : Vec K) : Res Cell := do
  let x ← chk64 (A.floor (A.mul l.x s.icx))
  let y ← chk64 (A.floor (A.mul l.y s.icy))
  let z ← chk64 (A.floor (A.mul l.z s.icz))
  pure ⟨x, y, z⟩

/-- voxel_grid.hpp:1219-1224 `LocationToGridIndex4d` (also 1205-1210 with `w = 1`). -/
def locIndex4 [DecidableEq K] (A : Arith K) (g : Grid K T) (l : Vec K) : Res Cell := gridFrameIndex4 A g.sizes (g.inv l)

/-- voxel_grid.hpp:1212-1217 `LocationToGridIndex3d` (an isometry applied to a 3-vector: `w` is 1). -/
def locIndex3 (A : Arith K) (g : Grid K T) (l : Vec K) : Res Cell := gridFrameIndex3 A g.sizes (g.inv { l with w := A.one })

/-- How a cell is given to an accessor. (voxel_grid.hpp:947-1114) -/
inductive Overload where
  | indices | gridIndex
deriving DecidableEq

/-- voxel_grid.hpp:662-665 and 688-690: the arguments with which the virtual hook is called; the `GridIndex` overload forwards
`index.X(), index.Y(), index.Y()`. -/
def hookArg : Overload → Cell → Cell
  | .indices, c => c
  | .gridIndex, c => ⟨c.x, c.y, c.y⟩

/-- voxel_grid.hpp:857-881 `GetIndexImmutable` (both overloads): `none` is OUT_OF_BOUNDS. -/
def getImmutable (g : Grid K T) (c : Cell) : Res (Option T) :=
  if g.sizes.inBounds c then do
    let d ← g.sizes.dataIndex c
    let i ← access g.data d
    let v ← atRaw g.data i
    pure (some v)
  else .ok none

/-- voxel_grid.hpp:905-943 `GetIndexMutable`: status and position of the cell in the storage. -/
def getMutable (hook : Hook H) (h : H) (o : Overload) (g : Grid K T) (c : Cell) : H × Res (Status × Option Nat) :=
  if g.sizes.inBounds c then
    let hb := hook.access h (hookArg o c)
    if hb.2 then (hb.1, do
      let d ← g.sizes.dataIndex c
      let i ← access g.data d
      pure (.success, some i))
    else (hb.1, .ok (.prohibited, none))
  else (h, .ok (.outOfBounds, none))

/-- voxel_grid.hpp:966-1006, 1029-1069 `SetIndex` (all four overloads), and assignment through the reference returned by `GetIndexMutable`: the cell
is assigned if access was granted. -/
def setIndex (hook : Hook H) (h : H) (o : Overload) (g : Grid K T) (c : Cell) (v : T) : (H × Grid K T) × Res Status :=
  match getMutable hook h o g c with
  | (h', .ok (st, some i)) => ((h', { g with data := g.data.set i v }), .ok st)
  | (h', .ok (st, none)) => ((h', g), .ok st)
  | (h', .throw e) => ((h', g), .throw e)
  | (h', .ub) => ((h', g), .ub)

/-- voxel_grid.hpp:1080-1114 `SetDataIndex` (and assignment through `GetDataIndexMutable`). -/
def setDataIndex (hook : Hook H) (h : H) (g : Grid K T) (d : Int) (v : T) : (H × Grid K T) × Res Status :=
  let hb := hook.raw h
  if hb.2 then
    match access g.data d with
    | .ok i => ((hb.1, { g with data := g.data.set i v }), .ok .success)
    | .throw e => ((hb.1, g), .throw e)
    | .ub => ((hb.1, g), .ub)
  else ((hb.1, g), .throw .runtimeError)

/-- voxel_grid.hpp:1075-1078 `GetDataIndexImmutable`. -/
def getDataIndex (g : Grid K T) (d : Int) : Res T := do
  let i ← access g.data d
  atRaw g.data i

/-- voxel_grid.hpp:1282-1301 `SetRawData`. -/
def setRaw (hook : Hook H) (h : H) (g : Grid K T) (vs : List T) : (H × Grid K T) × Res Status :=
  let hb := hook.raw h
  if hb.2 then
    match g.sizes.totalCells with
    | .ok n => if (vs.length : Int) = n then ((hb.1, { g with data := vs }), .ok .success) else ((hb.1, g), .throw .runtimeError)
    | .throw e => ((hb.1, g), .throw e)
    | .ub => ((hb.1, g), .ub)
  else ((hb.1, g), .throw .runtimeError)

/-- The mutating calls of a voxel grid. (voxel_grid.hpp:786-800, 947-1114, 1134-1165) -/
inductive Op (K T : Type) where
  | setIndex (o : Overload) (c : Cell) (v : T)
  | setLocation3 (l : Vec K) (v : T)
  | setLocation4 (l : Vec K) (v : T)
  | setDataIndex (d : Int) (v : T)
  | setRawData (vs : List T)
  | resetWithDefault
  | resetWithNewValue (v : T)
  | resetWithNewDefault (v : T)
  | setDefaultValue (v : T)
  | setOOBValue (v : T)
  | updateOrigin (inv : Vec K → Vec K)

/-- Reset calls, 786-800. (voxel_grid.hpp:786-800) -/
def resetTo (g : Grid K T) (v : T) : Grid K T × Res Status :=
  match setContents g v with
  | .ok g' => (g', .ok .success)
  | .throw e => (g, .throw e)
  | .ub => (g, .ub)

/-- One call (voxel_grid.hpp:786-800, 947-1114, 1134-1165). Location-based calls compute the index first (an exception there leaves the
grid unchanged) and use the `GridIndex` overload. -/
def Op.run [DecidableEq K] (A : Arith K) (hook : Hook H) (hg : H × Grid K T) : Op K T → (H × Grid K T) × Res Status
  | .setIndex o c v => Voxel.setIndex hook hg.1 o hg.2 c v
  | .setLocation3 l v =>
    match locIndex3 A hg.2 l with
    | .ok c => Voxel.setIndex hook hg.1 .gridIndex hg.2 c v
    | .throw e => (hg, .throw e)
    | .ub => (hg, .ub)
  | .setLocation4 l v =>
    match locIndex4 A hg.2 l with
    | .ok c => Voxel.setIndex hook hg.1 .gridIndex hg.2 c v
    | .throw e => (hg, .throw e)
    | .ub => (hg, .ub)
  | .setDataIndex d v => Voxel.setDataIndex hook hg.1 hg.2 d v
  | .setRawData vs => setRaw hook hg.1 hg.2 vs
  | .resetWithDefault => ((hg.1, (resetTo hg.2 hg.2.default).1), (resetTo hg.2 hg.2.default).2)
  | .resetWithNewValue v => ((hg.1, (resetTo hg.2 v).1), (resetTo hg.2 v).2)
  | .resetWithNewDefault v =>
    ((hg.1, (resetTo { hg.2 with default := v } v).1), (resetTo { hg.2 with default := v } v).2)
  | .setDefaultValue v => ((hg.1, { hg.2 with default := v }), .ok .success)
  | .setOOBValue v => ((hg.1, { hg.2 with oob := v }), .ok .success)
  | .updateOrigin inv => ((hg.1, { hg.2 with inv := inv }), .ok .success)

end CRU.Voxel
