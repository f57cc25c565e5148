import Verif.Base
/-
  What users expect of voxel grids: cells, finite maps of cells, maps of chunks.
-/
namespace CRU.Voxel

/-- A cell, by its three indices. -/
structure Cell where
  x : Int
  y : Int
  z : Int
deriving DecidableEq, Repr

/-- The cells of a grid with `n.x * n.y * n.z` cells. -/
def InGrid (n : Cell) (c : Cell) : Prop := (0 ≤ c.x ∧ c.x < n.x) ∧ (0 ≤ c.y ∧ c.y < n.y) ∧ (0 ≤ c.z ∧ c.z < n.z)

instance (n c : Cell) : Decidable (InGrid n c) := inferInstanceAs (Decidable (_ ∧ _))

/-- Number of cells. -/
def volume (n : Cell) : Int := n.x * n.y * n.z

/-- Row-major position of a cell: x slowest, z fastest. -/
def position (n c : Cell) : Int := (c.x * n.y + c.y) * n.z + c.z

/-- AccessStatus, voxel_grid.hpp:457-458. -/
inductive Status where
  | success | outOfBounds | prohibited
deriving DecidableEq, Repr

/-- The access hooks a derived grid class implements (possibly with internal state `H`). -/
structure Hook (H : Type) where
  access : H → Cell → H × Bool
  raw : H → H × Bool

/-- The hooks of the concrete class `VoxelGrid`, voxel_grid.hpp:1347-1357: everything is allowed. -/
def allowAll : Hook Unit := ⟨fun _ _ => ((), true), fun _ => ((), true)⟩

/-- A voxel grid as a user sees it: a total map of values, of which the cells of the grid count. -/
structure Map (T : Type) where
  n : Cell
  default : T
  oob : T
  at_ : Cell → T

/-- `f` changed at `c`. -/
def Map.put {T : Type} (m : Map T) (c : Cell) (v : T) : Map T := { m with at_ := fun d => if d = c then v else m.at_ d }

/-- Changes a user can ask for, with the cell already known. -/
inductive MapOp (T : Type) where
  /-- set one cell, through any overload -/
  | set (c : Cell) (v : T)
  /-- set a cell by its row-major position (throws instead of returning a status) -/
  | setPos (d : Int) (v : T)
  /-- replace all values -/
  | setAll (vs : List T)
  | resetDefault
  | resetValue (v : T)
  | resetNewDefault (v : T)
  | setDefault (v : T)
  | setOob (v : T)
  /-- a call that was rejected before it reached the grid, with exception `e` -/
  | rejected (e : Exc)

/-- What each change does. -/
def MapOp.run {T H : Type} (hook : Hook H) (hm : H × Map T) : MapOp T → (H × Map T) × Res Status
  | .set c v =>
    if InGrid hm.2.n c then
      if (hook.access hm.1 c).2 then (((hook.access hm.1 c).1, hm.2.put c v), .ok .success)
      else (((hook.access hm.1 c).1, hm.2), .ok .prohibited)
    else (hm, .ok .outOfBounds)
  | .setPos d v =>
    if (hook.raw hm.1).2 then
      if 0 ≤ d ∧ d < volume hm.2.n then
        (((hook.raw hm.1).1, { hm.2 with at_ := fun c => if position hm.2.n c = d then v else hm.2.at_ c }), .ok .success)
      else (((hook.raw hm.1).1, hm.2), .throw .outOfRange)
    else (((hook.raw hm.1).1, hm.2), .throw .runtimeError)
  | .setAll vs =>
    if (hook.raw hm.1).2 then
      if (vs.length : Int) = volume hm.2.n then
        (((hook.raw hm.1).1, { hm.2 with at_ := fun c => (vs[(position hm.2.n c).toNat]?).getD hm.2.default }), .ok .success)
      else (((hook.raw hm.1).1, hm.2), .throw .runtimeError)
    else (((hook.raw hm.1).1, hm.2), .throw .runtimeError)
  | .resetDefault => ((hm.1, { hm.2 with at_ := fun _ => hm.2.default }), .ok .success)
  | .resetValue v => ((hm.1, { hm.2 with at_ := fun _ => v }), .ok .success)
  | .resetNewDefault v => ((hm.1, { hm.2 with default := v, at_ := fun _ => v }), .ok .success)
  | .setDefault v => ((hm.1, { hm.2 with default := v }), .ok .success)
  | .setOob v => ((hm.1, { hm.2 with oob := v }), .ok .success)
  | .rejected e => (hm, .throw e)

/-- Two maps agree on the cells of the grid and on the special values. -/
def Map.Same {T : Type} (m m' : Map T) : Prop :=
  m.n = m'.n ∧ m.default = m'.default ∧ m.oob = m'.oob ∧ ∀ c, InGrid m.n c → m.at_ c = m'.at_ c

end CRU.Voxel
