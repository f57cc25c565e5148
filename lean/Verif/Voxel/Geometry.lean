import Verif.Voxel.Props
import Mathlib.Data.Rat.Floor
import Mathlib.Algebra.Order.Floor.Ring
import Mathlib.Tactic.FieldSimp
import Mathlib.Tactic.NormNum
import Mathlib.Tactic.Positivity
/-
  C60: geometry of voxel grids, in exact arithmetic and in rounded arithmetic (standard model of floating-point arithmetic:
  every operation has a relative error of at most `u`; no overflow or underflow).
-/
namespace CRU.Voxel
set_option linter.unusedSectionVars false

variable {K : Type} [Field K] [LinearOrder K] [IsStrictOrderedRing K] [FloorRing K]

/-- Arithmetic of the field with every operation rounded by `fl`. -/
def roundedArith (fl : K → K) : Arith K where
  sub a b := fl (a - b)
  mul a b := fl (a * b)
  div a b := fl (a / b)
  add a b := fl (a + b)
  one := 1
  half := 1 / 2
  ofInt i := fl i
  floor := Int.floor
  ceil := Int.ceil
  pos a := decide (0 < a)

/-- Exact arithmetic. -/
def exactArith (K : Type) [Field K] [LinearOrder K] [IsStrictOrderedRing K] [FloorRing K] : Arith K := roundedArith id

/-- The location lies in the cell (half-open box). -/
def InCell (cx cy cz : K) (c : Cell) (l : Vec K) : Prop :=
  ((c.x : K) * cx ≤ l.x ∧ l.x < ((c.x : K) + 1) * cx) ∧ ((c.y : K) * cy ≤ l.y ∧ l.y < ((c.y : K) + 1) * cy) ∧
  ((c.z : K) * cz ≤ l.z ∧ l.z < ((c.z : K) + 1) * cz)

theorem floor_mul_inv {c x : K} (hc : 0 < c) (i : Int) : ⌊x * (1 / c)⌋ = i ↔ (i : K) * c ≤ x ∧ x < ((i : K) + 1) * c := by
  rw [Int.floor_eq_iff, mul_one_div, le_div_iff₀ hc, div_lt_iff₀ hc]

/-- C60: in exact arithmetic a location in the grid frame is mapped to the one cell that contains it (3d and 4d versions; the
4d version rejects vectors whose last component is not 1). -/
theorem C60_location_to_cell {cx cy cz : K} {n : Cell} {s : Sizes K}
    (hs : mkSizes (exactArith K) cx cy cz n = .ok s) (l : Vec K) {c : Cell} (hx : InI64 c.x) (hy : InI64 c.y) (hz : InI64 c.z) :
    (gridFrameIndex3 (exactArith K) s l = .ok c ↔ InCell cx cy cz c l) ∧
    (gridFrameIndex4 (exactArith K) s l = .ok c ↔ l.w = 1 ∧ InCell cx cy cz c l) ∧
    (l.w ≠ 1 → gridFrameIndex4 (exactArith K) s l = .throw .invalidArgument) := by
  obtain ⟨_, ⟨px, py, pz⟩, _, _, _, _, _, _, _, ix, iy, iz, _⟩ := mkSizes_ok hs
  have px' : 0 < cx := of_decide_eq_true px
  have py' : 0 < cy := of_decide_eq_true py
  have pz' : 0 < cz := of_decide_eq_true pz
  have h3 : gridFrameIndex3 (exactArith K) s l = .ok c ↔ InCell cx cy cz c l := by
    unfold gridFrameIndex3 InCell
    rw [ix, iy, iz]
    show (do
      let x ← chk64 ⌊l.x * (1 / cx)⌋
      let y ← chk64 ⌊l.y * (1 / cy)⌋
      let z ← chk64 ⌊l.z * (1 / cz)⌋
      pure (⟨x, y, z⟩ : Cell)) = Res.ok c ↔ _
    rw [← floor_mul_inv px', ← floor_mul_inv py', ← floor_mul_inv pz']
    constructor
    · intro h
      unfold chk64 at h
      split at h
      · rw [Res.ok_bind] at h
        split at h
        · rw [Res.ok_bind] at h
          split at h
          · cases h; exact ⟨rfl, rfl, rfl⟩
          · cases h
        · cases h
      · cases h
    · rintro ⟨ex, ey, ez⟩
      rw [ex, ey, ez, chk64_ok hx, Res.ok_bind, chk64_ok hy, Res.ok_bind, chk64_ok hz]
      rfl
  refine ⟨h3, ?_, ?_⟩
  · have h4 : gridFrameIndex4 (exactArith K) s l = if l.w = 1 then gridFrameIndex3 (exactArith K) s l else .throw .invalidArgument := rfl
    rw [h4]
    by_cases hw : l.w = 1
    · rw [if_pos hw, h3]; simp [hw]
    · rw [if_neg hw]
      constructor
      · intro hc; cases hc
      · rintro ⟨hc, _⟩; exact absurd hc hw
  · intro hw
    have h4 : gridFrameIndex4 (exactArith K) s l = if l.w = 1 then gridFrameIndex3 (exactArith K) s l else .throw .invalidArgument := rfl
    rw [h4, if_neg hw]

/-- Standard model of floating-point arithmetic. -/
def RelErr (fl : K → K) (u : K) : Prop := ∀ x, |fl x - x| ≤ u * |x|

theorem center_floor {fl : K → K} {u : K} (hu : 0 ≤ u) (hfl : RelErr fl u) {c : K} (hc : 0 < c) {i : Int}
    (hi : fl (i : K) = i) (hi2 : fl ((i : K) + 1 / 2) = (i : K) + 1 / 2)
    (hsmall : |(i : K) + 1 / 2| * ((1 + u) ^ 3 - 1) < 1 / 2) :
    ⌊fl (fl (c * fl (fl (i : K) + 1 / 2)) * fl (1 / c))⌋ = i := by
  rw [hi, hi2]
  generalize hr : (i : K) + 1 / 2 = r at *
  -- each rounded value is the exact one times 1 + d with |d| ≤ u
  have hd : ∀ x : K, ∃ d : K, |d| ≤ u ∧ fl x = x * (1 + d) := by
    intro x
    by_cases hx : x = 0
    · subst hx
      have := hfl 0
      simp at this
      exact ⟨0, by simpa using hu, by simp [this]⟩
    · refine ⟨(fl x - x) / x, ?_, by field_simp; ring⟩
      rw [abs_div, div_le_iff₀ (abs_pos.mpr hx)]
      exact hfl x
  obtain ⟨d1, h1, e1⟩ := hd (c * r)
  obtain ⟨d2, h2, e2⟩ := hd (1 / c)
  obtain ⟨d3, h3, e3⟩ := hd (fl (c * r) * fl (1 / c))
  have hval : fl (fl (c * r) * fl (1 / c)) = r * ((1 + d1) * (1 + d2) * (1 + d3)) := by
    rw [e3, e1, e2]
    field_simp
  rw [hval]
  have hb : |(1 + d1) * (1 + d2) * (1 + d3) - 1| ≤ (1 + u) ^ 3 - 1 := by
    have key : (1 + d1) * (1 + d2) * (1 + d3) - 1 = d1 + d2 + d3 + d1 * d2 + d1 * d3 + d2 * d3 + d1 * d2 * d3 := by ring
    have t : ∀ a b : K, |a| ≤ u → |b| ≤ u → |a * b| ≤ u * u := fun a b ha hb => by
      rw [abs_mul]; exact mul_le_mul ha hb (abs_nonneg _) hu
    have t3 : |d1 * d2 * d3| ≤ u * u * u := by
      rw [abs_mul]; exact mul_le_mul (t _ _ h1 h2) h3 (abs_nonneg _) (mul_nonneg hu hu)
    have t12 := t _ _ h1 h2
    have t13 := t _ _ h1 h3
    have t23 := t _ _ h2 h3
    rw [key]
    rw [abs_le] at h1 h2 h3 t12 t13 t23 t3 ⊢
    constructor <;> nlinarith
  have hdev : |r * ((1 + d1) * (1 + d2) * (1 + d3)) - r| < 1 / 2 := by
    have : r * ((1 + d1) * (1 + d2) * (1 + d3)) - r = r * ((1 + d1) * (1 + d2) * (1 + d3) - 1) := by ring
    rw [this, abs_mul]
    exact lt_of_le_of_lt (mul_le_mul_of_nonneg_left hb (abs_nonneg _)) hsmall
  rw [abs_lt] at hdev
  rw [Int.floor_eq_iff]
  constructor <;> linarith

/-- C60: the centre of a cell is mapped back to that cell, also in floating-point arithmetic, as long as the index is well
below `1/(6u)` (about 2^50 for doubles) and the index plus one half is representable. -/
theorem C60_center_round_trip {fl : K → K} {u : K} (hu : 0 ≤ u) (hfl : RelErr fl u) {cx cy cz : K} {n : Cell} {s : Sizes K}
    (hs : mkSizes (roundedArith fl) cx cy cz n = .ok s) {c : Cell} (hx : InI64 c.x) (hy : InI64 c.y) (hz : InI64 c.z)
    (hrep : ∀ i : Int, i = c.x ∨ i = c.y ∨ i = c.z → fl (i : K) = i ∧ fl ((i : K) + 1 / 2) = (i : K) + 1 / 2 ∧
      |(i : K) + 1 / 2| * ((1 + u) ^ 3 - 1) < 1 / 2) :
    gridFrameIndex4 (roundedArith fl) s (s.center (roundedArith fl) c) = .ok c ∧
    gridFrameIndex3 (roundedArith fl) s (s.center (roundedArith fl) c) = .ok c := by
  obtain ⟨_, ⟨px, py, pz⟩, _, _, _, _, c1, c2, c3, ix, iy, iz, _⟩ := mkSizes_ok hs
  have px' : 0 < cx := of_decide_eq_true px
  have py' : 0 < cy := of_decide_eq_true py
  have pz' : 0 < cz := of_decide_eq_true pz
  have h3 : gridFrameIndex3 (roundedArith fl) s (s.center (roundedArith fl) c) = .ok c := by
    unfold gridFrameIndex3 Sizes.center
    rw [ix, iy, iz, c1, c2, c3]
    show (do
      let x ← chk64 ⌊fl (fl (cx * fl (fl (c.x : K) + 1 / 2)) * fl (1 / cx))⌋
      let y ← chk64 ⌊fl (fl (cy * fl (fl (c.y : K) + 1 / 2)) * fl (1 / cy))⌋
      let z ← chk64 ⌊fl (fl (cz * fl (fl (c.z : K) + 1 / 2)) * fl (1 / cz))⌋
      pure (⟨x, y, z⟩ : Cell)) = Res.ok c
    obtain ⟨a1, a2, a3⟩ := hrep c.x (.inl rfl)
    obtain ⟨b1, b2, b3⟩ := hrep c.y (.inr (.inl rfl))
    obtain ⟨d1, d2, d3⟩ := hrep c.z (.inr (.inr rfl))
    rw [center_floor hu hfl px' a1 a2 a3, center_floor hu hfl py' b1 b2 b3, center_floor hu hfl pz' d1 d2 d3,
      chk64_ok hx, Res.ok_bind, chk64_ok hy, Res.ok_bind, chk64_ok hz]
    rfl
  refine ⟨?_, h3⟩
  have h4 : ∀ l : Vec K, gridFrameIndex4 (roundedArith fl) s l =
    if l.w = 1 then gridFrameIndex3 (roundedArith fl) s l else .throw .invalidArgument := fun l => rfl
  rw [h4, if_pos (show (s.center (roundedArith fl) c).w = 1 from rfl), h3]

theorem exact_center {cx cy cz : K} {n : Cell} {s : Sizes K} (hs : mkSizes (exactArith K) cx cy cz n = .ok s) {c : Cell}
    (hx : InI64 c.x) (hy : InI64 c.y) (hz : InI64 c.z) :
    gridFrameIndex4 (exactArith K) s (s.center (exactArith K) c) = .ok c :=
  (C60_center_round_trip (fl := id) (u := 0) le_rfl (fun x => by simp) hs hx hy hz
    (fun i _ => ⟨rfl, rfl, by norm_num⟩)).1

theorem initSizesD_ok {A : Arith K} {cx cy cz sx sy sz : K} {s : Sizes K} (h : mkSizesD A cx cy cz sx sy sz = .ok s) :
    (A.pos cx = true ∧ A.pos cy = true ∧ A.pos cz = true) ∧ (A.pos sx = true ∧ A.pos sy = true ∧ A.pos sz = true) ∧
    s.n = ⟨A.ceil (A.div sx cx), A.ceil (A.div sy cy), A.ceil (A.div sz cz)⟩ ∧
    s.sx = A.mul (A.ofInt s.n.x) cx ∧ s.sy = A.mul (A.ofInt s.n.y) cy ∧ s.sz = A.mul (A.ofInt s.n.z) cz ∧
    s.stride1 = s.n.y * s.n.z ∧ s.stride2 = s.n.z ∧ s.valid = true := by
  unfold mkSizesD initSizesD at h
  split at h
  · rename_i hc
    simp only [Bool.and_eq_true] at hc
    unfold chk64 at h
    split at h
    · rw [Res.ok_bind] at h
      split at h
      · rw [Res.ok_bind] at h
        split at h
        · rw [Res.ok_bind] at h
          split at h
          · cases h
            exact ⟨⟨hc.1.1.1.1.1, hc.1.1.1.1.2, hc.1.1.1.2⟩, ⟨hc.1.1.2, hc.1.2, hc.2⟩, rfl, rfl, rfl, rfl, rfl, rfl, rfl⟩
          · cases h
        · cases h
      · cases h
    · cases h
  · cases h

theorem ceil_cover {c x : K} (hc : 0 < c) (hx : 0 < x) :
    0 < ⌈x / c⌉ ∧ x ≤ (⌈x / c⌉ : K) * c ∧ ((⌈x / c⌉ : K) - 1) * c < x := by
  refine ⟨Int.ceil_pos.mpr (div_pos hx hc), ?_, ?_⟩
  · exact (div_le_iff₀ hc).mp (Int.le_ceil _)
  · have := Int.ceil_lt_add_one (x / c)
    rw [← lt_div_iff₀ hc]
    linarith

/-- C60: a grid made from physical sizes covers them, with less than one extra cell along each axis (exact arithmetic). -/
theorem C60_sizes_cover {cx cy cz sx sy sz : K} {s : Sizes K}
    (hs : mkSizesD (exactArith K) cx cy cz sx sy sz = .ok s) :
    (0 < s.n.x ∧ 0 < s.n.y ∧ 0 < s.n.z) ∧
    (s.sx = s.n.x * cx ∧ sx ≤ s.sx ∧ s.sx < sx + cx) ∧ (s.sy = s.n.y * cy ∧ sy ≤ s.sy ∧ s.sy < sy + cy) ∧
    (s.sz = s.n.z * cz ∧ sz ≤ s.sz ∧ s.sz < sz + cz) := by
  obtain ⟨⟨pcx, pcy, pcz⟩, ⟨psx, psy, psz⟩, hn, e1, e2, e3, _⟩ := initSizesD_ok hs
  obtain ⟨x0, x1, x2⟩ := ceil_cover (of_decide_eq_true pcx : 0 < cx) (of_decide_eq_true psx : 0 < sx)
  obtain ⟨y0, y1, y2⟩ := ceil_cover (of_decide_eq_true pcy : 0 < cy) (of_decide_eq_true psy : 0 < sy)
  obtain ⟨z0, z1, z2⟩ := ceil_cover (of_decide_eq_true pcz : 0 < cz) (of_decide_eq_true psz : 0 < sz)
  have f1 : s.sx = s.n.x * cx := e1
  have f2 : s.sy = s.n.y * cy := e2
  have f3 : s.sz = s.n.z * cz := e3
  have nx : s.n.x = ⌈sx / cx⌉ := congrArg Cell.x hn
  have ny : s.n.y = ⌈sy / cy⌉ := congrArg Cell.y hn
  have nz : s.n.z = ⌈sz / cz⌉ := congrArg Cell.z hn
  refine ⟨⟨nx ▸ x0, ny ▸ y0, nz ▸ z0⟩, ⟨f1, ?_, ?_⟩, ⟨f2, ?_, ?_⟩, f3, ?_, ?_⟩
  · rw [f1, nx]; exact x1
  · rw [f1, nx]; linarith
  · rw [f2, ny]; exact y1
  · rw [f2, ny]; linarith
  · rw [f3, nz]; exact z1
  · rw [f3, nz]; linarith

/-- voxel_grid.hpp:1238-1249 `GridIndexToLocation`: the centre of a cell, moved by the origin transform `T`. -/
def cellLocation (A : Arith K) (T : Vec K → Vec K) (g : Grid K V) (c : Cell) : Vec K := T (g.sizes.center A c)

/-- C60, locations in the world (exact arithmetic): if the inverse transform of the grid undoes its origin transform `T`, the location of a point `v`
of the grid frame is mapped to the one cell that contains `v` (all versions), and the location of a cell to that cell. -/
theorem C60_world_locations {cx cy cz : K} {n : Cell} {g : Grid K V} (hs : mkSizes (exactArith K) cx cy cz n = .ok g.sizes) (T : Vec K → Vec K)
    (hT : ∀ v : Vec K, v.w = 1 → (T v).w = 1 ∧ g.inv (T v) = v) {c : Cell} (hx : InI64 c.x) (hy : InI64 c.y) (hz : InI64 c.z) :
    (∀ v : Vec K, v.w = 1 → (locIndex3 (exactArith K) g (T v) = .ok c ↔ InCell cx cy cz c v) ∧
      (locIndex4 (exactArith K) g (T v) = .ok c ↔ InCell cx cy cz c v)) ∧
    locIndex3 (exactArith K) g (cellLocation (exactArith K) T g c) = .ok c ∧
    locIndex4 (exactArith K) g (cellLocation (exactArith K) T g c) = .ok c := by
  have key : ∀ v : Vec K, v.w = 1 → (locIndex3 (exactArith K) g (T v) = .ok c ↔ InCell cx cy cz c v) ∧
      (locIndex4 (exactArith K) g (T v) = .ok c ↔ InCell cx cy cz c v) := by
    intro v hv
    obtain ⟨h1, h2⟩ := hT v hv
    obtain ⟨h3, h4, -⟩ := C60_location_to_cell hs v hx hy hz
    have hw : ({ T v with w := (exactArith K).one } : Vec K) = T v := by
      have : (exactArith K).one = (T v).w := h1.symm
      rw [this]
    refine ⟨?_, ?_⟩
    · unfold locIndex3
      rw [hw, h2, h3]
    · unfold locIndex4
      rw [h2, h4]
      simp [hv]
  have hc := exact_center hs hx hy hz
  have hcw : (g.sizes.center (exactArith K) c).w = 1 := rfl
  have hin := ((C60_location_to_cell hs (g.sizes.center (exactArith K) c) hx hy hz).2.1.mp hc).2
  exact ⟨key, ((key _ hcw).1).mpr hin, ((key _ hcw).2).mpr hin⟩

/-! ## Concrete cases -/

/-- A 2 x 3 x 4 grid with cells of size 1/2. -/
private def sizes234 : Sizes ℚ where
  cx := 1/2
  cy := 1/2
  cz := 1/2
  icx := 1 / (1/2)
  icy := 1 / (1/2)
  icz := 1 / (1/2)
  n := ⟨2, 3, 4⟩
  sx := (2 : Int) * (1/2)
  sy := (3 : Int) * (1/2)
  sz := (4 : Int) * (1/2)
  stride1 := 12
  stride2 := 4
  valid := true

private theorem mk234 : mkSizes (exactArith ℚ) (1/2) (1/2) (1/2) ⟨2, 3, 4⟩ = .ok sizes234 := by
  unfold mkSizes initSizes
  rw [if_pos (by simp [exactArith, roundedArith])]
  rfl

example : sizes234.gridIndex 23 = .ok ⟨1, 2, 3⟩ := by rfl
example : sizes234.dataIndex ⟨1, 2, 3⟩ = .ok 23 := by rfl
example : ∃ d, sizes234.dataIndex ⟨1, 2, 3⟩ = .ok d ∧ sizes234.gridIndex d = .ok ⟨1, 2, 3⟩ := by
  obtain ⟨d, h1, _, _, h2, _⟩ := C26_data_index mk234 (c := ⟨1, 2, 3⟩) (by unfold InI64 volume; decide) (by decide)
  exact ⟨d, h1, h2⟩
example : ∃ g : Grid ℚ Bool, Rel g ⟨⟨2, 3, 4⟩, false, true, fun _ => false⟩ :=
  let ⟨g, _, h⟩ := C27_fresh mk234 (by unfold InI64 volume; decide) id false true
  ⟨g, h⟩
/-- A history that meets the hypotheses of `C27_history`, for the class `VoxelGrid`. -/
example (g : Grid ℚ Bool) : AllOk (exactArith ℚ) allowAll ((), g)
    [.setIndex .gridIndex ⟨1, 2, 3⟩ true, .setIndex .indices ⟨5, 0, 0⟩ true, .setDataIndex 3 true, .resetWithDefault] :=
  ⟨trivial, fun _ _ _ _ _ => rfl, trivial, trivial, trivial, trivial, trivial, trivial, trivial⟩
example : ∃ (hook : Hook Unit) (g : Grid ℚ Bool) (c : Cell), (hook.access () c).2 = false ∧
    (setIndex hook () .gridIndex g c true).2 = .ok .success := by
  obtain ⟨g, _, h⟩ := C27_fresh mk234 (by unfold InI64 volume; decide) id false true
  obtain ⟨hook, c, _, h1, h2, _⟩ := C28_false h (by decide) true
  exact ⟨hook, g, c, h1, h2⟩
example : gridFrameIndex4 (exactArith ℚ) sizes234 (sizes234.center (exactArith ℚ) ⟨1, 2, 3⟩) = .ok ⟨1, 2, 3⟩ :=
  exact_center mk234 (by decide) (by decide) (by decide)
example : ∃ s, mkSizesD (exactArith ℚ) (1/2) (1/2) (1/2) (9/10) 1 (11/10) = .ok s ∧ s.n = ⟨2, 2, 3⟩ := by
  have c1 : ⌈(9/10 : ℚ) / (1/2)⌉ = 2 := by rw [Int.ceil_eq_iff]; norm_num
  have c2 : ⌈(1 : ℚ) / (1/2)⌉ = 2 := by rw [Int.ceil_eq_iff]; norm_num
  have c3 : ⌈(11/10 : ℚ) / (1/2)⌉ = 3 := by rw [Int.ceil_eq_iff]; norm_num
  unfold mkSizesD initSizesD
  rw [if_pos (by simp [exactArith, roundedArith])]
  have e : ∀ a b : ℚ, (exactArith ℚ).ceil ((exactArith ℚ).div a b) = ⌈a / b⌉ := fun _ _ => rfl
  rw [e, e, e, c1, c2, c3]
  exact ⟨_, rfl, rfl⟩

/-- A grid whose origin is moved by one in x. -/
example : ∃ g : Grid ℚ Bool, locIndex3 (exactArith ℚ) g ⟨7/4, 5/4, 7/4, 1⟩ = .ok ⟨1, 2, 3⟩ := by
  let g : Grid ℚ Bool := ⟨fun v => { v with x := v.x - v.w }, false, true, [], sizes234, true⟩
  refine ⟨g, ?_⟩
  obtain ⟨-, h, -⟩ := C60_world_locations (g := g) mk234 (fun v => { v with x := v.x + v.w }) (fun v hv => ⟨hv, by simp [g]⟩)
    (c := ⟨1, 2, 3⟩) (by decide) (by decide) (by decide)
  convert h using 2
  unfold cellLocation Sizes.center exactArith roundedArith
  simp [g, sizes234]
  norm_num

end CRU.Voxel
