import Verif.Voxel.Dynamic
/-
  C29: dynamic spatial hashed voxel grids.
-/
namespace CRU.Voxel
set_option linter.unusedSectionVars false

variable {K T H : Type} [Field K] [LinearOrder K] [IsStrictOrderedRing K] [FloorRing K]

/-- The chunk (of `n` cells of the given size) that contains a location. -/
def chunkOf (cx cy cz : K) (n : Cell) (l : Vec K) : Cell := ⟨⌊l.x / (n.x * cx)⌋, ⌊l.y / (n.y * cy)⌋, ⌊l.z / (n.z * cz)⌋⟩

/-- The cell (numbered globally) that contains a location. -/
def cellOf (cx cy cz : K) (l : Vec K) : Cell := ⟨⌊l.x / cx⌋, ⌊l.y / cy⌋, ⌊l.z / cz⌋⟩

/-- Global number of the local cell `c` of chunk `k`. -/
def globalCell (n k c : Cell) : Cell := ⟨k.x * n.x + c.x, k.y * n.y + c.y, k.z * n.z + c.z⟩

/-- One axis: the position within the chunk, and the local cell number. -/
theorem axis {c x : K} {n : Int} (hc : 0 < c) (hn : 0 < n) :
    (0 ≤ x - (⌊x / (n * c)⌋ : K) * (n * c) ∧ x - (⌊x / (n * c)⌋ : K) * (n * c) < n * c) ∧
    ⌊(x - (⌊x / (n * c)⌋ : K) * (n * c)) / c⌋ = ⌊x / c⌋ - ⌊x / (n * c)⌋ * n ∧
    0 ≤ ⌊x / c⌋ - ⌊x / (n * c)⌋ * n ∧ ⌊x / c⌋ - ⌊x / (n * c)⌋ * n < n := by
  have hn' : (0 : K) < n := by exact_mod_cast hn
  have hS : 0 < (n : K) * c := mul_pos hn' hc
  have h1 : (⌊x / (n * c)⌋ : K) * (n * c) ≤ x := (le_div_iff₀ hS).mp (Int.floor_le _)
  have h2 : x < ((⌊x / (n * c)⌋ : K) + 1) * (n * c) := (div_lt_iff₀ hS).mp (Int.lt_floor_add_one _)
  have h3 : ⌊(x - (⌊x / (n * c)⌋ : K) * (n * c)) / c⌋ = ⌊x / c⌋ - ⌊x / (n * c)⌋ * n := by
    have : (x - (⌊x / (n * c)⌋ : K) * (n * c)) / c = x / c - ((⌊x / (n * c)⌋ * n : Int) : K) := by
      push_cast
      field_simp
    rw [this, Int.floor_sub_intCast]
  refine ⟨⟨by linarith, by linarith⟩, h3, ?_, ?_⟩
  · rw [← h3]; exact Int.floor_nonneg.mpr (div_nonneg (by linarith) hc.le)
  · rw [← h3, Int.floor_lt, div_lt_iff₀ hc]; linarith

/-- Sizes made in exact arithmetic from positive cell sizes. -/
structure ExactSizes (s : Sizes K) (cx cy cz : K) (n : Cell) : Prop where
  good : GoodSizes s
  hn : s.n = n
  px : 0 < cx
  py : 0 < cy
  pz : 0 < cz
  ex : s.cx = cx
  ey : s.cy = cy
  ez : s.cz = cz
  sx : s.sx = n.x * cx
  sy : s.sy = n.y * cy
  sz : s.sz = n.z * cz

theorem exactSizes_of_mk {cx cy cz : K} {n : Cell} {s : Sizes K} (hs : mkSizes (exactArith K) cx cy cz n = .ok s)
    (hf : InI64 (volume n)) : ExactSizes s cx cy cz n := by
  obtain ⟨_, ⟨px, py, pz⟩, hn, _, _, _, c1, c2, c3, _, _, _, d1, d2, d3⟩ := mkSizes_ok hs
  exact ⟨good_of_mk hs hf, hn, of_decide_eq_true px, of_decide_eq_true py, of_decide_eq_true pz, c1, c2, c3, d1, d2, d3⟩

/-- Base point of a chunk. -/
def baseOf (cx cy cz : K) (n k : Cell) : Region K :=
  ⟨(k.x : K) * (n.x * cx), (k.y : K) * (n.y * cy), (k.z : K) * (n.z * cz)⟩

variable {s : Sizes K} {cx cy cz : K} {n : Cell}

theorem containing_exact (h : ExactSizes s cx cy cz n) (l : Vec K) :
    containing (exactArith K) s l = .ok (baseOf cx cy cz n (chunkOf cx cy cz n l)) := by
  unfold containing
  rw [if_pos h.good.valid, h.sx, h.sy, h.sz]
  rfl

/-- Local cell of a location in its chunk. -/
def localCell (cx cy cz : K) (n : Cell) (l : Vec K) : Cell :=
  ⟨⌊l.x / cx⌋ - ⌊l.x / (n.x * cx)⌋ * n.x, ⌊l.y / cy⌋ - ⌊l.y / (n.y * cy)⌋ * n.y, ⌊l.z / cz⌋ - ⌊l.z / (n.z * cz)⌋ * n.z⟩

theorem local_inGrid (h : ExactSizes s cx cy cz n) (l : Vec K) : InGrid n (localCell cx cy cz n l) := by
  have hn := h.hn ▸ h.good.nums
  obtain ⟨_, _, a0, a1⟩ := axis (x := l.x) h.px hn.x
  obtain ⟨_, _, b0, b1⟩ := axis (x := l.y) h.py hn.y
  obtain ⟨_, _, c0, c1⟩ := axis (x := l.z) h.pz hn.z
  exact ⟨⟨a0, a1⟩, ⟨b0, b1⟩, c0, c1⟩

theorem global_local (l : Vec K) : globalCell n (chunkOf cx cy cz n l) (localCell cx cy cz n l) = cellOf cx cy cz l := by
  unfold globalCell chunkOf localCell cellOf
  simp

theorem inI64_of_lt {n : Cell} (hn : GoodNums n) {a : Int} (h0 : 0 ≤ a) (h : a < n.x ∨ a < n.y ∨ a < n.z) : InI64 a := by
  have hf := hn.fits
  have hx := hn.x
  have hy := hn.y
  have hz := hn.z
  unfold volume at hf
  have hxy : n.x * n.y > 0 := Int.mul_pos hx hy
  have e1 : n.x * n.y * 1 ≤ n.x * n.y * n.z := Int.mul_le_mul_of_nonneg_left hz (by omega)
  have e2 : n.x * 1 ≤ n.x * n.y := Int.mul_le_mul_of_nonneg_left hy (by omega)
  have e3 : 1 * n.y ≤ n.x * n.y := Int.mul_le_mul_of_nonneg_right hx (by omega)
  have e4 : 1 * n.z ≤ n.x * n.y * n.z := Int.mul_le_mul_of_nonneg_right (by omega) (by omega)
  unfold InI64 at hf ⊢
  omega

theorem chunkDataIndex_exact (h : ExactSizes s cx cy cz n) (l : Vec K) :
    chunkDataIndex (exactArith K) s (baseOf cx cy cz n (chunkOf cx cy cz n l)) l =
      .ok (position n (localCell cx cy cz n l)) := by
  have hn := h.hn ▸ h.good.nums
  have hin := local_inGrid h l
  obtain ⟨⟨a0, a1⟩, ea, ga0, ga1⟩ := axis (x := l.x) h.px hn.x
  obtain ⟨⟨b0, b1⟩, eb, gb0, gb1⟩ := axis (x := l.y) h.py hn.y
  obtain ⟨⟨c0, c1⟩, ec, gc0, gc1⟩ := axis (x := l.z) h.pz hn.z
  unfold chunkDataIndex
  rw [h.sx, h.sy, h.sz, h.ex, h.ey, h.ez, h.hn]
  show (if l.x - (⌊l.x / (n.x * cx)⌋ : K) * (n.x * cx) < ((0 : Int) : K) ∨ l.y - (⌊l.y / (n.y * cy)⌋ : K) * (n.y * cy) < ((0 : Int) : K) ∨
      l.z - (⌊l.z / (n.z * cz)⌋ : K) * (n.z * cz) < ((0 : Int) : K) ∨
      (n.x : K) * cx ≤ l.x - (⌊l.x / (n.x * cx)⌋ : K) * (n.x * cx) ∨
      (n.y : K) * cy ≤ l.y - (⌊l.y / (n.y * cy)⌋ : K) * (n.y * cy) ∨
      (n.z : K) * cz ≤ l.z - (⌊l.z / (n.z * cz)⌋ : K) * (n.z * cz) then Res.ok (-1)
    else do
      let x ← chk64 ⌊(l.x - (⌊l.x / (n.x * cx)⌋ : K) * (n.x * cx)) / cx⌋
      let y ← chk64 ⌊(l.y - (⌊l.y / (n.y * cy)⌋ : K) * (n.y * cy)) / cy⌋
      let z ← chk64 ⌊(l.z - (⌊l.z / (n.z * cz)⌋ : K) * (n.z * cz)) / cz⌋
      if x < 0 ∨ y < 0 ∨ z < 0 ∨ x ≥ n.x ∨ y ≥ n.y ∨ z ≥ n.z then Res.ok (-1) else s.dataIndex ⟨x, y, z⟩) = _
  rw [if_neg (by
    push_cast
    simp only [not_or, not_lt, not_le]
    exact ⟨a0, b0, c0, a1, b1, c1⟩)]
  rw [ea, eb, ec, chk64_ok (inI64_of_lt hn ga0 (.inl ga1)), Res.ok_bind, chk64_ok (inI64_of_lt hn gb0 (.inr (.inl gb1))),
    Res.ok_bind, chk64_ok (inI64_of_lt hn gc0 (.inr (.inr gc1))), Res.ok_bind]
  rw [if_neg (by omega)]
  have := dataIndex_ok h.good (c := localCell cx cy cz n l) (h.hn ▸ hin)
  rw [h.hn] at this
  exact this

/-- A stored chunk represents the abstract one. -/
def ChunkRel (n k : Cell) (r : Region K) (c : Chunk K T) : Level × (Cell → T) → Prop
  | (.chunk, f) => c.region = r ∧ c.fill = .chunkFilled ∧ ∃ v, c.data = [v] ∧ ∀ d, InGrid n d → f (globalCell n k d) = v
  | (.cell, f) => c.region = r ∧ c.fill = .cellFilled ∧ (c.data.length : Int) = volume n ∧
      ∀ d, InGrid n d → c.data[(position n d).toNat]? = some (f (globalCell n k d))

/-- The grid represents the abstract map. -/
structure DRel (cx cy cz : K) (n : Cell) (g : DGrid K T) (m : DMap T) : Prop where
  sizes : ExactSizes g.sizes cx cy cz n
  default : g.default = m.default
  none_ : ∀ k, m.chunks k = none → g.chunks (baseOf cx cy cz n k) = none
  some_ : ∀ k x, m.chunks k = some x → ∃ c, g.chunks (baseOf cx cy cz n k) = some c ∧ ChunkRel n k (baseOf cx cy cz n k) c x

theorem baseOf_inj (h : ExactSizes s cx cy cz n) {k k' : Cell} (he : baseOf cx cy cz n k = baseOf cx cy cz n k') : k = k' := by
  have hn := h.hn ▸ h.good.nums
  have f : ∀ {c : K} {n : Int} {a b : Int}, 0 < c → 0 < n → (a : K) * (n * c) = (b : K) * (n * c) → a = b := by
    intro c n a b hc hn he
    have hn' : (0 : K) < n := by exact_mod_cast hn
    exact_mod_cast mul_right_cancel₀ (ne_of_gt (mul_pos hn' hc)) he
  have e1 := f h.px hn.x (congrArg Region.x he)
  have e2 := f h.py hn.y (congrArg Region.y he)
  have e3 := f h.pz hn.z (congrArg Region.z he)
  cases k; cases k'; simp_all

theorem access_zero (v : T) : access [v] 0 = .ok 0 := rfl

/-- Where the value of a location is stored. -/
theorem chunkFind_rel (h : ExactSizes s cx cy cz n) (l : Vec K) {c : Chunk K T} {x : Level × (Cell → T)}
    (hc : ChunkRel n (chunkOf cx cy cz n l) (baseOf cx cy cz n (chunkOf cx cy cz n l)) c x) :
    ∃ i, chunkFind (exactArith K) s c l = .ok (x.1, i) ∧ c.data[i]? = some (x.2 (cellOf cx cy cz l)) ∧
      (x.1 = .cell → i = (position n (localCell cx cy cz n l)).toNat) ∧ (x.1 = .chunk → i = 0) := by
  obtain ⟨lvl, f⟩ := x
  have hin := local_inGrid h l
  have hr := position_range hin
  cases lvl with
  | chunk =>
    obtain ⟨_, hf, v, hd, hv⟩ := hc
    refine ⟨0, ?_, ?_, (by intro hc; cases hc), fun _ => rfl⟩
    · unfold chunkFind; rw [hf, hd]; rfl
    · rw [hd, ← hv _ hin, global_local]; rfl
  | cell =>
    obtain ⟨hreg, hf, hlen, hv⟩ := hc
    refine ⟨(position n (localCell cx cy cz n l)).toNat, ?_, ?_, fun _ => rfl, by intro hc; cases hc⟩
    · unfold chunkFind
      rw [hf]
      dsimp only
      rw [hreg, chunkDataIndex_exact h, Res.ok_bind, if_pos hr.1]
      unfold access
      rw [if_pos ⟨hr.1, by rw [hlen]; exact hr.2⟩]
      rfl
    · rw [hv _ hin, global_local]

/-- C29: a query returns the current value of the cell that contains the location, and whether it is stored per cell or per
chunk; NOT_FOUND if nothing ever touched its chunk. It never throws. -/
theorem C29_get {g : DGrid K T} {m : DMap T} (h : DRel cx cy cz n g m) (l : Vec K) :
    dGet (exactArith K) g l = .ok ((m.chunks (chunkOf cx cy cz n (g.inv l))).map fun x => (x.1, x.2 (cellOf cx cy cz (g.inv l)))) := by
  unfold dGet
  rw [containing_exact h.sizes, Res.ok_bind]
  cases hm : m.chunks (chunkOf cx cy cz n (g.inv l)) with
  | none => rw [h.none_ _ hm]; rfl
  | some x =>
    obtain ⟨c, hc, hcr⟩ := h.some_ _ _ hm
    rw [hc]
    obtain ⟨i, h1, h2, _⟩ := chunkFind_rel h.sizes (g.inv l) hcr
    dsimp only
    rw [h1, Res.ok_bind]
    dsimp only
    unfold atRaw
    rw [h2]
    rfl

theorem drel_put {g : DGrid K T} {m : DMap T} (h : DRel cx cy cz n g m) (k : Cell) {c : Chunk K T} {x : Level × (Cell → T)}
    (hc : ChunkRel n k (baseOf cx cy cz n k) c x) (m' : DMap T) (hd : m'.default = m.default)
    (hk : m'.chunks = fun k' => if k' = k then some x else m.chunks k') :
    DRel cx cy cz n { g with chunks := putChunk g.chunks (baseOf cx cy cz n k) c } m' where
  sizes := h.sizes
  default := hd ▸ h.default
  none_ := by
    intro k' hn
    rw [hk] at hn
    by_cases he : k' = k
    · simp [he] at hn
    · simp only [if_neg he] at hn
      show putChunk _ _ _ _ = _
      unfold putChunk
      rw [if_neg (fun hb => he (baseOf_inj h.sizes hb))]
      exact h.none_ _ hn
  some_ := by
    intro k' x' hs
    rw [hk] at hs
    by_cases he : k' = k
    · subst he
      simp at hs
      subst hs
      exact ⟨c, by simp [putChunk], hc⟩
    · simp only [if_neg he] at hs
      obtain ⟨c', h1, h2⟩ := h.some_ _ _ hs
      refine ⟨c', ?_, h2⟩
      show putChunk _ _ _ _ = _
      unfold putChunk
      rw [if_neg (fun hb => he (baseOf_inj h.sizes hb))]
      exact h1

theorem totalCells_exact (h : ExactSizes s cx cy cz n) : s.totalCells = .ok (volume n) := by
  have := totalCells_ok h.good.nums
  rwa [h.hn] at this

theorem fillCells_exact (h : ExactSizes s cx cy cz n) (c : Chunk K T) (v : T) :
    fillCells s c v = .ok { c with data := List.replicate (volume n).toNat v, fill := .cellFilled } := by
  unfold fillCells
  rw [totalCells_exact h, Res.ok_bind, if_neg (by have := volume_pos (h.hn ▸ h.good.nums); omega)]
  rfl

theorem replicate_rel (h : ExactSizes s cx cy cz n) (k : Cell) (r : Region K) (v : T) :
    ChunkRel n k r ⟨r, List.replicate (volume n).toNat v, .cellFilled⟩ (.cell, fun _ => v) := by
  have hv := volume_pos (h.hn ▸ h.good.nums)
  refine ⟨rfl, rfl, by simp; omega, fun d hd => ?_⟩
  have hr := position_range hd
  dsimp only
  rw [List.getElem?_replicate, if_pos (by omega)]

theorem globalCell_inj {n k c d : Cell} (h : globalCell n k c = globalCell n k d) : c = d := by
  cases c; cases d
  simp [globalCell] at h
  obtain ⟨rfl, rfl, rfl⟩ := h
  rfl

/-- Setting one cell of a stored chunk. -/
theorem setCell_rel (h : ExactSizes s cx cy cz n) (l : Vec K) (v : T) {c : Chunk K T} {x : Level × (Cell → T)}
    (hc : ChunkRel n (chunkOf cx cy cz n l) (baseOf cx cy cz n (chunkOf cx cy cz n l)) c x) :
    ∃ c', chunkSetCell (exactArith K) s c l v = (c', .ok .cell) ∧
      ChunkRel n (chunkOf cx cy cz n l) (baseOf cx cy cz n (chunkOf cx cy cz n l)) c'
        (.cell, fun d => if d = cellOf cx cy cz l then v else x.2 d) := by
  have hin := local_inGrid h l
  have hr := position_range hin
  have key : ∀ (c : Chunk K T) (f : Cell → T),
      ChunkRel n (chunkOf cx cy cz n l) (baseOf cx cy cz n (chunkOf cx cy cz n l)) c (.cell, f) →
      ChunkRel n (chunkOf cx cy cz n l) (baseOf cx cy cz n (chunkOf cx cy cz n l))
        { c with data := c.data.set (position n (localCell cx cy cz n l)).toNat v }
        (.cell, fun d => if d = cellOf cx cy cz l then v else f d) := by
    rintro c f ⟨h1, h2, h3, h4⟩
    refine ⟨h1, h2, by simpa using h3, fun d hd => ?_⟩
    have hrd := position_range hd
    dsimp only
    by_cases he : d = localCell cx cy cz n l
    · subst he
      rw [List.getElem?_set_self (by omega), if_pos (global_local l)]
    · rw [List.getElem?_set_ne, h4 d hd, if_neg]
      · rw [← global_local l (n := n)]
        exact fun hb => he (globalCell_inj hb)
      · intro hb
        exact he (position_inj hd hin (by omega))
  have fin : ∀ (c : Chunk K T) (f : Cell → T),
      ChunkRel n (chunkOf cx cy cz n l) (baseOf cx cy cz n (chunkOf cx cy cz n l)) c (.cell, f) →
      (if c.fill = .cellFilled then
        match chunkDataIndex (exactArith K) s c.region l with
        | .ok d =>
          if d ≥ 0 then
            match access c.data d with
            | .ok i => (({ c with data := c.data.set i v } : Chunk K T), (Res.ok Level.cell : Res Level))
            | .throw e => (c, .throw e)
            | .ub => (c, .ub)
          else (c, .throw .runtimeError)
        | .throw e => (c, .throw e)
        | .ub => (c, .ub)
      else (c, .throw .runtimeError)) = ({ c with data := c.data.set (position n (localCell cx cy cz n l)).toNat v }, .ok .cell) := by
    rintro c f ⟨h1, h2, h3, h4⟩
    rw [if_pos h2, h1, chunkDataIndex_exact h]
    dsimp only
    rw [if_pos hr.1]
    unfold access
    rw [if_pos ⟨hr.1, by rw [h3]; exact hr.2⟩]
  obtain ⟨lvl, f⟩ := x
  cases lvl with
  | chunk =>
    obtain ⟨hreg, hf, v0, hd, hv⟩ := hc
    have hrel := replicate_rel h (chunkOf cx cy cz n l) (baseOf cx cy cz n (chunkOf cx cy cz n l)) v0
    refine ⟨(⟨baseOf cx cy cz n (chunkOf cx cy cz n l),
        (List.replicate (volume n).toNat v0).set (position n (localCell cx cy cz n l)).toNat v, .cellFilled⟩ : Chunk K T), ?_, ?_⟩
    · unfold chunkSetCell
      rw [hf, hd, access_zero]
      have hraw : atRaw [v0] 0 = .ok v0 := rfl
      simp only [Res.ok_bind, hraw, fillCells_exact h]
      have hfin := fin _ _ hrel
      rw [hreg]
      exact hfin
    · obtain ⟨t1, t2, t3, t4⟩ := key _ _ hrel
      exact ⟨t1, t2, t3, fun d hd' => by
        rw [t4 d hd']
        dsimp only
        split
        · rfl
        · rw [hv d hd']⟩
  | cell =>
    refine ⟨_, ?_, key c f hc⟩
    have hfin := fin c f hc
    unfold chunkSetCell
    have hcf := hc.2.1
    rw [hcf]
    dsimp only
    rw [hcf] at hfin
    rw [hcf]
    exact hfin

/-- A set on a grid whose chunk already exists. -/
theorem dSetOnce_existing {g : DGrid K T} {m : DMap T} (h : DRel cx cy cz n g m) (allow : Vec K → Bool) (l : Vec K)
    (lvl : Level) (v : T) (ha : allow (g.inv l) = true) {x : Level × (Cell → T)}
    (hx : m.chunks (chunkOf cx cy cz n (g.inv l)) = some x) :
    ∃ g', dSetOnce (exactArith K) (pureHook allow) ((), g) l lvl v = (((), g'), .ok (false, some lvl)) ∧
      g'.inv = g.inv ∧
      DRel cx cy cz n g' (m.set lvl (chunkOf cx cy cz n (g.inv l)) (cellOf cx cy cz (g.inv l)) v) := by
  obtain ⟨c, hc, hcr⟩ := h.some_ _ _ hx
  unfold dSetOnce
  dsimp only
  have hb : ((pureHook allow).access () (g.inv l)).2 = true := ha
  rw [if_pos hb, containing_exact h.sizes]
  dsimp only
  rw [hc]
  dsimp only
  cases lvl with
  | cell =>
    obtain ⟨c', h1, h2⟩ := setCell_rel h.sizes (g.inv l) v hcr
    rw [h1]
    refine ⟨_, rfl, rfl, drel_put h _ h2 _ rfl ?_⟩
    unfold DMap.set
    rw [hx]
  | chunk =>
    have hfill : c.fill ≠ .notFilled := by
      obtain ⟨lv, f⟩ := x
      cases lv with
      | chunk => rw [hcr.2.1]; simp
      | cell => rw [hcr.2.1]; simp
    have hreg : c.region = baseOf cx cy cz n (chunkOf cx cy cz n (g.inv l)) := by
      obtain ⟨lv, f⟩ := x
      cases lv with
      | chunk => exact hcr.1
      | cell => exact hcr.1
    unfold chunkSetChunk
    rw [if_pos hfill]
    refine ⟨_, rfl, rfl, drel_put h _ (c := fillChunk c v) (x := (.chunk, fun _ => v)) ⟨hreg, rfl, v, rfl, fun _ _ => rfl⟩
      (m.set .chunk (chunkOf cx cy cz n (g.inv l)) (cellOf cx cy cz (g.inv l)) v) rfl rfl⟩

/-- C29: a permitted set does exactly what the abstract map does, whatever the history, and reports the level it set. -/
theorem C29_set {g : DGrid K T} {m : DMap T} (h : DRel cx cy cz n g m) (allow : Vec K → Bool) (l : Vec K)
    (lvl : Level) (v : T) (ha : allow (g.inv l) = true) :
    ∃ g', dSet (exactArith K) (pureHook allow) ((), g) l lvl v = (((), g'), .ok (some lvl)) ∧ g'.inv = g.inv ∧
      DRel cx cy cz n g' (m.set lvl (chunkOf cx cy cz n (g.inv l)) (cellOf cx cy cz (g.inv l)) v) := by
  cases hx : m.chunks (chunkOf cx cy cz n (g.inv l)) with
  | some x =>
    obtain ⟨g', h1, h2, h3⟩ := dSetOnce_existing h allow l lvl v ha hx
    exact ⟨g', by unfold dSet; rw [h1], h2, h3⟩
  | none =>
    -- the first call allocates the chunk with the default value
    have halloc : ∃ (g1 : DGrid K T) (x1 : Level × (Cell → T)), dSetOnce (exactArith K) (pureHook allow) ((), g) l lvl v =
        (((), g1), .ok (true, none)) ∧ g1.inv = g.inv ∧ x1 = (lvl, fun _ => m.default) ∧
        DRel cx cy cz n g1 { m with chunks := fun k' => if k' = chunkOf cx cy cz n (g.inv l) then some x1 else m.chunks k' } := by
      unfold dSetOnce
      dsimp only
      have hb : ((pureHook allow).access () (g.inv l)).2 = true := ha
      rw [if_pos hb, containing_exact h.sizes]
      dsimp only
      rw [h.none_ _ hx]
      dsimp only
      unfold newChunk
      rw [if_pos h.sizes.good.valid]
      cases lvl with
      | cell =>
        dsimp only
        rw [fillCells_exact h.sizes]
        refine ⟨_, _, rfl, rfl, rfl, drel_put h _ ?_ _ rfl rfl⟩
        rw [h.default]
        exact replicate_rel h.sizes _ _ _
      | chunk =>
        refine ⟨_, _, rfl, rfl, rfl, drel_put h _ ?_ _ rfl rfl⟩
        exact ⟨rfl, rfl, m.default, by rw [← h.default]; rfl, fun _ _ => rfl⟩
    obtain ⟨g1, x1, h1, hinv, hx1, hrel1⟩ := halloc
    rw [← hinv] at ha
    obtain ⟨g', e1, e2, e3⟩ := dSetOnce_existing hrel1 allow l lvl v ha (x := x1) (by rw [hinv]; simp)
    refine ⟨g', ?_, by rw [e2, hinv], ?_⟩
    · unfold dSet; rw [h1]; dsimp only; rw [e1]
    · rw [hinv] at e3
      have heq : DMap.set { m with chunks := fun k' => if k' = chunkOf cx cy cz n (g.inv l) then some x1 else m.chunks k' }
          lvl (chunkOf cx cy cz n (g.inv l)) (cellOf cx cy cz (g.inv l)) v =
          m.set lvl (chunkOf cx cy cz n (g.inv l)) (cellOf cx cy cz (g.inv l)) v := by
        unfold DMap.set
        congr 1
        funext k'
        by_cases hk : k' = chunkOf cx cy cz n (g.inv l)
        · subst hk
          simp only [if_true]
          rw [hx, hx1]
        · simp only [if_neg hk]
      rw [heq] at e3
      exact e3

/-- C29: a prohibited set or write reports it and changes nothing. -/
theorem C29_prohibited (A : Arith K) (g : DGrid K T) (allow : Vec K → Bool) (l : Vec K) (lvl : Level) (v : T)
    (ha : allow (g.inv l) = false) :
    dSet A (pureHook allow) ((), g) l lvl v = (((), g), .ok none) ∧
    (dWrite A (pureHook allow) ((), g) l v).1 = ((), g) := by
  have hb : ((pureHook allow).access () (g.inv l)).2 = false := ha
  constructor
  · unfold dSet dSetOnce
    simp [hb]
  · unfold dWrite
    dsimp only
    cases containing A g.sizes (g.inv l) with
    | ok r =>
      dsimp only
      cases g.chunks r with
      | none => rfl
      | some c => simp [hb]
    | throw e => rfl
    | ub => rfl

/-- C29: a write through a mutable query changes the cell, or the whole chunk if it is stored as one value; NOT_FOUND exactly
if the chunk was never touched. -/
theorem C29_write {g : DGrid K T} {m : DMap T} (h : DRel cx cy cz n g m) (allow : Vec K → Bool) (l : Vec K) (v : T)
    (ha : allow (g.inv l) = true) :
    ∃ g', dWrite (exactArith K) (pureHook allow) ((), g) l v =
        (((), g'), .ok (match m.chunks (chunkOf cx cy cz n (g.inv l)) with | none => .notFound | some x => .found x.1)) ∧
      g'.inv = g.inv ∧ DRel cx cy cz n g' (m.write (chunkOf cx cy cz n (g.inv l)) (cellOf cx cy cz (g.inv l)) v) := by
  unfold dWrite
  dsimp only
  rw [containing_exact h.sizes]
  dsimp only
  cases hx : m.chunks (chunkOf cx cy cz n (g.inv l)) with
  | none =>
    rw [h.none_ _ hx]
    refine ⟨g, rfl, rfl, ⟨h.sizes, h.default, ?_, ?_⟩⟩
    · intro k hk
      unfold DMap.write at hk
      dsimp only at hk
      split at hk
      · subst_vars; exact h.none_ _ hx
      · exact h.none_ _ hk
    · intro k x hk
      unfold DMap.write at hk
      dsimp only at hk
      split at hk
      · rw [hx] at hk; cases hk
      · exact h.some_ _ _ hk
  | some x =>
    obtain ⟨c, hc, hcr⟩ := h.some_ _ _ hx
    rw [hc]
    dsimp only
    have hb : ((pureHook allow).access () (g.inv l)).2 = true := ha
    rw [if_pos hb]
    obtain ⟨i, h1, h2, h3, h4⟩ := chunkFind_rel h.sizes (g.inv l) hcr
    rw [h1]
    refine ⟨_, rfl, rfl, ?_⟩
    obtain ⟨lv, f⟩ := x
    have hin := local_inGrid h.sizes (g.inv l)
    cases lv with
    | chunk =>
      obtain ⟨t1, t2, v0, t3, t4⟩ := hcr
      refine drel_put h _ (c := { c with data := c.data.set i v }) (x := (.chunk, fun _ => v)) ⟨t1, t2, v, ?_, fun _ _ => rfl⟩
        (m.write (chunkOf cx cy cz n (g.inv l)) (cellOf cx cy cz (g.inv l)) v) rfl ?_
      · dsimp only; rw [h4 rfl, t3]; rfl
      · unfold DMap.write; rw [hx]
    | cell =>
      obtain ⟨t1, t2, t3, t4⟩ := hcr
      refine drel_put h _ (c := { c with data := c.data.set i v })
        (x := (.cell, fun d => if d = cellOf cx cy cz (g.inv l) then v else f d)) ⟨t1, t2, ?_, ?_⟩
        (m.write (chunkOf cx cy cz n (g.inv l)) (cellOf cx cy cz (g.inv l)) v) rfl ?_
      · simpa using t3
      · intro d hd
        have hrd := position_range hd
        have hr := position_range hin
        dsimp only
        rw [h3 rfl]
        by_cases he : d = localCell cx cy cz n (g.inv l)
        · subst he
          rw [List.getElem?_set_self (by omega), if_pos (global_local _)]
        · rw [List.getElem?_set_ne, t4 d hd, if_neg]
          · rw [← global_local (g.inv l) (n := n)]
            exact fun hb => he (globalCell_inj hb)
          · intro hb
            exact he (position_inj hd hin (by omega))
      · unfold DMap.write; rw [hx]

/-- C29: a fresh grid is the empty map. -/
theorem C29_fresh {s : Sizes K} (hs : mkSizes (exactArith K) cx cy cz n = .ok s) (hf : InI64 (volume n))
    (inv : Vec K → Vec K) (default : T) :
    ∃ g, newDGrid inv s default = .ok g ∧ g.inv = inv ∧ DRel cx cy cz n g ⟨default, fun _ => none⟩ := by
  have he := exactSizes_of_mk hs hf
  unfold newDGrid
  rw [if_pos he.good.valid]
  exact ⟨_, rfl, rfl, ⟨he, rfl, fun _ _ => rfl, by intro k x hx; cases hx⟩⟩

/-- Mutating calls. -/
inductive DOp (K T : Type) where
  | set (l : Vec K) (lvl : Level) (v : T)
  | write (l : Vec K) (v : T)
  | setDefault (v : T)
  | updateOrigin (inv : Vec K → Vec K)

/-- State after a call. -/
def DOp.run (allow : Vec K → Bool) (g : DGrid K T) : DOp K T → DGrid K T
  | .set l lvl v => (dSet (exactArith K) (pureHook allow) ((), g) l lvl v).1.2
  | .write l v => (dWrite (exactArith K) (pureHook allow) ((), g) l v).1.2
  | .setDefault v => { g with default := v }
  | .updateOrigin inv => { g with inv := inv }

/-- The same on the abstract map with the current transform. -/
def DOp.abs (cx cy cz : K) (n : Cell) (allow : Vec K → Bool) (im : (Vec K → Vec K) × DMap T) : DOp K T → (Vec K → Vec K) × DMap T
  | .set l lvl v =>
    (im.1, if allow (im.1 l) then im.2.set lvl (chunkOf cx cy cz n (im.1 l)) (cellOf cx cy cz (im.1 l)) v else im.2)
  | .write l v =>
    (im.1, if allow (im.1 l) then im.2.write (chunkOf cx cy cz n (im.1 l)) (cellOf cx cy cz (im.1 l)) v else im.2)
  | .setDefault v => (im.1, { im.2 with default := v })
  | .updateOrigin inv => (inv, im.2)

/-- C29, any history: after any sequence of calls on a fresh grid, every query returns what the abstract map says. -/
theorem C29_history (ops : List (DOp K T)) (allow : Vec K → Bool) : ∀ (g : DGrid K T) (m : DMap T), DRel cx cy cz n g m →
    ∀ l, dGet (exactArith K) (ops.foldl (DOp.run allow) g) l =
      .ok (((ops.foldl (DOp.abs cx cy cz n allow) (g.inv, m)).2.chunks
          (chunkOf cx cy cz n ((ops.foldl (DOp.abs cx cy cz n allow) (g.inv, m)).1 l))).map
        fun x => (x.1, x.2 (cellOf cx cy cz ((ops.foldl (DOp.abs cx cy cz n allow) (g.inv, m)).1 l)))) := by
  induction ops with
  | nil => exact fun g m h l => C29_get h l
  | cons op ops ih =>
    intro g m h l
    have step : DRel cx cy cz n (op.run allow g) (op.abs cx cy cz n allow (g.inv, m)).2 ∧
        (op.run allow g).inv = (op.abs cx cy cz n allow (g.inv, m)).1 := by
      cases op with
      | set l lvl v =>
        unfold DOp.run DOp.abs
        dsimp only
        cases ha : allow (g.inv l) with
        | true =>
          obtain ⟨g', h1, h2, h3⟩ := C29_set h allow l lvl v ha
          rw [h1]
          exact ⟨h3, h2⟩
        | false =>
          rw [(C29_prohibited _ g allow l lvl v ha).1]
          exact ⟨h, rfl⟩
      | write l v =>
        unfold DOp.run DOp.abs
        dsimp only
        cases ha : allow (g.inv l) with
        | true =>
          obtain ⟨g', h1, h2, h3⟩ := C29_write h allow l v ha
          rw [h1]
          exact ⟨h3, h2⟩
        | false =>
          rw [(C29_prohibited (exactArith K) g allow l .cell v ha).2]
          exact ⟨h, rfl⟩
      | setDefault v => exact ⟨⟨h.sizes, rfl, h.none_, h.some_⟩, rfl⟩
      | updateOrigin inv => exact ⟨⟨h.sizes, h.default, h.none_, h.some_⟩, rfl⟩
    have := ih (op.run allow g) _ step.1 l
    rw [step.2] at this
    exact this

/-- C29 fails in floating-point arithmetic: a location just below a chunk boundary (here -2^-60 with chunks of size 1) is
assigned to the chunk below, but its distance from the base of that chunk rounds to the chunk size, so that every cell query
there throws although the chunk exists. The hypotheses on `fl` hold for IEEE double rounding to nearest. -/
theorem C29_rounding_false (fl : K → K) (f0 : fl 0 = 0) (f1 : fl 1 = 1) (fm1 : fl (-1) = -1)
    (fx : fl (-(1 / 1152921504606846976)) = -(1 / 1152921504606846976)) (fr : fl (1 - 1 / 1152921504606846976) = 1)
    (s : Sizes K) (hv : s.valid = true) (hx : s.sx = 1) (hy : s.sy = 1) (hz : s.sz = 1) (data : List T) (v : T)
    (chunks : Region K → Option (Chunk K T)) (hc : chunks ⟨-1, 0, 0⟩ = some ⟨⟨-1, 0, 0⟩, data, .cellFilled⟩) :
    dGet (roundedArith fl) ⟨id, v, s, chunks⟩ ⟨-(1 / 1152921504606846976), 0, 0, 1⟩ = .throw .runtimeError := by
  have hfl : ⌊(-(1 / 1152921504606846976) : K)⌋ = -1 := by
    rw [Int.floor_eq_iff]; constructor <;> norm_num
  have hcont : containing (roundedArith fl) s (⟨-(1 / 1152921504606846976), 0, 0, 1⟩ : Vec K) = .ok ⟨-1, 0, 0⟩ := by
    unfold containing
    rw [if_pos hv, hx, hy, hz]
    simp only [roundedArith, div_one, fx, hfl, f0, Int.floor_zero, mul_one, Int.cast_neg, Int.cast_one, Int.cast_zero, fm1]
  have hdi : chunkDataIndex (roundedArith fl) s (⟨-1, 0, 0⟩ : Region K) ⟨-(1 / 1152921504606846976), 0, 0, 1⟩ = .ok (-1) := by
    unfold chunkDataIndex
    have e : (-(1 / 1152921504606846976) - -1 : K) = 1 - 1 / 1152921504606846976 := by ring
    have e2 : (roundedArith fl).sub (-(1 / 1152921504606846976)) (-1) = 1 := by
      show fl _ = _
      rw [e, fr]
    dsimp only
    rw [if_pos]
    right; right; right; left
    rw [hx, e2]
  unfold dGet
  dsimp only [id]
  rw [hcont, Res.ok_bind, hc]
  dsimp only
  unfold chunkFind
  dsimp only
  rw [hdi]
  rfl

/-! ## Concrete cases -/

private theorem fresh : ∃ (g : DGrid ℚ Nat), DRel (1/2) (1/2) (1/2) ⟨2, 3, 4⟩ g ⟨7, fun _ => none⟩ := by
  have hmk : ∃ s, mkSizes (exactArith ℚ) (1/2) (1/2) (1/2) ⟨2, 3, 4⟩ = .ok s := by
    unfold mkSizes initSizes
    rw [if_pos (by simp [exactArith, roundedArith])]
    exact ⟨_, rfl⟩
  obtain ⟨s, hs⟩ := hmk
  obtain ⟨g, _, _, h⟩ := C29_fresh hs (by unfold InI64 volume; decide) id 7
  exact ⟨g, h⟩

example : ∃ (g : DGrid ℚ Nat) (m : DMap Nat), DRel (1/2) (1/2) (1/2) ⟨2, 3, 4⟩ g m ∧ ∃ k, (m.chunks k).isSome = true := by
  obtain ⟨g, h⟩ := fresh
  obtain ⟨g', _, _, h'⟩ := C29_set h (fun _ => true) ⟨0, 0, 0, 1⟩ .cell 5 rfl
  exact ⟨g', _, h', chunkOf (1/2) (1/2) (1/2) ⟨2, 3, 4⟩ (g.inv ⟨0, 0, 0, 1⟩), by simp [DMap.set]⟩

/-- A rounding function with the required values. -/
example : ∃ fl : ℚ → ℚ, fl 0 = 0 ∧ fl 1 = 1 ∧ fl (-1) = -1 ∧ fl (-(1 / 1152921504606846976)) = -(1 / 1152921504606846976) ∧
    fl (1 - 1 / 1152921504606846976) = 1 :=
  ⟨fun x => if x = 1 - 1 / 1152921504606846976 then 1 else x, by norm_num, by norm_num, by norm_num, by norm_num, by norm_num⟩

end CRU.Voxel
