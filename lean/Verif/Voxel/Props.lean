import Verif.Voxel.Lemmas
/-
  C26-C28: voxel grids.
-/
namespace CRU.Voxel
set_option linter.unusedSectionVars false

variable {K T H : Type}

/-! ## C26: index mapping -/

/-- C26: the bounds check accepts exactly the cells of the grid. -/
theorem C26_in_bounds {A : Arith K} {cx cy cz : K} {n : Cell} {s : Sizes K} (hs : mkSizes A cx cy cz n = .ok s) (c : Cell) :
    s.inBounds c = true ↔ InGrid n c := by
  rw [inBounds_iff, (mkSizes_ok hs).2.2.1]

/-- C26: cell index to data index and back: no overflow, in range, and the inverse gives back the cell. -/
theorem C26_data_index {A : Arith K} {cx cy cz : K} {n : Cell} {s : Sizes K} (hs : mkSizes A cx cy cz n = .ok s)
    (hf : InI64 (volume n)) {c : Cell} (hc : InGrid n c) :
    ∃ d, s.dataIndex c = .ok d ∧ 0 ≤ d ∧ d < volume n ∧ s.gridIndex d = .ok c ∧ s.totalCells = .ok (volume n) := by
  have hg := good_of_mk hs hf
  obtain ⟨_, _, rfl, _⟩ := mkSizes_ok hs
  obtain ⟨h0, h1⟩ := position_range hc
  obtain ⟨hin, hpos⟩ := position_surj hg.nums h0 h1
  refine ⟨position s.n c, dataIndex_ok hg hc, h0, h1, ?_, totalCells_ok hg.nums⟩
  unfold Sizes.gridIndex
  have : 0 < s.n.y * s.n.z := Int.mul_pos hg.nums.y hg.nums.z
  have hz := hg.nums.z
  rw [hg.s1, hg.s2, if_neg (by omega)]
  exact congrArg Res.ok (position_inj hin hc hpos)

/-- C26: every data index in range belongs to exactly one cell, which `DataIndexToGridIndex` returns. -/
theorem C26_grid_index {A : Arith K} {cx cy cz : K} {n : Cell} {s : Sizes K} (hs : mkSizes A cx cy cz n = .ok s)
    (hf : InI64 (volume n)) {d : Int} (h0 : 0 ≤ d) (h1 : d < volume n) :
    ∃ c, s.gridIndex d = .ok c ∧ InGrid n c ∧ s.dataIndex c = .ok d ∧
      ∀ c', InGrid n c' → s.dataIndex c' = .ok d → c' = c := by
  have hg := good_of_mk hs hf
  obtain ⟨_, _, rfl, _⟩ := mkSizes_ok hs
  obtain ⟨hin, hpos⟩ := position_surj hg.nums h0 h1
  have : 0 < s.n.y * s.n.z := Int.mul_pos hg.nums.y hg.nums.z
  have hz := hg.nums.z
  refine ⟨_, ?_, hin, ?_, ?_⟩
  · unfold Sizes.gridIndex
    rw [hg.s1, hg.s2, if_neg (by omega)]
  · rw [dataIndex_ok hg hin, hpos]
  · intro c' hc' he
    rw [dataIndex_ok hg hc'] at he
    exact position_inj hc' hin (by rw [hpos]; exact Res.ok.inj he)

/-- C26: the constructor rejects exactly the sizes that are not positive (and finite). -/
theorem C26_rejects (A : Arith K) (cx cy cz : K) (n : Cell) :
    mkSizes A cx cy cz n = .throw .invalidArgument ↔
      ¬ (A.pos cx = true ∧ A.pos cy = true ∧ A.pos cz = true ∧ 0 < n.x ∧ 0 < n.y ∧ 0 < n.z) := by
  unfold mkSizes initSizes
  constructor
  · intro h hc
    rw [if_pos (by simp [hc.1, hc.2.1, hc.2.2.1, hc.2.2.2.1, hc.2.2.2.2.1, hc.2.2.2.2.2])] at h
    unfold chk64 at h
    split at h <;> cases h
  · intro h
    rw [if_neg]
    · rfl
    · intro hc
      simp only [Bool.and_eq_true, decide_eq_true_eq] at hc
      exact h ⟨hc.1.1.1.1.1, hc.1.1.1.1.2, hc.1.1.1.2, hc.1.1.2, hc.1.2, hc.2⟩

/-! ## C27: finite map -/

/-- The grid stores the map. -/
structure Rel (g : Grid K T) (m : Map T) : Prop where
  good : GoodSizes g.sizes
  n : g.sizes.n = m.n
  default : g.default = m.default
  oob : g.oob = m.oob
  len : (g.data.length : Int) = volume m.n
  at_ : ∀ c, InGrid m.n c → g.data[(position m.n c).toNat]? = some (m.at_ c)

theorem volume_pos {n : Cell} (h : GoodNums n) : 0 < volume n := Int.mul_pos (Int.mul_pos h.x h.y) h.z

theorem setContents_ok {g : Grid K T} (hg : GoodSizes g.sizes) (v : T) :
    setContents g v = .ok { g with data := List.replicate (volume g.sizes.n).toNat v } := by
  unfold setContents
  rw [totalCells_ok hg.nums, Res.ok_bind, if_neg (by have := volume_pos hg.nums; omega)]
  rfl

theorem rel_replicate {g : Grid K T} {m : Map T} (h : Rel g m) (v : T) :
    Rel { g with data := List.replicate (volume g.sizes.n).toNat v } { m with at_ := fun _ => v } where
  good := h.good
  n := h.n
  default := h.default
  oob := h.oob
  len := by
    have := volume_pos h.good.nums
    rw [← h.n]
    simp
    omega
  at_ := by
    intro c hc
    have hr := position_range hc
    dsimp only at hr ⊢
    rw [List.getElem?_replicate, if_pos]
    rw [h.n]
    omega

/-- C27: a fresh grid has the default value everywhere. -/
theorem C27_fresh {A : Arith K} {cx cy cz : K} {n : Cell} {s : Sizes K} (hs : mkSizes A cx cy cz n = .ok s)
    (hf : InI64 (volume n)) (inv : Vec K → Vec K) (default oob : T) :
    ∃ g, initGrid inv s default oob = .ok g ∧ Rel g ⟨n, default, oob, fun _ => default⟩ := by
  have hg := good_of_mk hs hf
  obtain ⟨_, _, rfl, _⟩ := mkSizes_ok hs
  unfold initGrid
  rw [if_pos hg.valid, setContents_ok (by exact hg), Res.ok_bind]
  refine ⟨_, rfl, ?_⟩
  have hv := volume_pos hg.nums
  exact {
    good := hg, n := rfl, default := rfl, oob := rfl
    len := by simp; omega
    at_ := fun c hc => by
      have hr := position_range hc
      dsimp only at hr ⊢
      rw [List.getElem?_replicate, if_pos (by omega)] }

theorem access_ok {g : Grid K T} {m : Map T} (h : Rel g m) {c : Cell} (hc : InGrid m.n c) :
    (do let d ← g.sizes.dataIndex c; access g.data d) = .ok (position m.n c).toNat := by
  have hr := position_range hc
  rw [dataIndex_ok h.good (h.n ▸ hc), h.n, Res.ok_bind]
  unfold access
  rw [if_pos ⟨hr.1, by rw [h.len]; exact hr.2⟩]

/-- C27: reading a cell of the grid returns its value; reading outside reports OUT_OF_BOUNDS. Never an exception. -/
theorem C27_read {g : Grid K T} {m : Map T} (h : Rel g m) (c : Cell) :
    getImmutable g c = .ok (if InGrid m.n c then some (m.at_ c) else none) := by
  unfold getImmutable
  by_cases hc : InGrid m.n c
  · rw [if_pos ((inBounds_iff _ _).mpr (h.n ▸ hc)), if_pos hc]
    have ha := access_ok h hc
    rw [dataIndex_ok h.good (h.n ▸ hc), Res.ok_bind] at ha
    rw [dataIndex_ok h.good (h.n ▸ hc), Res.ok_bind, ha, Res.ok_bind]
    unfold atRaw
    rw [h.at_ c hc]
    rfl
  · rw [if_neg (fun hb => hc (h.n ▸ (inBounds_iff _ _).mp hb)), if_neg hc]

/-- C27: reading by data index returns the value of the cell at that position; out of range throws. -/
theorem C27_read_data_index {g : Grid K T} {m : Map T} (h : Rel g m) (d : Int) :
    (∀ c, InGrid m.n c → position m.n c = d → getDataIndex g d = .ok (m.at_ c)) ∧
    (¬ (0 ≤ d ∧ d < volume m.n) → getDataIndex g d = .throw .outOfRange) := by
  unfold getDataIndex access
  constructor
  · rintro c hc rfl
    have hr := position_range hc
    rw [if_pos ⟨hr.1, by rw [h.len]; exact hr.2⟩, Res.ok_bind]
    unfold atRaw
    rw [h.at_ c hc]
  · intro hn
    rw [if_neg (by rw [h.len]; exact hn)]
    rfl

theorem rel_set {g : Grid K T} {m : Map T} (h : Rel g m) {d : Int} (h0 : 0 ≤ d) (v : T) :
    Rel { g with data := g.data.set d.toNat v }
      { m with at_ := fun c => if position m.n c = d then v else m.at_ c } where
  good := h.good
  n := h.n
  default := h.default
  oob := h.oob
  len := by simpa using h.len
  at_ := by
    intro c hc
    have hr := position_range hc
    dsimp only at hr hc ⊢
    have hlen := h.len
    by_cases he : position m.n c = d
    · subst he
      rw [if_pos rfl, List.getElem?_set_self (by omega)]
    · rw [if_neg he, List.getElem?_set_ne (by omega)]
      exact h.at_ c hc

theorem rel_same {g : Grid K T} {m m' : Map T} (h : Rel g m) (hs : m.Same m') : Rel g m' where
  good := h.good
  n := hs.1 ▸ h.n
  default := hs.2.1 ▸ h.default
  oob := hs.2.2.1 ▸ h.oob
  len := hs.1 ▸ h.len
  at_ := fun c hc => by rw [← hs.1] at hc ⊢; rw [← hs.2.2.2 c hc]; exact h.at_ c hc

/-- The abstract change made by a call: overloads do not matter, locations are replaced by the cell that
`LocationToGridIndex` (part of the API) computes for them. -/
def Op.abs [DecidableEq K] (A : Arith K) (g : Grid K T) : Op K T → MapOp T
  | .setIndex _ c v => .set c v
  | .setLocation3 l v => match locIndex3 A g l with
    | .ok c => .set c v
    | .throw e => .rejected e
    | .ub => .rejected .invalidArgument
  | .setLocation4 l v => match locIndex4 A g l with
    | .ok c => .set c v
    | .throw e => .rejected e
    | .ub => .rejected .invalidArgument
  | .setDataIndex d v => .setPos d v
  | .setRawData vs => .setAll vs
  | .resetWithDefault => .resetDefault
  | .resetWithNewValue v => .resetValue v
  | .resetWithNewDefault v => .resetNewDefault v
  | .setDefaultValue v => .setDefault v
  | .setOOBValue v => .setOob v
  | .updateOrigin _ => .setOob g.oob

/-- The location of a location-based call can be converted to an index (the coordinate of the cell fits in `int64_t`). -/
def Op.Fits [DecidableEq K] (A : Arith K) (g : Grid K T) : Op K T → Prop
  | .setLocation3 l _ => locIndex3 A g l ≠ .ub
  | .setLocation4 l _ => locIndex4 A g l ≠ .ub
  | _ => True

/-- The hook is asked about the right cell by this call: not a `GridIndex` (or location) overload, or the hook does not look
at the z index. (See C28 for what happens otherwise.) -/
def Op.HookOk (hook : Hook H) : Op K T → Prop
  | .setIndex .indices _ _ => True
  | .setIndex .gridIndex _ _ | .setLocation3 _ _ | .setLocation4 _ _ =>
    ∀ h (x y z z' : Int), hook.access h ⟨x, y, z⟩ = hook.access h ⟨x, y, z'⟩
  | _ => True

theorem setIndex_refines {g : Grid K T} {m : Map T} (h : Rel g m) (hook : Hook H) (hh : H) (o : Overload) (c : Cell) (v : T)
    (ho : hook.access hh (hookArg o c) = hook.access hh c) :
    (setIndex hook hh o g c v).2 = ((MapOp.set c v).run hook (hh, m)).2 ∧
    (setIndex hook hh o g c v).1.1 = ((MapOp.set c v).run hook (hh, m)).1.1 ∧
    Rel (setIndex hook hh o g c v).1.2 ((MapOp.set c v).run hook (hh, m)).1.2 := by
  unfold setIndex getMutable MapOp.run
  dsimp only
  by_cases hc : InGrid m.n c
  · rw [if_pos ((inBounds_iff _ _).mpr (h.n ▸ hc)), if_pos hc, ho]
    by_cases hb : (hook.access hh c).2 = true
    · rw [if_pos hb, if_pos hb]
      have ha := access_ok h hc
      rw [dataIndex_ok h.good (h.n ▸ hc), Res.ok_bind] at ha
      rw [dataIndex_ok h.good (h.n ▸ hc), Res.ok_bind, ha, Res.ok_bind]
      refine ⟨rfl, rfl, ?_⟩
      refine rel_same (rel_set h (position_range hc).1 v) ⟨rfl, rfl, rfl, ?_⟩
      intro d hd
      show (if position m.n d = position m.n c then v else m.at_ d) = if d = c then v else m.at_ d
      by_cases he : d = c
      · rw [if_pos he, if_pos (by rw [he])]
      · rw [if_neg he, if_neg (fun hp => he (position_inj hd hc hp))]
    · rw [if_neg hb, if_neg hb]
      exact ⟨rfl, rfl, h⟩
  · rw [if_neg (fun hb => hc (h.n ▸ (inBounds_iff _ _).mp hb)), if_neg hc]
    exact ⟨rfl, rfl, h⟩

/-- C27, one call: result, hook state and new contents are those of the abstract map. -/
theorem C27_step [DecidableEq K] (A : Arith K) (hook : Hook H) {g : Grid K T} {m : Map T} (h : Rel g m) (hh : H) (op : Op K T)
    (hf : op.Fits A g) (hk : op.HookOk hook) :
    (op.run A hook (hh, g)).2 = ((op.abs A g).run hook (hh, m)).2 ∧
    (op.run A hook (hh, g)).1.1 = ((op.abs A g).run hook (hh, m)).1.1 ∧
    Rel (op.run A hook (hh, g)).1.2 ((op.abs A g).run hook (hh, m)).1.2 := by
  cases op with
  | setIndex o c v =>
    refine setIndex_refines h hook hh o c v ?_
    cases o with
    | indices => rfl
    | gridIndex => exact hk hh _ _ _ _
  | setLocation3 l v =>
    unfold Op.run Op.abs
    dsimp only
    cases hl : locIndex3 A g l with
    | ok c => exact setIndex_refines h hook hh .gridIndex c v (hk hh _ _ _ _)
    | throw e => exact ⟨rfl, rfl, h⟩
    | ub => exact absurd hl hf
  | setLocation4 l v =>
    unfold Op.run Op.abs
    dsimp only
    cases hl : locIndex4 A g l with
    | ok c => exact setIndex_refines h hook hh .gridIndex c v (hk hh _ _ _ _)
    | throw e => exact ⟨rfl, rfl, h⟩
    | ub => exact absurd hl hf
  | setDataIndex d v =>
    unfold Op.run Op.abs Voxel.setDataIndex MapOp.run access
    dsimp only
    by_cases hb : (hook.raw hh).2 = true
    · rw [if_pos hb, if_pos hb, h.len]
      by_cases hd : 0 ≤ d ∧ d < volume m.n
      · rw [if_pos hd, if_pos hd]
        exact ⟨rfl, rfl, rel_set h hd.1 v⟩
      · rw [if_neg hd, if_neg hd]
        exact ⟨rfl, rfl, h⟩
    · rw [if_neg hb, if_neg hb]
      exact ⟨rfl, rfl, h⟩
  | setRawData vs =>
    unfold Op.run Op.abs setRaw MapOp.run
    dsimp only
    by_cases hb : (hook.raw hh).2 = true
    · rw [if_pos hb, if_pos hb, totalCells_ok h.good.nums, h.n]
      dsimp only
      by_cases hd : (vs.length : Int) = volume m.n
      · rw [if_pos hd, if_pos hd]
        refine ⟨rfl, rfl, ⟨h.good, h.n, h.default, h.oob, hd, ?_⟩⟩
        intro c hc
        have hr := position_range hc
        dsimp only at hr ⊢
        rw [List.getElem?_eq_getElem (by omega)]
        rfl
      · rw [if_neg hd, if_neg hd]
        exact ⟨rfl, rfl, h⟩
    · rw [if_neg hb, if_neg hb]
      exact ⟨rfl, rfl, h⟩
  | resetWithDefault =>
    unfold Op.run resetTo
    dsimp only
    rw [setContents_ok h.good]
    refine ⟨rfl, rfl, ?_⟩
    have := rel_replicate h g.default
    rw [h.default] at this ⊢
    exact this
  | resetWithNewValue v =>
    unfold Op.run resetTo
    dsimp only
    rw [setContents_ok h.good]
    exact ⟨rfl, rfl, rel_replicate h _⟩
  | resetWithNewDefault v =>
    unfold Op.run resetTo
    dsimp only
    rw [setContents_ok (by exact h.good)]
    refine ⟨rfl, rfl, ?_⟩
    have h' : Rel { g with default := v } { m with default := v } := ⟨h.good, h.n, rfl, h.oob, h.len, h.at_⟩
    exact rel_replicate h' v
  | setDefaultValue v => exact ⟨rfl, rfl, ⟨h.good, h.n, rfl, h.oob, h.len, h.at_⟩⟩
  | setOOBValue v => exact ⟨rfl, rfl, ⟨h.good, h.n, h.default, rfl, h.len, h.at_⟩⟩
  | updateOrigin inv => exact ⟨rfl, rfl, ⟨h.good, h.n, h.default, rfl, h.len, h.at_⟩⟩

/-- A history of calls on a grid, with the result of each. -/
def runAll [DecidableEq K] (A : Arith K) (hook : Hook H) : H × Grid K T → List (Op K T) → (H × Grid K T) × List (Res Status)
  | hg, [] => (hg, [])
  | hg, op :: ops => ((runAll A hook (op.run A hook hg).1 ops).1, (op.run A hook hg).2 :: (runAll A hook (op.run A hook hg).1 ops).2)

/-- The same history on the abstract map; `gs` are the grids before each call (they determine what the locations mean). -/
def runAbs [DecidableEq K] (A : Arith K) (hook : Hook H) : H × Grid K T → H × Map T → List (Op K T) → (H × Map T) × List (Res Status)
  | _, hm, [] => (hm, [])
  | hg, hm, op :: ops =>
    ((runAbs A hook (op.run A hook hg).1 ((op.abs A hg.2).run hook hm).1 ops).1,
     ((op.abs A hg.2).run hook hm).2 :: (runAbs A hook (op.run A hook hg).1 ((op.abs A hg.2).run hook hm).1 ops).2)

/-- Every call of the history is within the limits of `Fits` and `HookOk`. -/
def AllOk [DecidableEq K] (A : Arith K) (hook : Hook H) : H × Grid K T → List (Op K T) → Prop
  | _, [] => True
  | hg, op :: ops => op.Fits A hg.2 ∧ op.HookOk hook ∧ AllOk A hook (op.run A hook hg).1 ops

/-- C27, any history: every call returns what the abstract map returns, and every later read sees the abstract map. -/
theorem C27_history [DecidableEq K] (A : Arith K) (hook : Hook H) (ops : List (Op K T)) : ∀ (hh : H) (g : Grid K T) (m : Map T),
    Rel g m → AllOk A hook (hh, g) ops →
    (runAll A hook (hh, g) ops).2 = (runAbs A hook (hh, g) (hh, m) ops).2 ∧
    ∀ c, getImmutable (runAll A hook (hh, g) ops).1.2 c =
      .ok (if InGrid m.n c then some ((runAbs A hook (hh, g) (hh, m) ops).1.2.at_ c) else none) := by
  have key : ∀ (ops : List (Op K T)) (hh : H) (g : Grid K T) (m : Map T), Rel g m → AllOk A hook (hh, g) ops →
      (runAll A hook (hh, g) ops).2 = (runAbs A hook (hh, g) (hh, m) ops).2 ∧
      Rel (runAll A hook (hh, g) ops).1.2 (runAbs A hook (hh, g) (hh, m) ops).1.2 ∧
      (runAbs A hook (hh, g) (hh, m) ops).1.2.n = m.n := by
    intro ops
    induction ops with
    | nil => exact fun hh g m h _ => ⟨rfl, h, rfl⟩
    | cons op ops ih =>
      rintro hh g m h ⟨hf, hk, hrest⟩
      obtain ⟨e1, e2, e3⟩ := C27_step A hook h hh op hf hk
      have hn : ((op.abs A g).run hook (hh, m)).1.2.n = m.n := by
        unfold MapOp.run
        repeat' split
        all_goals rfl
      obtain ⟨i1, i2, i3⟩ := ih (op.run A hook (hh, g)).1.1 (op.run A hook (hh, g)).1.2 _ e3 hrest
      rw [e2] at i1 i2 i3
      have hpair : ((op.run A hook (hh, g)).1.1, (op.run A hook (hh, g)).1.2) = (op.run A hook (hh, g)).1 := rfl
      rw [← e2] at i1 i2 i3
      unfold runAll runAbs
      dsimp only
      have hp2 : ((op.abs A g).run hook (hh, m)).1 =
          ((op.run A hook (hh, g)).1.1, ((op.abs A g).run hook (hh, m)).1.2) := by rw [e2]
      rw [hp2, e1]
      exact ⟨by rw [i1], i2, by rw [i3, hn]⟩
  intro hh g m h hok
  obtain ⟨k1, k2, k3⟩ := key ops hh g m h hok
  exact ⟨k1, fun c => by rw [C27_read k2 c, k3]⟩

/-! ## C28: the mutable-access hook -/

/-- C28 (part): through the three-index overloads the hook is asked about the accessed cell; through the `GridIndex` overloads
(and all location overloads, which use them) x and y are right, and the cell is right exactly if y = z. -/
theorem C28_hook_partial (c : Cell) :
    hookArg .indices c = c ∧ (hookArg .gridIndex c).x = c.x ∧ (hookArg .gridIndex c).y = c.y ∧
    (hookArg .gridIndex c = c ↔ c.y = c.z) := by
  refine ⟨rfl, rfl, rfl, ?_⟩
  constructor
  · intro h; have := congrArg Cell.z h; exact this
  · intro h; cases c; simp_all [hookArg]

/-- C28 (part): a hook that prohibits a cell protects it from the three-index overloads, and prohibiting changes nothing. -/
theorem C28_protects_partial {g : Grid K T} {m : Map T} (h : Rel g m) (hook : Hook H) (hh : H) (c : Cell) (v : T)
    (hc : InGrid m.n c) (hp : (hook.access hh c).2 = false) :
    (setIndex hook hh .indices g c v).2 = .ok .prohibited ∧ (setIndex hook hh .indices g c v).1.2.data = g.data := by
  unfold setIndex getMutable
  simp [(inBounds_iff _ _).mpr (h.n ▸ hc : InGrid g.sizes.n c), hookArg, hp]

/-- C28 is false for the code as it is: in every grid with at least two cells along z there is a cell that a hook prohibits
and that `SetIndex(GridIndex)` (or `SetLocation`) nevertheless changes, reporting success. -/
theorem C28_false {g : Grid K T} {m : Map T} (h : Rel g m) (hz : 2 ≤ m.n.z) (v : T) :
    ∃ (hook : Hook Unit) (c : Cell), InGrid m.n c ∧ (hook.access () c).2 = false ∧
      (setIndex hook () .gridIndex g c v).2 = .ok .success ∧
      getImmutable (setIndex hook () .gridIndex g c v).1.2 c = .ok (some v) := by
  have hx := h.n ▸ h.good.nums.x
  have hy := h.n ▸ h.good.nums.y
  have hc : InGrid m.n ⟨0, 0, 1⟩ := ⟨⟨by decide, hx⟩, ⟨by decide, hy⟩, by decide, by show (1 : Int) < m.n.z; omega⟩
  let bad : Hook Unit := ⟨fun _ c => ((), decide (c ≠ ⟨0, 0, 1⟩)), fun _ => ((), true)⟩
  refine ⟨bad, ⟨0, 0, 1⟩, hc, rfl, ?_⟩
  -- what the code does is what it would do under the hook that allows everything
  have hsame : setIndex bad () .gridIndex g ⟨0, 0, 1⟩ v = setIndex allowAll () .gridIndex g ⟨0, 0, 1⟩ v := rfl
  rw [hsame]
  obtain ⟨e1, _, e3⟩ := setIndex_refines h allowAll () .gridIndex ⟨0, 0, 1⟩ v rfl
  have hrun : (MapOp.set ⟨0, 0, 1⟩ v).run allowAll ((), m) = (((), m.put ⟨0, 0, 1⟩ v), .ok .success) := by
    unfold MapOp.run
    dsimp only
    rw [if_pos hc]
    rfl
  rw [hrun] at e1 e3
  refine ⟨e1, ?_⟩
  rw [C27_read e3]
  have hc' : InGrid (m.put ⟨0, 0, 1⟩ v).n ⟨0, 0, 1⟩ := hc
  rw [if_pos hc']
  simp [Map.put]

end CRU.Voxel
