import Verif.Voxel.DynamicProps
import Verif.Float
/-
  C29 in any arithmetic, in particular floating point: rounding decides only to which chunk and local cell a location belongs;
  what is stored is a map from those, for every history.
-/
namespace CRU.Voxel
set_option linter.unusedSectionVars false

variable {K T : Type} [LinearOrder K]

/-! ## What users expect -/

/-- What a chunk holds: one value, or a value per cell (cells numbered from the base of the chunk). -/
inductive Content (T : Type) where
  | whole (v : T)
  | cells (f : Cell → T)

/-- A dynamic grid as a map from chunks (by base point) to their contents. -/
structure FMap (K T : Type) where
  default : T
  chunks : Region K → Option (Content T)

/-- Base point of the chunk that the arithmetic assigns to a location in the grid frame. -/
def regionOf (A : Arith K) (s : Sizes K) (p : Vec K) : Region K :=
  ⟨A.mul (A.ofInt (A.floor (A.div p.x s.sx))) s.sx, A.mul (A.ofInt (A.floor (A.div p.y s.sy))) s.sy,
    A.mul (A.ofInt (A.floor (A.div p.z s.sz))) s.sz⟩

/-- Cell that the arithmetic assigns to it within that chunk; `none` if rounding places it outside. -/
def placeOf (A : Arith K) (s : Sizes K) (p : Vec K) : Option Cell :=
  let r := regionOf A s p
  let d : Vec K := ⟨A.sub p.x r.x, A.sub p.y r.y, A.sub p.z r.z, p.w⟩
  let c : Cell := ⟨A.floor (A.div d.x s.cx), A.floor (A.div d.y s.cy), A.floor (A.div d.z s.cz)⟩
  if (A.ofInt 0 ≤ d.x ∧ d.x < s.sx) ∧ (A.ofInt 0 ≤ d.y ∧ d.y < s.sy) ∧ (A.ofInt 0 ≤ d.z ∧ d.z < s.sz) ∧ InGrid s.n c then some c
  else none

/-- A query. -/
def FMap.get (A : Arith K) (s : Sizes K) (m : FMap K T) (p : Vec K) : Res (Option (Level × T)) :=
  match m.chunks (regionOf A s p) with
  | none => .ok none
  | some (.whole v) => .ok (some (.chunk, v))
  | some (.cells f) =>
    match placeOf A s p with
    | some c => .ok (some (.cell, f c))
    | none => .throw .runtimeError

/-- Replace the content of one chunk. -/
def FMap.put (m : FMap K T) (r : Region K) (x : Content T) : FMap K T :=
  { m with chunks := fun r' => if r' = r then some x else m.chunks r' }

/-- The values of a chunk cell by cell; a chunk never touched holds the default. -/
def FMap.values (m : FMap K T) (r : Region K) : Cell → T :=
  match m.chunks r with
  | none => fun _ => m.default
  | some (.whole v) => fun _ => v
  | some (.cells f) => f

/-- Set a cell or a chunk. A cell set that fails still leaves the chunk allocated cell by cell, with unchanged values. -/
def FMap.set (A : Arith K) (s : Sizes K) (m : FMap K T) (p : Vec K) (lvl : Level) (v : T) : FMap K T × Res SetStatus :=
  let r := regionOf A s p
  match lvl with
  | .chunk => (m.put r (.whole v), .ok (some .chunk))
  | .cell =>
    match placeOf A s p with
    | some c => (m.put r (.cells fun d => if d = c then v else m.values r d), .ok (some .cell))
    | none => (m.put r (.cells (m.values r)), .throw .runtimeError)

/-- Write through a mutable query. -/
def FMap.write (A : Arith K) (s : Sizes K) (m : FMap K T) (p : Vec K) (v : T) : FMap K T × Res MutStatus :=
  let r := regionOf A s p
  match m.chunks r with
  | none => (m, .ok .notFound)
  | some (.whole _) => (m.put r (.whole v), .ok (.found .chunk))
  | some (.cells f) =>
    match placeOf A s p with
    | some c => (m.put r (.cells fun d => if d = c then v else f d), .ok (.found .cell))
    | none => (m, .throw .runtimeError)

/-- Within a chunk, cell numbers can be computed without leaving the range of `int64_t`. -/
def NoOverflow (A : Arith K) (s : Sizes K) : Prop :=
  (∀ d, A.ofInt 0 ≤ d → d < s.sx → InI64 (A.floor (A.div d s.cx))) ∧
  (∀ d, A.ofInt 0 ≤ d → d < s.sy → InI64 (A.floor (A.div d s.cy))) ∧
  (∀ d, A.ofInt 0 ≤ d → d < s.sz → InI64 (A.floor (A.div d s.cz)))

/-! ## Proofs -/

variable {A : Arith K} {s : Sizes K}

theorem containing_any (hs : GoodSizes s) (p : Vec K) : containing A s p = .ok (regionOf A s p) := by
  unfold containing regionOf
  rw [if_pos hs.valid]

theorem chunkDataIndex_any (hs : GoodSizes s) (ho : NoOverflow A s) (p : Vec K) :
    chunkDataIndex A s (regionOf A s p) p = .ok (match placeOf A s p with | some c => position s.n c | none => -1) := by
  unfold chunkDataIndex placeOf
  dsimp only
  generalize A.sub p.x (regionOf A s p).x = dx
  generalize A.sub p.y (regionOf A s p).y = dy
  generalize A.sub p.z (regionOf A s p).z = dz
  by_cases hout : dx < A.ofInt 0 ∨ dy < A.ofInt 0 ∨ dz < A.ofInt 0 ∨ s.sx ≤ dx ∨ s.sy ≤ dy ∨ s.sz ≤ dz
  · rw [if_pos hout, if_neg]
    rintro ⟨⟨a1, a2⟩, ⟨b1, b2⟩, ⟨c1, c2⟩, _⟩
    rcases hout with h | h | h | h | h | h
    · exact absurd h (not_lt.mpr a1)
    · exact absurd h (not_lt.mpr b1)
    · exact absurd h (not_lt.mpr c1)
    · exact absurd h (not_le.mpr a2)
    · exact absurd h (not_le.mpr b2)
    · exact absurd h (not_le.mpr c2)
  · rw [if_neg hout]
    simp only [not_or, not_lt, not_le] at hout
    obtain ⟨a1, b1, c1, a2, b2, c2⟩ := hout
    rw [chk64_ok (ho.1 dx a1 a2), Res.ok_bind, chk64_ok (ho.2.1 dy b1 b2), Res.ok_bind, chk64_ok (ho.2.2 dz c1 c2), Res.ok_bind]
    by_cases hin : InGrid s.n ⟨A.floor (A.div dx s.cx), A.floor (A.div dy s.cy), A.floor (A.div dz s.cz)⟩
    · rw [if_neg (by unfold InGrid at hin; dsimp only at hin; omega), if_pos ⟨⟨a1, a2⟩, ⟨b1, b2⟩, ⟨c1, c2⟩, hin⟩]
      exact dataIndex_ok hs hin
    · rw [if_pos (by unfold InGrid at hin; dsimp only at hin; omega), if_neg (fun h => hin h.2.2.2)]

theorem placeOf_inGrid {p : Vec K} {c : Cell} (h : placeOf A s p = some c) : InGrid s.n c := by
  unfold placeOf at h
  dsimp only at h
  split at h
  · rename_i hc
    cases h
    exact hc.2.2.2
  · cases h

/-- A stored chunk holds the content. -/
def Holds (n : Cell) (r : Region K) (c : Chunk K T) : Content T → Prop
  | .whole v => c.region = r ∧ c.fill = .chunkFilled ∧ c.data = [v]
  | .cells f => c.region = r ∧ c.fill = .cellFilled ∧ (c.data.length : Int) = volume n ∧
      ∀ d, InGrid n d → c.data[(position n d).toNat]? = some (f d)

/-- The grid represents the map. -/
structure FRel (s : Sizes K) (g : DGrid K T) (m : FMap K T) : Prop where
  sizes : g.sizes = s
  default : g.default = m.default
  none_ : ∀ r, m.chunks r = none → g.chunks r = none
  some_ : ∀ r x, m.chunks r = some x → ∃ c, g.chunks r = some c ∧ Holds s.n r c x

theorem frel_put {g : DGrid K T} {m : FMap K T} (h : FRel s g m) (r : Region K) {c : Chunk K T} {x : Content T}
    (hc : Holds s.n r c x) : FRel s ⟨g.inv, g.default, s, putChunk g.chunks r c⟩ (m.put r x) where
  sizes := rfl
  default := h.default
  none_ := by
    intro r' hn
    unfold FMap.put at hn
    dsimp only at hn
    split at hn
    · cases hn
    · rename_i he
      show putChunk _ _ _ _ = _
      unfold putChunk
      rw [if_neg he]
      exact h.none_ _ hn
  some_ := by
    intro r' x' hs
    unfold FMap.put at hs
    dsimp only at hs
    split at hs
    · rename_i he
      subst he
      cases hs
      exact ⟨c, by simp [putChunk], hc⟩
    · rename_i he
      obtain ⟨c', h1, h2⟩ := h.some_ _ _ hs
      refine ⟨c', ?_, h2⟩
      show putChunk _ _ _ _ = _
      unfold putChunk
      rw [if_neg he]
      exact h1

theorem fillCells_any (hs : GoodSizes s) (c : Chunk K T) (v : T) :
    fillCells s c v = .ok { c with data := List.replicate (volume s.n).toNat v, fill := .cellFilled } := by
  unfold fillCells
  rw [totalCells_ok hs.nums, Res.ok_bind, if_neg (by have := volume_pos hs.nums; omega)]
  rfl

theorem holds_replicate (hs : GoodSizes s) (r : Region K) (v : T) :
    Holds s.n r ⟨r, List.replicate (volume s.n).toNat v, .cellFilled⟩ (.cells fun _ => v) := by
  have hv := volume_pos hs.nums
  refine ⟨rfl, rfl, by simp; omega, fun d hd => ?_⟩
  have hr := position_range hd
  dsimp only
  rw [List.getElem?_replicate, if_pos (by omega)]

theorem holds_set {r : Region K} {c : Chunk K T} {f : Cell → T} (h : Holds s.n r c (.cells f)) {k : Cell}
    (hk : InGrid s.n k) (v : T) :
    Holds s.n r { c with data := c.data.set (position s.n k).toNat v } (.cells fun d => if d = k then v else f d) := by
  obtain ⟨h1, h2, h3, h4⟩ := h
  have hr := position_range hk
  refine ⟨h1, h2, by simpa using h3, fun d hd => ?_⟩
  have hrd := position_range hd
  dsimp only
  by_cases he : d = k
  · subst he
    rw [List.getElem?_set_self (by omega), if_pos rfl]
  · rw [List.getElem?_set_ne, h4 d hd, if_neg he]
    intro hb
    exact he (position_inj hd hk (by omega))

/-- A query. -/
theorem C29_any_get (hs : GoodSizes s) (ho : NoOverflow A s) {g : DGrid K T} {m : FMap K T} (h : FRel s g m) (l : Vec K) :
    dGet A g l = m.get A s (g.inv l) := by
  unfold dGet FMap.get
  rw [h.sizes, containing_any hs, Res.ok_bind]
  cases hm : m.chunks (regionOf A s (g.inv l)) with
  | none => rw [h.none_ _ hm]
  | some x =>
    obtain ⟨c, hc, hcr⟩ := h.some_ _ _ hm
    rw [hc]
    cases x with
    | whole v =>
      obtain ⟨_, h2, h3⟩ := hcr
      dsimp only
      unfold chunkFind
      rw [h2, h3]
      rfl
    | cells f =>
      obtain ⟨h1, h2, h3, h4⟩ := hcr
      dsimp only
      unfold chunkFind
      rw [h2]
      dsimp only
      rw [h1, chunkDataIndex_any hs ho, Res.ok_bind]
      cases hp : placeOf A s (g.inv l) with
      | none => rfl
      | some k =>
        have hk := placeOf_inGrid hp
        have hr := position_range hk
        dsimp only
        rw [if_pos hr.1]
        unfold access
        rw [if_pos ⟨hr.1, by rw [h3]; exact hr.2⟩, Res.ok_bind]
        simp only [Res.pure_eq, Res.ok_bind]
        unfold atRaw
        rw [h4 k hk]
        rfl

theorem setCell_any (hs : GoodSizes s) (ho : NoOverflow A s) (p : Vec K) (v : T) {c : Chunk K T} {x : Content T}
    (hc : Holds s.n (regionOf A s p) c x) (f : Cell → T) (hf : f = match (generalizing := false) x with | .whole w => fun _ => w | .cells f => f) :
    ∃ c', (match placeOf A s p with
      | some k => chunkSetCell A s c p v = (c', .ok .cell) ∧
          Holds s.n (regionOf A s p) c' (.cells fun d => if d = k then v else f d)
      | none => chunkSetCell A s c p v = (c', .throw .runtimeError) ∧ Holds s.n (regionOf A s p) c' (.cells f)) := by
  have fin : ∀ (c : Chunk K T), Holds s.n (regionOf A s p) c (.cells f) →
      ∃ c', (match placeOf A s p with
        | some k => (if c.fill = .cellFilled then
            match chunkDataIndex A s c.region p with
            | .ok d =>
              if d ≥ 0 then
                match access c.data d with
                | .ok i => (({ c with data := c.data.set i v } : Chunk K T), (Res.ok Level.cell : Res Level))
                | .throw e => (c, .throw e)
                | .ub => (c, .ub)
              else (c, .throw .runtimeError)
            | .throw e => (c, .throw e)
            | .ub => (c, .ub)
          else (c, .throw .runtimeError)) = (c', .ok .cell) ∧
            Holds s.n (regionOf A s p) c' (.cells fun d => if d = k then v else f d)
        | none => (if c.fill = .cellFilled then
            match chunkDataIndex A s c.region p with
            | .ok d =>
              if d ≥ 0 then
                match access c.data d with
                | .ok i => (({ c with data := c.data.set i v } : Chunk K T), (Res.ok Level.cell : Res Level))
                | .throw e => (c, .throw e)
                | .ub => (c, .ub)
              else (c, .throw .runtimeError)
            | .throw e => (c, .throw e)
            | .ub => (c, .ub)
          else (c, .throw .runtimeError)) = (c', .throw .runtimeError) ∧ Holds s.n (regionOf A s p) c' (.cells f)) := by
    intro c hc
    have hc' := hc
    obtain ⟨h1, h2, h3, h4⟩ := hc
    rw [if_pos h2, h1, chunkDataIndex_any hs ho]
    cases hp : placeOf A s p with
    | none => exact ⟨c, rfl, hc'⟩
    | some k =>
      have hk := placeOf_inGrid hp
      have hr := position_range hk
      refine ⟨{ c with data := c.data.set (position s.n k).toNat v }, ?_, holds_set hc' hk v⟩
      dsimp only
      rw [if_pos hr.1]
      unfold access
      rw [if_pos ⟨hr.1, by rw [h3]; exact hr.2⟩]
      dsimp only
      rw [h1]
  subst hf
  cases x with
  | whole w =>
    obtain ⟨h1, h2, h3⟩ := hc
    have hrel := holds_replicate hs (regionOf A s p) w
    obtain ⟨c', hc'⟩ := fin _ hrel
    refine ⟨c', ?_⟩
    have e : chunkSetCell A s c p v = (if (⟨regionOf A s p, List.replicate (volume s.n).toNat w, .cellFilled⟩ : Chunk K T).fill = .cellFilled then
            match chunkDataIndex A s (regionOf A s p) p with
            | .ok d =>
              if d ≥ 0 then
                match access (List.replicate (volume s.n).toNat w) d with
                | .ok i => ((⟨regionOf A s p, (List.replicate (volume s.n).toNat w).set i v, .cellFilled⟩ : Chunk K T), (Res.ok Level.cell : Res Level))
                | .throw e => (⟨regionOf A s p, List.replicate (volume s.n).toNat w, .cellFilled⟩, .throw e)
                | .ub => (⟨regionOf A s p, List.replicate (volume s.n).toNat w, .cellFilled⟩, .ub)
              else (⟨regionOf A s p, List.replicate (volume s.n).toNat w, .cellFilled⟩, .throw .runtimeError)
            | .throw e => (⟨regionOf A s p, List.replicate (volume s.n).toNat w, .cellFilled⟩, .throw e)
            | .ub => (⟨regionOf A s p, List.replicate (volume s.n).toNat w, .cellFilled⟩, .ub)
          else (⟨regionOf A s p, List.replicate (volume s.n).toNat w, .cellFilled⟩, .throw .runtimeError)) := by
      obtain ⟨reg, data, fill⟩ := c
      dsimp only at h1 h2 h3
      subst h1 h2 h3
      unfold chunkSetCell
      have hraw : atRaw [w] 0 = .ok w := rfl
      simp only [access_zero, Res.ok_bind, hraw, fillCells_any hs]
      rfl
    rw [e]
    exact hc'
  | cells f =>
    obtain ⟨c', hc'⟩ := fin c hc
    refine ⟨c', ?_⟩
    have hcf := hc.2.1
    unfold chunkSetCell
    rw [hcf]
    dsimp only
    rw [hcf] at hc' ⊢
    exact hc'

theorem setOnce_existing_any (hs : GoodSizes s) (ho : NoOverflow A s) {g : DGrid K T} {m : FMap K T} (h : FRel s g m)
    (allow : Vec K → Bool) (l : Vec K) (lvl : Level) (v : T) (ha : allow (g.inv l) = true) {x : Content T}
    (hx : m.chunks (regionOf A s (g.inv l)) = some x) :
    ∃ g', dSetOnce A (pureHook allow) ((), g) l lvl v =
        (((), g'), (m.set A s (g.inv l) lvl v).2.bind fun st => .ok (false, st)) ∧
      g'.inv = g.inv ∧ FRel s g' (m.set A s (g.inv l) lvl v).1 := by
  obtain ⟨c, hc, hcr⟩ := h.some_ _ _ hx
  unfold dSetOnce
  dsimp only
  have hb : ((pureHook allow).access () (g.inv l)).2 = true := ha
  rw [if_pos hb, h.sizes, containing_any hs]
  dsimp only
  rw [hc]
  dsimp only
  cases lvl with
  | cell =>
    have hv : m.values (regionOf A s (g.inv l)) = match (generalizing := false) x with | .whole w => fun _ => w | .cells f => f := by
      unfold FMap.values; rw [hx]; cases x <;> rfl
    obtain ⟨c', hc'⟩ := setCell_any hs ho (g.inv l) v hcr _ hv
    unfold FMap.set
    dsimp only
    cases hp : placeOf A s (g.inv l) with
    | none =>
      rw [hp] at hc'
      obtain ⟨h1, h2⟩ := hc'
      rw [h1]
      exact ⟨_, rfl, rfl, frel_put h _ h2⟩
    | some k =>
      rw [hp] at hc'
      obtain ⟨h1, h2⟩ := hc'
      rw [h1]
      exact ⟨_, rfl, rfl, frel_put h _ h2⟩
  | chunk =>
    have hfill : c.fill ≠ .notFilled ∧ c.region = regionOf A s (g.inv l) := by
      cases x with
      | whole w => exact ⟨by rw [hcr.2.1]; simp, hcr.1⟩
      | cells f => exact ⟨by rw [hcr.2.1]; simp, hcr.1⟩
    unfold chunkSetChunk
    rw [if_pos hfill.1]
    exact ⟨_, rfl, rfl, frel_put h _ (c := fillChunk c v) (x := .whole v) ⟨hfill.2, rfl, rfl⟩⟩

/-- A permitted set does what the map does, and reports what the map reports. -/
theorem C29_any_set (hs : GoodSizes s) (ho : NoOverflow A s) {g : DGrid K T} {m : FMap K T} (h : FRel s g m)
    (allow : Vec K → Bool) (l : Vec K) (lvl : Level) (v : T) (ha : allow (g.inv l) = true) :
    ∃ g', dSet A (pureHook allow) ((), g) l lvl v = (((), g'), (m.set A s (g.inv l) lvl v).2) ∧ g'.inv = g.inv ∧
      FRel s g' (m.set A s (g.inv l) lvl v).1 := by
  have fin : ∀ (g g' : DGrid K T) (r : Res SetStatus),
      dSetOnce A (pureHook allow) ((), g) l lvl v = (((), g'), r.bind fun st => .ok (false, st)) →
      dSet A (pureHook allow) ((), g) l lvl v = (((), g'), r) := by
    intro g g' r he
    unfold dSet
    rw [he]
    cases r <;> rfl
  cases hx : m.chunks (regionOf A s (g.inv l)) with
  | some x =>
    obtain ⟨g', h1, h2, h3⟩ := setOnce_existing_any hs ho h allow l lvl v ha hx
    exact ⟨g', fin _ _ _ h1, h2, h3⟩
  | none =>
    have halloc : ∃ (g1 : DGrid K T) (x1 : Content T), dSetOnce A (pureHook allow) ((), g) l lvl v =
        (((), g1), .ok (true, none)) ∧ g1.inv = g.inv ∧
        x1 = (match lvl with | .chunk => .whole m.default | .cell => .cells fun _ => m.default) ∧
        FRel s g1 (m.put (regionOf A s (g.inv l)) x1) := by
      unfold dSetOnce
      dsimp only
      have hb : ((pureHook allow).access () (g.inv l)).2 = true := ha
      rw [if_pos hb, h.sizes, containing_any hs]
      dsimp only
      rw [h.none_ _ hx]
      dsimp only
      unfold newChunk
      rw [if_pos hs.valid]
      cases lvl with
      | cell =>
        dsimp only
        rw [fillCells_any hs]
        refine ⟨_, _, rfl, rfl, rfl, frel_put h _ ?_⟩
        rw [h.default]
        exact holds_replicate hs _ _
      | chunk =>
        refine ⟨_, _, rfl, rfl, rfl, frel_put h _ ?_⟩
        exact ⟨rfl, rfl, by rw [← h.default]; rfl⟩
    obtain ⟨g1, x1, h1, hinv, hx1, hrel1⟩ := halloc
    rw [← hinv] at ha
    obtain ⟨g', e1, e2, e3⟩ := setOnce_existing_any hs ho hrel1 allow l lvl v ha (x := x1) (by rw [hinv]; simp [FMap.put])
    rw [hinv] at e1 e3 e2
    have hval : (m.put (regionOf A s (g.inv l)) x1).values (regionOf A s (g.inv l)) = m.values (regionOf A s (g.inv l)) := by
      unfold FMap.values FMap.put
      rw [hx]
      simp only [if_true]
      rw [hx1]
      cases lvl <;> rfl
    have hput : ∀ y, (m.put (regionOf A s (g.inv l)) x1).put (regionOf A s (g.inv l)) y = m.put (regionOf A s (g.inv l)) y := by
      intro y
      unfold FMap.put
      congr 1
      funext r'
      by_cases hr : r' = regionOf A s (g.inv l) <;> simp [hr]
    have hset : (m.put (regionOf A s (g.inv l)) x1).set A s (g.inv l) lvl v = m.set A s (g.inv l) lvl v := by
      unfold FMap.set
      simp only [hval, hput]
    rw [hset] at e1 e3
    refine ⟨g', ?_, e2, e3⟩
    have := fin _ _ _ e1
    unfold dSet
    rw [h1]
    dsimp only
    rw [e1]
    cases (m.set A s (g.inv l) lvl v).2 <;> rfl

/-- A permitted write through a mutable query. -/
theorem C29_any_write (hs : GoodSizes s) (ho : NoOverflow A s) {g : DGrid K T} {m : FMap K T} (h : FRel s g m)
    (allow : Vec K → Bool) (l : Vec K) (v : T) (ha : allow (g.inv l) = true) :
    ∃ g', dWrite A (pureHook allow) ((), g) l v = (((), g'), (m.write A s (g.inv l) v).2) ∧ g'.inv = g.inv ∧
      FRel s g' (m.write A s (g.inv l) v).1 := by
  unfold dWrite FMap.write
  dsimp only
  rw [h.sizes, containing_any hs]
  dsimp only
  cases hx : m.chunks (regionOf A s (g.inv l)) with
  | none =>
    rw [h.none_ _ hx]
    exact ⟨g, rfl, rfl, h⟩
  | some x =>
    obtain ⟨c, hc, hcr⟩ := h.some_ _ _ hx
    rw [hc]
    dsimp only
    have hb : ((pureHook allow).access () (g.inv l)).2 = true := ha
    rw [if_pos hb]
    cases x with
    | whole w =>
      obtain ⟨h1, h2, h3⟩ := hcr
      have e : chunkFind A s c (g.inv l) = .ok (.chunk, 0) := by unfold chunkFind; rw [h2, h3]; rfl
      rw [e]
      exact ⟨_, rfl, rfl, frel_put h _ (c := { c with data := c.data.set 0 v }) (x := .whole v) ⟨h1, h2, by rw [h3]; rfl⟩⟩
    | cells f =>
      have hcr' := hcr
      obtain ⟨h1, h2, h3, h4⟩ := hcr
      have e : chunkFind A s c (g.inv l) =
          match placeOf A s (g.inv l) with | some k => .ok (.cell, (position s.n k).toNat) | none => .throw .runtimeError := by
        unfold chunkFind
        rw [h2]
        dsimp only
        rw [h1, chunkDataIndex_any hs ho, Res.ok_bind]
        cases hp : placeOf A s (g.inv l) with
        | none => rfl
        | some k =>
          have hr := position_range (placeOf_inGrid hp)
          dsimp only
          rw [if_pos hr.1]
          unfold access
          rw [if_pos ⟨hr.1, by rw [h3]; exact hr.2⟩]
          rfl
      rw [e]
      cases hp : placeOf A s (g.inv l) with
      | none => exact ⟨g, rfl, rfl, h⟩
      | some k => exact ⟨_, rfl, rfl, frel_put h _ (holds_set hcr' (placeOf_inGrid hp) v)⟩

/-- State after a call, in any arithmetic. -/
def DOp.runA (A : Arith K) (allow : Vec K → Bool) (g : DGrid K T) : DOp K T → DGrid K T
  | .set l lvl v => (dSet A (pureHook allow) ((), g) l lvl v).1.2
  | .write l v => (dWrite A (pureHook allow) ((), g) l v).1.2
  | .setDefault v => { g with default := v }
  | .updateOrigin inv => { g with inv := inv }

/-- The same on the map with the current transform. -/
def DOp.absA (A : Arith K) (s : Sizes K) (allow : Vec K → Bool) (im : (Vec K → Vec K) × FMap K T) : DOp K T → (Vec K → Vec K) × FMap K T
  | .set l lvl v => (im.1, if allow (im.1 l) then (im.2.set A s (im.1 l) lvl v).1 else im.2)
  | .write l v => (im.1, if allow (im.1 l) then (im.2.write A s (im.1 l) v).1 else im.2)
  | .setDefault v => (im.1, { im.2 with default := v })
  | .updateOrigin inv => (inv, im.2)

/-- C29 in any arithmetic, in particular in floating point with any rounding: after any sequence of calls on a new grid, every
query returns what the map from computed chunks and cells says. Rounding decides where a location belongs and nothing else. -/
theorem C29_any_arithmetic {cx cy cz : K} {n : Cell} (hs : mkSizes A cx cy cz n = .ok s) (hf : InI64 (volume n))
    (ho : NoOverflow A s) (inv : Vec K → Vec K) (default : T) (allow : Vec K → Bool) (ops : List (DOp K T)) :
    ∃ g, newDGrid inv s default = .ok g ∧ ∀ l,
      let im := ops.foldl (DOp.absA A s allow) (inv, ⟨default, fun _ => none⟩)
      dGet A (ops.foldl (DOp.runA A allow) g) l = im.2.get A s (im.1 l) := by
  have hg := good_of_mk hs hf
  have main : ∀ (ops : List (DOp K T)) (g : DGrid K T) (m : FMap K T), FRel s g m → ∀ l,
      dGet A (ops.foldl (DOp.runA A allow) g) l =
        (ops.foldl (DOp.absA A s allow) (g.inv, m)).2.get A s ((ops.foldl (DOp.absA A s allow) (g.inv, m)).1 l) := by
    intro ops
    induction ops with
    | nil => exact fun g m h l => C29_any_get hg ho h l
    | cons op ops ih =>
      intro g m h l
      have step : FRel s (op.runA A allow g) (op.absA A s allow (g.inv, m)).2 ∧
          (op.runA A allow g).inv = (op.absA A s allow (g.inv, m)).1 := by
        cases op with
        | set l lvl v =>
          unfold DOp.runA DOp.absA
          dsimp only
          cases ha : allow (g.inv l) with
          | true =>
            obtain ⟨g', h1, h2, h3⟩ := C29_any_set hg ho h allow l lvl v ha
            rw [h1]
            exact ⟨h3, h2⟩
          | false =>
            unfold dSet dSetOnce
            have hb : ((pureHook allow).access () (g.inv l)).2 = false := ha
            simp only [hb]
            exact ⟨h, rfl⟩
        | write l v =>
          unfold DOp.runA DOp.absA
          dsimp only
          cases ha : allow (g.inv l) with
          | true =>
            obtain ⟨g', h1, h2, h3⟩ := C29_any_write hg ho h allow l v ha
            rw [h1]
            exact ⟨h3, h2⟩
          | false =>
            have hb : ((pureHook allow).access () (g.inv l)).2 = false := ha
            have e : (dWrite A (pureHook allow) ((), g) l v).1 = ((), g) := by
              unfold dWrite
              dsimp only
              cases containing A g.sizes (g.inv l) with
              | ok r =>
                dsimp only
                cases g.chunks r with
                | none => rfl
                | some c => simp [hb]
              | throw e => rfl
              | ub => rfl
            rw [e]
            exact ⟨h, rfl⟩
        | setDefault v => exact ⟨⟨h.sizes, rfl, h.none_, h.some_⟩, rfl⟩
        | updateOrigin inv => exact ⟨⟨h.sizes, h.default, h.none_, h.some_⟩, rfl⟩
      have := ih (op.runA A allow g) _ step.1 l
      rw [step.2] at this
      exact this
  refine ⟨⟨inv, default, s, fun _ => none⟩, by unfold newDGrid; rw [if_pos hg.valid], fun l => ?_⟩
  exact main ops _ _ ⟨rfl, rfl, fun _ _ => rfl, by intro r x hx; cases hx⟩ l

/-! ## Rounded arithmetic: which cell -/

section Rounded

variable {K T : Type} [Field K] [LinearOrder K] [IsStrictOrderedRing K] [FloorRing K]

/-- In rounded arithmetic cell numbers within a chunk cannot overflow if the number of cells along an axis, computed as size of
the chunk over size of a cell, is below 2^63. -/
theorem noOverflow_rounded {fl : K → K} (hm : Monotone fl) (h0 : fl 0 = 0) {s : Sizes K} (cx : 0 < s.cx) (cy : 0 < s.cy)
    (cz : 0 < s.cz) (hx : fl (s.sx / s.cx) < 9223372036854775808) (hy : fl (s.sy / s.cy) < 9223372036854775808)
    (hz : fl (s.sz / s.cz) < 9223372036854775808) : NoOverflow (roundedArith fl) s := by
  have key : ∀ S c : K, 0 < c → fl (S / c) < 9223372036854775808 → ∀ d, (roundedArith fl).ofInt 0 ≤ d → d < S →
      InI64 ((roundedArith fl).floor ((roundedArith fl).div d c)) := by
    intro S c hc hS d hd0 hd
    have hd0' : 0 ≤ d := by
      have : (roundedArith fl).ofInt 0 = 0 := by show fl ((0 : Int) : K) = 0; rw [Int.cast_zero, h0]
      rwa [this] at hd0
    show InI64 ⌊fl (d / c)⌋
    have h1 : 0 ≤ fl (d / c) := by rw [← h0]; exact hm (div_nonneg hd0' hc.le)
    have h2 : fl (d / c) ≤ fl (S / c) := hm (by gcongr)
    have h3 : 0 ≤ ⌊fl (d / c)⌋ := Int.floor_nonneg.mpr h1
    have h4 : ⌊fl (d / c)⌋ < 9223372036854775808 := by
      rw [Int.floor_lt]; push_cast; exact lt_of_le_of_lt h2 hS
    unfold InI64
    omega
  exact ⟨key _ _ cx hx, key _ _ cy hy, key _ _ cz hz⟩

/-- Along one axis: `x` lies in cell number `j` of chunk number `k`, not closer to a wall of the cell than a few rounding
errors. -/
def WellInside (u S c x : K) (k j : Int) : Prop :=
  j * c + 3 * u * (|x| + 2 * S) ≤ x - k * S ∧ x - k * S < (j + 1) * c - 3 * u * (|x| + 2 * S)

theorem axis_rounded {fl : K → K} {u : K} (hu : 0 ≤ u) (hu2 : u ≤ 1 / 16) (hfl : RelErr fl u) {S c x : K} {n k j : Int}
    (hc : 0 < c) (hn : 0 < n) (hS : |S - n * c| ≤ u * (n * c)) (hk : fl (k : K) = k) (hj0 : 0 ≤ j) (hj : j < n)
    (h : WellInside u S c x k j) :
    ⌊fl (x / S)⌋ = k ∧ (0 ≤ fl (x - fl (k * S)) ∧ fl (x - fl (k * S)) < S) ∧ ⌊fl (fl (x - fl (k * S)) / c)⌋ = j := by
  obtain ⟨hlo, hhi⟩ := h
  have hn' : (0 : K) < n := by exact_mod_cast hn
  have hnc : 0 < (n : K) * c := mul_pos hn' hc
  have hj0' : (0 : K) ≤ j := by exact_mod_cast hj0
  have hjn : ((j : K) + 1) * c ≤ n * c := by
    have : (j : K) + 1 ≤ n := by exact_mod_cast hj
    exact mul_le_mul_of_nonneg_right this hc.le
  have hjc : 0 ≤ (j : K) * c := mul_nonneg hj0' hc.le
  rw [abs_le] at hS
  have hSn : n * c ≤ S + 2 * u * S ∧ 0 < S := by
    have h1 : (1 - u) * (n * c) ≤ S := by linarith [hS.1]
    have h2 : 0 < S := lt_of_lt_of_le (mul_pos (by linarith) hnc) h1
    have h3 : n * c ≤ 2 * S := by nlinarith
    refine ⟨?_, h2⟩
    have := mul_le_mul_of_nonneg_left h3 hu
    linarith [hS.1]
  obtain ⟨hSn, hSpos⟩ := hSn
  set ax := |x| with hax
  have hx0 : 0 ≤ ax := abs_nonneg x
  have hux : 0 ≤ u * ax := mul_nonneg hu hx0
  have huS : 0 ≤ u * S := mul_nonneg hu hSpos.le
  set d := x - k * S with hd
  have hd0 : 0 ≤ d := by linarith
  have hdS : d < S := by linarith
  -- the chunk
  have e1 := hfl (x / S)
  rw [abs_div, abs_of_pos hSpos, abs_le] at e1
  have hxs : x / S = k + d / S := by rw [hd]; field_simp; ring
  have f1 : ⌊fl (x / S)⌋ = k := by
    rw [Int.floor_eq_iff]
    have a1 : u * (ax / S) ≤ d / S := by
      rw [← mul_div_assoc]
      exact div_le_div_of_nonneg_right (by linarith) hSpos.le
    have a2 : d / S < 1 - u * (ax / S) := by
      rw [← mul_div_assoc, lt_sub_iff_add_lt, ← add_div, div_lt_one hSpos]
      linarith
    constructor
    · linarith [e1.1]
    · linarith [e1.2]
  -- the position in the chunk
  have hkS : |(k : K) * S| ≤ ax + S := by
    have : (k : K) * S = x - d := by rw [hd]; ring
    rw [this]
    calc |x - d| ≤ |x| + |d| := abs_sub _ _
      _ ≤ ax + S := by rw [abs_of_nonneg hd0, ← hax]; linarith
  have e2 := le_trans (hfl (k * S)) (mul_le_mul_of_nonneg_left hkS hu)
  rw [abs_le] at e2
  have e3 := hfl (x - fl (k * S))
  have hee : |x - fl (k * S)| ≤ S + u * (ax + S) := by
    rw [abs_le]
    constructor <;> linarith [e2.1, e2.2]
  have e4 := le_trans e3 (mul_le_mul_of_nonneg_left hee hu)
  rw [abs_le] at e4
  have hq : u * (S + u * (ax + S)) ≤ u * S + (1 / 16) * (u * (ax + S)) := by
    have : u * (u * (ax + S)) ≤ (1 / 16) * (u * (ax + S)) :=
      mul_le_mul_of_nonneg_right hu2 (mul_nonneg hu (by linarith))
    linarith
  generalize fl (x - fl (k * S)) = dh at *
  have b1 : d - 2 * u * (ax + 2 * S) ≤ dh := by linarith [e4.1, e2.2]
  have b2 : dh ≤ d + 2 * u * (ax + 2 * S) := by linarith [e4.2, e2.1]
  have g1 : 0 ≤ dh := by linarith
  have g2 : dh < S := by linarith
  -- the cell
  have e5 := hfl (dh / c)
  rw [abs_of_nonneg (div_nonneg g1 hc.le), abs_le] at e5
  have e6 : u * (dh / c) ≤ u * S / c := by
    rw [← mul_div_assoc]
    exact div_le_div_of_nonneg_right (mul_le_mul_of_nonneg_left g2.le hu) hc.le
  refine ⟨f1, ⟨g1, g2⟩, ?_⟩
  rw [Int.floor_eq_iff]
  have c1 : (j : K) + u * S / c ≤ dh / c := by
    rw [← sub_nonneg]
    have : dh / c - (j + u * S / c) = (dh - (j * c + u * S)) / c := by field_simp
    rw [this]
    exact div_nonneg (by linarith) hc.le
  have c2 : dh / c < j + 1 - u * S / c := by
    rw [← sub_pos]
    have : j + 1 - u * S / c - dh / c = ((j + 1) * c - u * S - dh) / c := by field_simp
    rw [this]
    exact div_pos (by linarith) hc
  constructor
  · linarith [e5.1]
  · linarith [e5.2]

/-- C29, floating point: sizes made in rounded arithmetic, a location in the grid frame that lies in cell `j` of chunk `k` and is
not within a few rounding errors of a wall of that cell: the arithmetic assigns it to that cell of that chunk. -/
theorem C29_rounded_cell {fl : K → K} {u : K} (hu : 0 ≤ u) (hu2 : u ≤ 1 / 16) (hfl : RelErr fl u) {cx cy cz : K} {n : Cell}
    {s : Sizes K} (hs : mkSizes (roundedArith fl) cx cy cz n = .ok s) (hn : fl (n.x : K) = n.x ∧ fl (n.y : K) = n.y ∧ fl (n.z : K) = n.z)
    {p : Vec K} {k j : Cell} (hk : fl (k.x : K) = k.x ∧ fl (k.y : K) = k.y ∧ fl (k.z : K) = k.z) (hj : InGrid n j)
    (hx : WellInside u s.sx cx p.x k.x j.x) (hy : WellInside u s.sy cy p.y k.y j.y) (hz : WellInside u s.sz cz p.z k.z j.z) :
    regionOf (roundedArith fl) s p = ⟨fl (k.x * s.sx), fl (k.y * s.sy), fl (k.z * s.sz)⟩ ∧ placeOf (roundedArith fl) s p = some j := by
  obtain ⟨⟨nx, ny, nz⟩, ⟨px, py, pz⟩, hsn, _, _, _, c1, c2, c3, _, _, _, d1, d2, d3⟩ := mkSizes_ok hs
  have f0 : fl ((0 : Int) : K) = 0 := by
    have := hfl 0
    simp only [sub_zero, abs_zero, mul_zero, abs_nonpos_iff] at this
    rw [Int.cast_zero, this]
  have hS : ∀ {c S : K} {m : Int}, 0 < c → 0 < m → fl (m : K) = m → S = fl (fl (m : K) * c) → |S - m * c| ≤ u * (m * c) := by
    intro c S m hc hm hmf he
    have hm' : (0 : K) < m := by exact_mod_cast hm
    rw [he, hmf]
    have := hfl (m * c)
    rwa [abs_of_pos (mul_pos hm' hc)] at this
  have px' : 0 < cx := of_decide_eq_true px
  have py' : 0 < cy := of_decide_eq_true py
  have pz' : 0 < cz := of_decide_eq_true pz
  obtain ⟨⟨jx0, jx⟩, ⟨jy0, jy⟩, jz0, jz⟩ := hj
  obtain ⟨x1, ⟨x2, x3⟩, x4⟩ := axis_rounded hu hu2 hfl px' nx (hS px' nx hn.1 d1) hk.1 jx0 jx hx
  obtain ⟨y1, ⟨y2, y3⟩, y4⟩ := axis_rounded hu hu2 hfl py' ny (hS py' ny hn.2.1 d2) hk.2.1 jy0 jy hy
  obtain ⟨z1, ⟨z2, z3⟩, z4⟩ := axis_rounded hu hu2 hfl pz' nz (hS pz' nz hn.2.2 d3) hk.2.2 jz0 jz hz
  have hr : regionOf (roundedArith fl) s p = ⟨fl (k.x * s.sx), fl (k.y * s.sy), fl (k.z * s.sz)⟩ := by
    show (⟨fl (fl (⌊fl (p.x / s.sx)⌋ : K) * s.sx), fl (fl (⌊fl (p.y / s.sy)⌋ : K) * s.sy), fl (fl (⌊fl (p.z / s.sz)⌋ : K) * s.sz)⟩ : Region K) = _
    rw [x1, y1, z1, hk.1, hk.2.1, hk.2.2]
  refine ⟨hr, ?_⟩
  unfold placeOf
  dsimp only
  rw [hr, c1, c2, c3, hsn]
  have hfloor : ∀ a, (roundedArith fl).floor a = ⌊a⌋ := fun _ => rfl
  have hdiv : ∀ a b, (roundedArith fl).div a b = fl (a / b) := fun _ _ => rfl
  have hsub : ∀ a b, (roundedArith fl).sub a b = fl (a - b) := fun _ _ => rfl
  have hz0 : (roundedArith fl).ofInt 0 = 0 := f0
  simp only [hfloor, hdiv, hsub, hz0, x4, y4, z4]
  rw [if_pos ⟨⟨x2, x3⟩, ⟨y2, y3⟩, ⟨z2, z3⟩, ⟨jx0, jx⟩, ⟨jy0, jy⟩, jz0, jz⟩]

/-- C29, floating point: hence two such locations are treated as the same cell exactly if they are in the same cell, as long as
chunk numbers are well below `1/(2u)`. -/
theorem C29_rounded_same {fl : K → K} {u : K} (hu : 0 ≤ u) (hu2 : u ≤ 1 / 16) (hfl : RelErr fl u) {cx cy cz : K} {n : Cell}
    {s : Sizes K} (hs : mkSizes (roundedArith fl) cx cy cz n = .ok s) (hn : fl (n.x : K) = n.x ∧ fl (n.y : K) = n.y ∧ fl (n.z : K) = n.z)
    {p p' : Vec K} {k j k' j' : Cell} (hk : ∀ i : Int, i ∈ [k.x, k.y, k.z, k'.x, k'.y, k'.z] → fl (i : K) = i ∧ 2 * u * |(i : K)| < 1)
    (hj : InGrid n j) (hj' : InGrid n j')
    (hx : WellInside u s.sx cx p.x k.x j.x) (hy : WellInside u s.sy cy p.y k.y j.y) (hz : WellInside u s.sz cz p.z k.z j.z)
    (hx' : WellInside u s.sx cx p'.x k'.x j'.x) (hy' : WellInside u s.sy cy p'.y k'.y j'.y)
    (hz' : WellInside u s.sz cz p'.z k'.z j'.z) :
    (regionOf (roundedArith fl) s p = regionOf (roundedArith fl) s p' ↔ k = k') ∧
    (placeOf (roundedArith fl) s p = placeOf (roundedArith fl) s p' ↔ j = j') := by
  obtain ⟨r1, q1⟩ := C29_rounded_cell hu hu2 hfl hs hn
    ⟨(hk k.x (by simp)).1, (hk k.y (by simp)).1, (hk k.z (by simp)).1⟩ hj hx hy hz
  obtain ⟨r2, q2⟩ := C29_rounded_cell hu hu2 hfl hs hn
    ⟨(hk k'.x (by simp)).1, (hk k'.y (by simp)).1, (hk k'.z (by simp)).1⟩ hj' hx' hy' hz'
  obtain ⟨⟨nx, ny, nz⟩, ⟨px, py, pz⟩, hsn, _, _, _, c1, c2, c3, _, _, _, d1, d2, d3⟩ := mkSizes_ok hs
  have hSpos : ∀ {c S : K} {m : Int}, 0 < c → 0 < m → fl (m : K) = m → S = fl (fl (m : K) * c) → 0 < S := by
    intro c S m hc hm hmf he
    have hm' : (0 : K) < m := by exact_mod_cast hm
    have hp := mul_pos hm' hc
    rw [he, hmf]
    have := hfl (m * c)
    rw [abs_of_pos hp, abs_le] at this
    nlinarith [this.1]
  have inj : ∀ {S : K} {a b : Int}, 0 < S → 2 * u * |(a : K)| < 1 → 2 * u * |(b : K)| < 1 → fl (a * S) = fl (b * S) → a = b := by
    intro S a b hS ha hb he
    by_contra hne
    have h1 := hfl (a * S)
    have h2 := hfl (b * S)
    rw [abs_mul, abs_of_pos hS] at h1 h2
    have h3 : (1 : K) ≤ |(a : K) - b| := by
      have : (1 : Int) ≤ |a - b| := Int.one_le_abs (sub_ne_zero.mpr hne)
      exact_mod_cast this
    have h4 : |((a : K) - b) * S| = |(fl (b * S) - b * S) - (fl (a * S) - a * S)| := by rw [he]; congr 1; ring
    have h5 := abs_sub (fl (b * S) - b * S) (fl (a * S) - a * S)
    rw [← h4, abs_mul, abs_of_pos hS] at h5
    have h6 : u * (|(b : K)| * S) + u * (|(a : K)| * S) < S := by
      have : (u * |(b : K)| + u * |(a : K)|) * S < 1 * S := mul_lt_mul_of_pos_right (by linarith) hS
      nlinarith
    have h7 : 1 * S ≤ |(a : K) - b| * S := mul_le_mul_of_nonneg_right h3 hS.le
    linarith
  have S1 := hSpos (of_decide_eq_true px) nx hn.1 d1
  have S2 := hSpos (of_decide_eq_true py) ny hn.2.1 d2
  have S3 := hSpos (of_decide_eq_true pz) nz hn.2.2 d3
  constructor
  · rw [r1, r2]
    constructor
    · intro he
      have e1 := inj S1 (hk k.x (by simp)).2 (hk k'.x (by simp)).2 (congrArg Region.x he)
      have e2 := inj S2 (hk k.y (by simp)).2 (hk k'.y (by simp)).2 (congrArg Region.y he)
      have e3 := inj S3 (hk k.z (by simp)).2 (hk k'.z (by simp)).2 (congrArg Region.z he)
      cases k; cases k'; simp_all
    · rintro rfl; rfl
  · rw [q1, q2]
    simp

end Rounded

/-! ## Concrete cases -/

/-- Binary64 with any rule for ties: a grid of chunks of 2 x 3 x 4 cells of size 1. -/
example (fl : ℚ → ℚ) (hfl : Fl.Nearest 53 (-1074) fl) (ops : List (DOp ℚ Nat)) :
    ∃ s g, mkSizes (roundedArith fl) 1 1 1 ⟨2, 3, 4⟩ = .ok s ∧ newDGrid id s 7 = .ok g ∧ ∀ l,
      let im := ops.foldl (DOp.absA (roundedArith fl) s fun _ => true) (id, ⟨7, fun _ => none⟩)
      dGet (roundedArith fl) (ops.foldl (DOp.runA (roundedArith fl) fun _ => true) g) l = im.2.get (roundedArith fl) s (im.1 l) := by
  have hint : ∀ i : Int, |i| ≤ 2 ^ 53 → fl (i : ℚ) = i := fun i hi => hfl.fix (Fl.rep_int (by norm_num) (by norm_num) hi)
  have f2 : fl 2 = 2 := by simpa using hint 2 (by norm_num)
  have f3 : fl 3 = 3 := by simpa using hint 3 (by norm_num)
  have f4 : fl 4 = 4 := by simpa using hint 4 (by norm_num)
  have f0 : fl 0 = 0 := by simpa using hint 0 (by norm_num)
  have hmk : ∃ s, mkSizes (roundedArith fl) 1 1 1 ⟨2, 3, 4⟩ = .ok s := by
    unfold mkSizes initSizes
    rw [if_pos (by simp [roundedArith])]
    exact ⟨_, rfl⟩
  obtain ⟨s, hs⟩ := hmk
  obtain ⟨_, _, _, _, _, _, c1, c2, c3, _, _, _, d1, d2, d3⟩ := mkSizes_ok hs
  have e1 : s.sx = 2 := by rw [d1]; show fl (fl ((2 : Int) : ℚ) * 1) = 2; push_cast; rw [mul_one, f2, f2]
  have e2 : s.sy = 3 := by rw [d2]; show fl (fl ((3 : Int) : ℚ) * 1) = 3; push_cast; rw [mul_one, f3, f3]
  have e3 : s.sz = 4 := by rw [d3]; show fl (fl ((4 : Int) : ℚ) * 1) = 4; push_cast; rw [mul_one, f4, f4]
  have ho : NoOverflow (roundedArith fl) s := by
    apply noOverflow_rounded (fun _ _ h => hfl.mono h) f0
    · rw [c1]; norm_num
    · rw [c2]; norm_num
    · rw [c3]; norm_num
    · rw [c1, e1, div_one, f2]; norm_num
    · rw [c2, e2, div_one, f3]; norm_num
    · rw [c3, e3, div_one, f4]; norm_num
  obtain ⟨g, hg, h⟩ := C29_any_arithmetic hs (by unfold InI64 volume; decide) ho id 7 (fun _ => true) ops
  exact ⟨s, g, hs, hg, h⟩

/-- An arithmetic that is exact on halves of integers and off by the fraction 1/1024 otherwise. -/
example : ∃ (fl : ℚ → ℚ) (s : Sizes ℚ), RelErr fl (1/1024) ∧ fl (1/3) ≠ 1/3 ∧ mkSizes (roundedArith fl) 1 1 1 ⟨2, 3, 4⟩ = .ok s ∧
    placeOf (roundedArith fl) s ⟨-1/2, 7/2, 3/2, 1⟩ = some ⟨1, 0, 1⟩ := by
  let fl : ℚ → ℚ := fun x => if ((2 * x).den = 1) then x else x * (1025 / 1024)
  have hint : ∀ i : Int, fl (i : ℚ) = i := fun i => if_pos (by
    have : (2 * (i : ℚ)) = ((2 * i : Int) : ℚ) := by push_cast; ring
    rw [this]; exact Rat.den_intCast _)
  have hrel : RelErr fl (1/1024) := by
    intro x
    show |(if ((2 * x).den = 1) then x else x * (1025 / 1024)) - x| ≤ _
    split
    · rw [sub_self, abs_zero]; positivity
    · have : x * (1025 / 1024) - x = (1 / 1024) * x := by ring
      rw [this, abs_mul, abs_of_pos (show (0:ℚ) < 1 / 1024 by norm_num)]
  have hmk : ∃ s, mkSizes (roundedArith fl) 1 1 1 ⟨2, 3, 4⟩ = .ok s := by
    unfold mkSizes initSizes
    rw [if_pos (by simp [roundedArith])]
    exact ⟨_, rfl⟩
  obtain ⟨s, hs⟩ := hmk
  obtain ⟨_, _, _, _, _, _, c1, c2, c3, _, _, _, d1, d2, d3⟩ := mkSizes_ok hs
  have e1 : s.sx = 2 := by
    rw [d1]; show fl (fl ((2 : Int) : ℚ) * 1) = 2; rw [mul_one, hint, hint]; norm_num
  have e2 : s.sy = 3 := by
    rw [d2]; show fl (fl ((3 : Int) : ℚ) * 1) = 3; rw [mul_one, hint, hint]; norm_num
  have e3 : s.sz = 4 := by
    rw [d3]; show fl (fl ((4 : Int) : ℚ) * 1) = 4; rw [mul_one, hint, hint]; norm_num
  refine ⟨fl, s, hrel, ?_, hs, ?_⟩
  · show (if ((2 * (1 / 3 : ℚ)).den = 1) then (1 / 3 : ℚ) else (1 / 3) * (1025 / 1024)) ≠ 1 / 3
    have : (2 * (1 / 3 : ℚ)).den ≠ 1 := by
      intro h
      have hq := Rat.den_eq_one_iff _ |>.mp h
      have h3 : (3 : ℚ) * ((2 * (1 / 3 : ℚ)).num : ℚ) = 2 := by rw [hq]; norm_num
      have h4 : 3 * (2 * (1 / 3 : ℚ)).num = 2 := by exact_mod_cast h3
      omega
    rw [if_neg this]
    norm_num
  · refine (C29_rounded_cell (u := 1/1024) (by norm_num) (by norm_num) hrel hs ⟨hint _, hint _, hint _⟩
      (k := ⟨-1, 1, 0⟩) (j := ⟨1, 0, 1⟩) ⟨hint _, hint _, hint _⟩ (by decide) ?_ ?_ ?_).2
    · unfold WellInside; rw [e1]; norm_num [abs_div]
    · unfold WellInside; rw [e2]; norm_num [abs_div]
    · unfold WellInside; rw [e3]; norm_num [abs_div]

end CRU.Voxel
