import Verif.Voxel.Ser
import Verif.Voxel.DynamicProps
/-
  Model of the serialization of dynamic spatial hashed voxel grids
  (include/common_robotics_utilities/dynamic_spatial_hashed_voxel_grid.hpp:31-45, 256-383, 632-713, 822-846, 1088-1141).
-/
namespace CRU.Ser

variable {T A B : Type}

attribute [local irreducible] add64 mul64 diff64 mkDeserialized getValue allocate memRead memWrite

/-- `Res.ok_bind`, not to be used by definitional unfolding. -/
theorem ok_bind_nr (a : A) (f : A → Res B) : (Res.ok a >>= f) = f a := id rfl

/-- Undefined behaviour of the read implies `P` of the buffer. -/
def UbCursor (P : Buf → Prop) (c : Cursor T) : Prop :=
  ∀ (buf : Buf) (pos : Nat), buf.length < TWO63 → pos < TWO64 → c buf pos = .ub → P buf

/-- … of the deserializer. -/
def UbDeserializer (P : Buf → Prop) (de : Deserializer T) : Prop :=
  ∀ (buf : Buf) (pos : Nat), buf.length < TWO63 → pos < TWO64 → de buf pos = .ub → P buf

theorem SafeCursor.ub {c : Cursor T} (P : Buf → Prop) (h : SafeCursor c) : UbCursor P c :=
  fun buf pos hb hp hu => absurd hu (h buf pos hb hp).1

theorem ub_field {P : Buf → Prop} {de : Deserializer T} (h : UbDeserializer P de) : UbCursor P (field de) :=
  fun buf pos hb hp hu => h buf pos hb hp (Voxel.field_ub hu)

theorem ub_andThen {P : Buf → Prop} {c : Cursor A} {f : A → Cursor B} (hl : LocalCursor c) (hc : UbCursor P c)
    (hf : ∀ a, UbCursor P (f a)) : UbCursor P (c.andThen f) := by
  intro buf pos hb hp hu
  rcases Voxel.andThen_ub hu with h | ⟨a, p, h1, h2⟩
  · exact hc buf pos hb hp h
  · obtain ⟨g1, g2, _⟩ := hl buf pos hb hp a p h1
    refine hf a buf p hb ?_ h2
    by_cases h : pos < p
    · have := g2 h; omega
    · omega

theorem ub_finish {P : Buf → Prop} {c : Cursor T} (h : UbCursor P c) : UbDeserializer P (finish c) :=
  fun buf pos hb hp hu => h buf pos hb hp (Voxel.finish_ub hu)

theorem ub_check {P : Buf → Prop} (b : Bool) (e : Exc) {c : Cursor T} (h : UbCursor P c) : UbCursor P (Cursor.check b e c) := by
  cases b
  · intro buf pos _ _ h; cases h
  · exact h

/-- Reading `n` items, as a cursor. -/
theorem deItems_succ (di : Deserializer T) (n : Nat) : (fun buf pos => deItems di buf (n + 1) pos) =
    (field di).andThen fun x => Cursor.andThen (fun buf pos => deItems di buf n pos) fun xs => Cursor.done (x :: xs) := by
  funext buf pos
  simp only [Cursor.andThen, field, Cursor.done, deItems, bind_assoc, Res.pure_eq, ok_bind_nr]

theorem local_items {di : Deserializer T} (h : LocalDeserializer di) (n : Nat) :
    LocalCursor fun buf pos => deItems di buf n pos := by
  induction n with
  | zero => exact (safe_done ([] : List T)).local
  | succ n ih =>
    rw [deItems_succ]
    exact local_andThen (local_field h) fun _ => local_andThen ih fun _ => (safe_done _).local

theorem ub_items {P : Buf → Prop} {di : Deserializer T} (hl : LocalDeserializer di) (h : UbDeserializer P di) (n : Nat) :
    UbCursor P fun buf pos => deItems di buf n pos := by
  induction n with
  | zero => exact (safe_done ([] : List T)).ub P
  | succ n ih =>
    rw [deItems_succ]
    exact ub_andThen (local_field hl) (ub_field h) fun _ => ub_andThen (local_items hl n) ih fun _ => (safe_done _).ub P

theorem deContainer_record (hd : Deserializer Nat) (di : Deserializer T) (ins : T → List T → List T) :
    deContainer hd di ins = finish ((field hd).andThen fun n => Cursor.andThen (fun buf pos => deItems di buf n pos)
      fun xs => Cursor.done (insertAll ins xs [])) := by
  funext buf off
  simp only [deContainer, finish, Cursor.andThen, field, Cursor.done, bind_assoc, Res.pure_eq, ok_bind_nr]

theorem local_container {hd : Deserializer Nat} (hh : LocalDeserializer hd) {di : Deserializer T}
    (h : LocalDeserializer di) (ins : T → List T → List T) : LocalDeserializer (deContainer hd di ins) := by
  rw [deContainer_record]
  exact local_record hh fun n => local_andThen (local_items h n) fun _ => (safe_done _).local

theorem ub_container {P : Buf → Prop} {hd : Deserializer Nat} (hh : SafeDeserializer hd) {di : Deserializer T}
    (hl : LocalDeserializer di) (h : UbDeserializer P di) (ins : T → List T → List T) :
    UbDeserializer P (deContainer hd di ins) := by
  rw [deContainer_record]
  exact ub_finish (ub_andThen (safe_field hh).local ((safe_field hh).ub P) fun n =>
    ub_andThen (local_items hl n) (ub_items hl h n) fun _ => (safe_done _).ub P)

theorem dePair_record (da : Deserializer A) (db : Deserializer B) :
    dePair da db = finish ((field da).andThen fun a => (field db).andThen fun b => Cursor.done (a, b)) := by
  funext buf off
  simp only [dePair, finish, Cursor.andThen, field, Cursor.done, bind_assoc, Res.pure_eq, ok_bind_nr]

end CRU.Ser

namespace CRU.Voxel
open CRU.Ser

variable {K T M H : Type} [LinearOrder K]

attribute [local irreducible] add64 mul64 diff64 mkDeserialized getValue allocate memRead memWrite

/-- dynamic_spatial_hashed_voxel_grid.hpp:31-35 `ChunkRegion::Serialize`; `rv` is the representation of `Eigen::Vector4d`. -/
def serRegion (A : Arith K) (rv : Ser.Repr (Vec K)) : Serializer (Region K) :=
  fun r buf => serMem rv ⟨r.x, r.y, r.z, A.one⟩ buf

/-- dynamic_spatial_hashed_voxel_grid.hpp:37-44, 54-60 `ChunkRegion::Deserialize`. Coordinates are compared by `=`: the two zeros
are one value of `K`, NaN is not modelled. -/
def deRegion (A : Arith K) (rv : Ser.Repr (Vec K)) : Deserializer (Region K) := fun buf off => do
  let d ← deMem rv buf off
  let d ← getValue d
  if d.1.w = A.one then mkDeserialized ⟨d.1.x, d.1.y, d.1.z⟩ d.2 else .throw .invalidArgument

/-- dynamic_spatial_hashed_voxel_grid.hpp:171-177: a chunk as stored, with its own sizes; `fill` is the underlying byte of
`DSHVGFillStatus` (81): 0 not filled, 1 chunk-filled, 2 cell-filled. -/
structure SChunk (K T : Type) where
  region : Region K
  sizes : Sizes K
  data : List T
  fill : UInt8

/-- dynamic_spatial_hashed_voxel_grid.hpp:81. -/
def fillByte : Fill → UInt8
  | .notFilled => 0
  | .chunkFilled => 1
  | .cellFilled => 2

/-- dynamic_spatial_hashed_voxel_grid.hpp:81, 360-381: bytes other than 1 and 2 are treated as not filled. -/
def byteFill (b : UInt8) : Fill := if b = 2 then .cellFilled else if b = 1 then .chunkFilled else .notFilled

/-- dynamic_spatial_hashed_voxel_grid.hpp:258-264, 308-327 `DynamicSpatialHashedVoxelGridChunk::Serialize`. -/
def serChunk (A : Arith K) (little : Bool) (rv : Ser.Repr (Vec K)) (rk : Ser.Repr K) (sv : Serializer T) : Serializer (SChunk K T) :=
  wrote fun c => seqW (put (serRegion A rv) c.region) (seqW (put (serSizes little rk) c.sizes)
    (seqW (put (serSeq (serU64 little) sv) c.data) (put (serMem byteRepr) c.fill)))

/-- dynamic_spatial_hashed_voxel_grid.hpp:357-379, the safety checks. -/
def chunkCheck (s : Sizes K) (data : List T) (f : UInt8) : Res Unit :=
  if f = 2 then do
    let n ← s.totalCells
    if (data.length : Int) ≠ n then .throw .runtimeError else pure ()
  else if f = 1 then (if data.length ≠ 1 then .throw .runtimeError else pure ())
  else if data.length ≠ 0 then .throw .runtimeError else pure ()

/-- dynamic_spatial_hashed_voxel_grid.hpp:266-277, 329-383 `DynamicSpatialHashedVoxelGridChunk::Deserialize`. -/
def deChunk (A : Arith K) (little : Bool) (rv : Ser.Repr (Vec K)) (rk : Ser.Repr K) (esz : Nat) (dv : Deserializer T) :
    Deserializer (SChunk K T) :=
  finish <| (field (deRegion A rv)).andThen fun r => (field (deSizes A little rk)).andThen fun s =>
    (field (deSeq (deU64 little) esz dv)).andThen fun data => (field (deMem byteRepr)).andThen fun f =>
    (Cursor.lift (chunkCheck s data f)).andThen fun _ => Cursor.done ⟨r, s, data, f⟩

/-- dynamic_spatial_hashed_voxel_grid.hpp:623-630: the stored members; the hash map is the list of its entries in iteration
order. -/
structure StoredD (M K T : Type) where
  origin : M
  inv : Vec K → Vec K
  default : T
  sizes : Sizes K
  chunks : List (Region K × SChunk K T)
  initialized : Bool

/-- dynamic_spatial_hashed_voxel_grid.hpp:632-658, 822-828, 1088-1095, 1112-1118 `DynamicSpatialHashedVoxelGrid::Serialize`. -/
def serD (A : Arith K) (little : Bool) (rm : Ser.Repr M) (rv : Ser.Repr (Vec K)) (rk : Ser.Repr K) (sv : Serializer T) :
    Serializer (StoredD M K T) :=
  wrote fun s => seqW (put (serMem rm) s.origin) (seqW (put sv s.default) (seqW (put (serSizes little rk) s.sizes)
    (seqW (put (serSeq (serU64 little) (serPair (serRegion A rv) (serChunk A little rv rk sv))) s.chunks)
      (put (serMem byteRepr) (if s.initialized then 1 else 0)))))

/-- dynamic_spatial_hashed_voxel_grid.hpp:660-713, 830-843, 1097-1105, 1120-1131 `DynamicSpatialHashedVoxelGrid::Deserialize`;
`ins` is `insert` of the hash map, `invOf` Eigen's `inverse()`. -/
def deD (A : Arith K) (little : Bool) (rm : Ser.Repr M) (rv : Ser.Repr (Vec K)) (rk : Ser.Repr K) (invOf : M → Vec K → Vec K)
    (esz : Nat) (ins : Region K × SChunk K T → List (Region K × SChunk K T) → List (Region K × SChunk K T)) (dv : Deserializer T) :
    Deserializer (StoredD M K T) :=
  finish <| (field (deMem rm)).andThen fun org => (field dv).andThen fun d => (field (deSizes A little rk)).andThen fun s =>
    (field (deContainer (deU64 little) (dePair (deRegion A rv) (deChunk A little rv rk esz dv)) ins)).andThen fun cs =>
    (field (deMem byteRepr)).andThen fun b => Cursor.check (s.valid == (b != 0)) .runtimeError <|
    Cursor.check (decide (cs.length = 0) || s.valid) .runtimeError <|
    Cursor.done ⟨org, invOf org, d, s, cs, b != 0⟩

/-- Insertion into a hash map (an existing key is left alone). -/
structure HashInsert (ins : Region K × SChunk K T → List (Region K × SChunk K T) → List (Region K × SChunk K T)) : Prop where
  fresh : ∀ x c, (∀ y ∈ c, y.1 ≠ x.1) → (ins x c).Perm (x :: c)
  present : ∀ x c, (∃ y ∈ c, y.1 = x.1) → (ins x c).Perm c

/-- The grid that the stored members represent (the chunks' own sizes are dropped). -/
def StoredD.view (s : StoredD M K T) : DGrid K T :=
  ⟨s.inv, s.default, s.sizes, fun r => (s.chunks.find? fun e => e.1 = r).map fun e => ⟨e.2.region, e.2.data, byteFill e.2.fill⟩⟩

/-! ### Round trip -/

theorem rt_region (A : Arith K) (rv : Ser.Repr (Vec K)) (r : Region K) : RoundTrips (serRegion A rv) (deRegion A rv) r := by
  obtain ⟨enc, ne, s, d⟩ := rt_mem rv ⟨r.x, r.y, r.z, A.one⟩
  have hp : 0 < enc.length := List.length_pos_iff.mpr ne
  refine ⟨enc, ne, s, fun pre post hl => ?_⟩
  obtain ⟨y, hy, rfl⟩ := d pre post hl
  refine ⟨r, ?_, rfl⟩
  unfold deRegion
  rw [hy, Res.ok_bind, getValue_ok (by dsimp only; omega), Res.ok_bind, if_pos rfl, mkD_ok (by dsimp only; omega)]

theorem rt_chunk (A : Arith K) (l : Bool) (rv : Ser.Repr (Vec K)) (rk : Ser.Repr K) (esz : Nat) (sv : Serializer T)
    (dv : Deserializer T) (c : SChunk K T) (hs : Reloads A c.sizes) (hc : chunkCheck c.sizes c.data c.fill = .ok ())
    (hv : ∀ v ∈ c.data, RoundTrips sv dv v) (hl : c.data.length < TWO63) (hm : c.data.length * esz < TWO63) :
    RoundTrips (serChunk A l rv rk sv) (deChunk A l rv rk esz dv) c := by
  refine rt_record (x1 := c.region) (rt_region A rv c.region) ?_ rfl
  refine wr_seq_eq (wr_field (rt_sizes l rk hs)) <|
    wr_seq_eq (wr_field (rt_list (header_good l) esz sv dv c.data hm (by omega) hv)) ?_
  have hw := wr_seq_eq (wr_field (rt_mem byteRepr c.fill)) (Q := fun y => y = c)
    (f := fun f => (Cursor.lift (chunkCheck c.sizes c.data f)).andThen fun _ => Cursor.done (⟨c.region, c.sizes, c.data, f⟩ : SChunk K T))
    (wb := fun b => .ok b) (by
      rw [hc]
      exact wr_lift (wr_done _ _ rfl))
  have e : seqW (put (serMem byteRepr) c.fill) (fun b => Res.ok b) = put (serMem byteRepr) c.fill := by
    funext b'; unfold seqW; cases put (serMem byteRepr) c.fill b' <;> rfl
  rwa [e] at hw

/-- What the members of a grid satisfy. -/
structure ConsistentD (invOf : M → Vec K → Vec K) (s : StoredD M K T) : Prop where
  init : s.initialized = s.sizes.valid
  inv : s.inv = invOf s.origin
  empty : s.sizes.valid = false → s.chunks = []
  keys : (s.chunks.map (·.1)).Nodup
  chunk : ∀ e ∈ s.chunks, chunkCheck e.2.sizes e.2.data e.2.fill = .ok ()

/-- The same grid up to the iteration order of the hash map. -/
def SameD (a b : StoredD M K T) : Prop :=
  a.origin = b.origin ∧ a.inv = b.inv ∧ a.default = b.default ∧ a.sizes = b.sizes ∧ a.chunks.Perm b.chunks ∧
  a.initialized = b.initialized

/-- **C84** A consistent grid whose sizes are recomputed from the stored numbers and whose values round-trip, round-trips up to
the order of its chunks. -/
theorem C84_round_trip (A : Arith K) (l : Bool) (rm : Ser.Repr M) (rv : Ser.Repr (Vec K)) (rk : Ser.Repr K)
    (invOf : M → Vec K → Vec K) (esz : Nat) (ins) (hins : HashInsert (K := K) (T := T) ins) (sv : Serializer T)
    (dv : Deserializer T) (s : StoredD M K T) (hc : ConsistentD invOf s) (hs : Reloads A s.sizes)
    (hcs : ∀ e ∈ s.chunks, Reloads A e.2.sizes ∧ e.2.data.length < TWO63 ∧ e.2.data.length * esz < TWO63 ∧
      ∀ v ∈ e.2.data, RoundTrips sv dv v) (hd : RoundTrips sv dv s.default) (hn : s.chunks.length < TWO64) :
    RoundTripsUpTo SameD (serD A l rm rv rk sv) (deD A l rm rv rk invOf esz ins dv) s := by
  refine rt_record (x1 := s.origin) (rt_mem rm s.origin) ?_ rfl
  refine wr_seq_eq (wr_field hd) <| wr_seq_eq (wr_field (rt_sizes l rk hs)) ?_
  have hcont : RoundTripsUpTo List.Perm (serSeq (serU64 l) (serPair (serRegion A rv) (serChunk A l rv rk sv)))
      (deContainer (deU64 l) (dePair (deRegion A rv) (deChunk A l rv rk esz dv)) ins) s.chunks :=
    rt_container (header_good l) _ _ ins List.Perm s.chunks hn
      (insertAll_perm (fun e => e.1) ins hins.fresh s.chunks hc.keys) (fun e he => by
        obtain ⟨h1, h2, h3, h4⟩ := hcs e he
        have := rt_pair Eq Eq _ _ _ _ e (rt_region A rv e.1) (rt_chunk A l rv rk esz sv dv e.2 h1 (hc.chunk e he) h4 h2 h3)
        obtain ⟨enc, ne, a, b⟩ := this
        refine ⟨enc, ne, a, fun pre post hl => ?_⟩
        obtain ⟨y, hy, h⟩ := b pre post hl
        exact ⟨y, hy, Prod.ext h.1 h.2⟩)
  refine wr_seq (P := fun cs => cs.Perm s.chunks) (wr_field hcont) ?_
  have hbit : ((if s.initialized then (1 : UInt8) else 0) != 0) = s.initialized := by cases s.initialized <;> rfl
  obtain ⟨e, w, d⟩ := wr_field (rt_mem byteRepr (if s.initialized then (1 : UInt8) else 0))
  refine ⟨e, w, fun cs hp pre post hl => ?_⟩
  obtain ⟨y, hy, rfl⟩ := d pre post hl
  have hlen : (decide (cs.length = 0) || s.sizes.valid) = true := by
    cases hv : s.sizes.valid with
    | true => simp
    | false => rw [hp.length_eq, hc.empty hv]; rfl
  refine ⟨⟨s.origin, invOf s.origin, s.default, s.sizes, cs, s.initialized⟩, ?_, rfl, hc.inv.symm, rfl, rfl, hp, rfl⟩
  unfold Cursor.andThen
  rw [hy, Res.ok_bind]
  dsimp only
  rw [hbit, hlen, ← hc.init, beq_self_eq_true]
  rfl

/-! ### Histories -/

/-- A call of the interface of a dynamic grid. -/
inductive DCall (K T : Type) where
  | set (l : Vec K) (lvl : Level) (v : T)
  | write (l : Vec K) (v : T)
  | setDefault (v : T)
  | updateOrigin (inv : Vec K → Vec K)

/-- dynamic_spatial_hashed_voxel_grid.hpp:890-1019 (`SetLocation*`, `GetLocationMutable*` followed by an assignment), 1033
`SetDefaultValue`, 1048 `UpdateOriginTransform`; a call may also fail, what it changed before stays changed. -/
def DCall.run (A : Arith K) (hook : DHook H K) (hg : H × DGrid K T) : DCall K T → H × DGrid K T
  | .set l lvl v => (dSet A hook hg l lvl v).1
  | .write l v => (dWrite A hook hg l v).1
  | .setDefault v => (hg.1, { hg.2 with default := v })
  | .updateOrigin inv => (hg.1, { hg.2 with inv := inv })

/-- A chunk as the constructor and the setters leave it. -/
def GoodChunk (s : Sizes K) (c : Chunk K T) : Prop :=
  (c.fill = .chunkFilled ∧ c.data.length = 1) ∨ (c.fill = .cellFilled ∧ s.totalCells = .ok (c.data.length : Int))

/-- What calls keep. -/
structure Kept (s : Sizes K) (g : DGrid K T) : Prop where
  sizes : g.sizes = s
  chunk : ∀ r c, g.chunks r = some c → c.region = r ∧ GoodChunk s c
  finite : ∃ ks : List (Region K), ∀ r c, g.chunks r = some c → r ∈ ks

theorem kept_put {s : Sizes K} {g : DGrid K T} (h : Kept s g) {r : Region K} {c : Chunk K T} (hr : c.region = r)
    (hc : GoodChunk s c) : Kept s { g with chunks := putChunk g.chunks r c } := by
  obtain ⟨ks, hk⟩ := h.finite
  refine ⟨h.sizes, fun r' c' he => ?_, r :: ks, fun r' c' he => ?_⟩ <;> dsimp only [putChunk] at he <;> split at he
  · rename_i hrr; cases he; exact ⟨hrr ▸ hr, hc⟩
  · exact h.chunk r' c' he
  · rename_i hrr; rw [hrr]; exact List.mem_cons_self
  · exact List.mem_cons_of_mem _ (hk r' c' he)

omit [LinearOrder K] in
theorem fillCells_good {s : Sizes K} {c c' : Chunk K T} {v : T} (h : fillCells s c v = .ok c') :
    c'.region = c.region ∧ GoodChunk s c' := by
  unfold fillCells at h
  obtain ⟨n, hn, h⟩ := Res.bind_eq_ok.mp h
  split at h
  · cases h
  · cases h
    refine ⟨rfl, .inr ⟨rfl, ?_⟩⟩
    dsimp only
    rw [hn, List.length_replicate]
    congr 1
    omega

omit [LinearOrder K] in
theorem good_set {s : Sizes K} {c : Chunk K T} (h : GoodChunk s c) (i : Nat) (v : T) : GoodChunk s { c with data := c.data.set i v } := by
  unfold GoodChunk
  dsimp only
  rw [List.length_set]
  exact h

theorem chunkSetCell_good {A : Arith K} {s : Sizes K} {c : Chunk K T} (h : GoodChunk s c) (l : Vec K) (v : T) :
    (chunkSetCell A s c l v).1.region = c.region ∧ GoodChunk s (chunkSetCell A s c l v).1 := by
  have hexp : ∀ c' : Chunk K T, (match c.fill with
      | .chunkFilled => do
        let i ← access c.data 0
        let v0 ← atRaw c.data i
        fillCells s c v0
      | _ => .ok c) = .ok c' → c'.region = c.region ∧ GoodChunk s c' := by
    intro c' he
    split at he
    · obtain ⟨i, _, he⟩ := Res.bind_eq_ok.mp he
      obtain ⟨v0, _, he⟩ := Res.bind_eq_ok.mp he
      exact fillCells_good he
    · cases he; exact ⟨rfl, h⟩
  unfold chunkSetCell
  dsimp only
  split
  · rename_i c' he
    obtain ⟨h1, h2⟩ := hexp c' he
    repeat' split
    all_goals first | exact ⟨h1, h2⟩ | exact ⟨h1, good_set h2 _ _⟩
  · exact ⟨rfl, h⟩
  · exact ⟨rfl, h⟩

omit [LinearOrder K] in
theorem chunkSetChunk_good {s : Sizes K} {c : Chunk K T} (h : GoodChunk s c) (v : T) :
    (chunkSetChunk c v).1.region = c.region ∧ GoodChunk s (chunkSetChunk c v).1 := by
  unfold chunkSetChunk
  split
  · exact ⟨rfl, .inl ⟨rfl, rfl⟩⟩
  · exact ⟨rfl, h⟩

omit [LinearOrder K] in
theorem newChunk_good {s : Sizes K} {r : Region K} {lvl : Level} {v : T} {c : Chunk K T} (h : newChunk s r lvl v = .ok c) :
    c.region = r ∧ GoodChunk s c := by
  unfold newChunk at h
  split at h
  · split at h
    · exact fillCells_good h
    · cases h; exact ⟨rfl, .inl ⟨rfl, rfl⟩⟩
  · cases h

theorem dSetOnce_kept {A : Arith K} {hook : DHook H K} {s : Sizes K} {hg : H × DGrid K T} (h : Kept s hg.2) (l : Vec K) (lvl : Level)
    (v : T) : Kept s (dSetOnce A hook hg l lvl v).1.2 := by
  obtain ⟨h0, g⟩ := hg
  dsimp only at h
  unfold dSetOnce
  dsimp only
  split
  · split
    · rename_i r hr
      split
      · rename_i c hc
        obtain ⟨hrc, hgc⟩ := h.chunk r c hc
        have hgood : ∀ p : Chunk K T × Res Level, p = (match lvl with
            | .cell => chunkSetCell A g.sizes c (g.inv l) v
            | .chunk => chunkSetChunk c v) → p.1.region = r ∧ GoodChunk s p.1 := by
          intro p hp
          subst hp
          cases lvl with
          | cell =>
            have := chunkSetCell_good (A := A) (h.sizes.symm ▸ hgc : GoodChunk g.sizes c) (g.inv l) v
            rw [h.sizes] at this ⊢
            exact ⟨this.1.trans hrc, this.2⟩
          | chunk =>
            have := chunkSetChunk_good hgc v
            exact ⟨this.1.trans hrc, this.2⟩
        obtain ⟨a, b⟩ := hgood _ rfl
        split <;> exact kept_put h a b
      · rename_i hc
        split
        · rename_i c hn
          rw [h.sizes] at hn
          obtain ⟨a, b⟩ := newChunk_good hn
          exact kept_put h a b
        · exact h
        · exact h
    · exact h
    · exact h
  · exact h

theorem dSet_kept {A : Arith K} {hook : DHook H K} {s : Sizes K} {hg : H × DGrid K T} (h : Kept s hg.2) (l : Vec K) (lvl : Level)
    (v : T) : Kept s (dSet A hook hg l lvl v).1.2 := by
  have h1 := dSetOnce_kept (A := A) (hook := hook) h l lvl v
  unfold dSet
  split
  · rename_i he; rw [he] at h1; exact h1
  · rename_i he; rw [he] at h1; exact h1
  · rename_i he; rw [he] at h1; exact h1
  · rename_i hg' _ he
    rw [he] at h1
    have h2 := dSetOnce_kept (A := A) (hook := hook) h1 l lvl v
    split <;> rename_i he2 <;> rw [he2] at h2 <;> exact h2

theorem dWrite_kept {A : Arith K} {hook : DHook H K} {s : Sizes K} {hg : H × DGrid K T} (h : Kept s hg.2) (l : Vec K) (v : T) :
    Kept s (dWrite A hook hg l v).1.2 := by
  obtain ⟨h0, g⟩ := hg
  dsimp only at h
  unfold dWrite
  dsimp only
  split
  · rename_i r hr
    split
    · rename_i c hc
      obtain ⟨hrc, hgc⟩ := h.chunk r c hc
      split
      · split
        · exact kept_put h hrc (good_set hgc _ _)
        · exact h
        · exact h
      · exact h
    · exact h
  · exact h
  · exact h

theorem call_kept {A : Arith K} {hook : DHook H K} {s : Sizes K} {hg : H × DGrid K T} (h : Kept s hg.2) (op : DCall K T) :
    Kept s (op.run A hook hg).2 := by
  cases op with
  | set l lvl v => exact dSet_kept h l lvl v
  | write l v => exact dWrite_kept h l v
  | setDefault v => exact ⟨h.sizes, h.chunk, h.finite⟩
  | updateOrigin inv => exact ⟨h.sizes, h.chunk, h.finite⟩

theorem history_kept {A : Arith K} {hook : DHook H K} {s : Sizes K} (ops : List (DCall K T)) : ∀ {hg : H × DGrid K T}, Kept s hg.2 →
    Kept s (ops.foldl (DCall.run A hook) hg).2 := by
  induction ops with
  | nil => exact fun h => h
  | cons op ops ih => exact fun h => ih (call_kept h op)

/-- `cs` lists the entries of the hash map of `g`, in some order. -/
structure Lists (g : DGrid K T) (cs : List (Region K × SChunk K T)) : Prop where
  keys : (cs.map (·.1)).Nodup
  mem : ∀ e, e ∈ cs ↔ ∃ c, g.chunks e.1 = some c ∧ e.2 = ⟨c.region, g.sizes, c.data, fillByte c.fill⟩

/-- Every grid a history leads to has such a list (finitely many chunks). -/
theorem kept_lists {s : Sizes K} {g : DGrid K T} (h : Kept s g) : ∃ cs, Lists g cs := by
  obtain ⟨ks, hk⟩ := h.finite
  have hnd := List.nodup_dedup ks
  have hk' : ∀ r c, g.chunks r = some c → r ∈ ks.dedup := fun r c he => List.mem_dedup.mpr (hk r c he)
  generalize ks.dedup = ks' at hnd hk'
  refine ⟨ks'.filterMap fun r => (g.chunks r).map fun c => (r, ⟨c.region, g.sizes, c.data, fillByte c.fill⟩), ?_, fun e => ?_⟩
  · clear hk hk'
    induction ks' with
    | nil => simp
    | cons k ks' ih =>
      rw [List.nodup_cons] at hnd
      rw [List.filterMap_cons]
      cases hg : g.chunks k with
      | none => simpa using ih hnd.2
      | some c =>
        simp only [Option.map_some, List.map_cons, List.nodup_cons]
        refine ⟨?_, ih hnd.2⟩
        intro hm
        obtain ⟨e, he, hek⟩ := List.mem_map.mp hm
        obtain ⟨r, hr, hre⟩ := List.mem_filterMap.mp he
        obtain ⟨c', _, rfl⟩ := Option.map_eq_some_iff.mp hre
        dsimp only at hek
        exact hnd.1 (hek ▸ hr)
  · rw [List.mem_filterMap]
    constructor
    · rintro ⟨r, hr, hre⟩
      obtain ⟨c, hc, rfl⟩ := Option.map_eq_some_iff.mp hre
      exact ⟨c, hc, rfl⟩
    · rintro ⟨c, hc, he⟩
      refine ⟨e.1, hk' _ _ hc, ?_⟩
      rw [hc, Option.map_some, ← he]

theorem find_key {V : Type} {cs : List (Region K × V)} (hn : (cs.map (·.1)).Nodup) {e : Region K × V} (he : e ∈ cs) :
    cs.find? (fun x => x.1 = e.1) = some e := by
  induction cs with
  | nil => cases he
  | cons a cs ih =>
    rw [List.map_cons, List.nodup_cons] at hn
    rw [List.find?_cons]
    rcases List.mem_cons.mp he with rfl | hm
    · simp
    · have : a.1 ≠ e.1 := fun h => hn.1 (h ▸ List.mem_map_of_mem hm)
      simp only [this, decide_false]
      exact ih hn.2 hm

theorem byteFill_fillByte (f : Fill) : byteFill (fillByte f) = f := by cases f <;> rfl

/-- The stored members of `g` represent `g`. -/
theorem view_of_lists {g : DGrid K T} {y : StoredD M K T} (h : Lists g y.chunks) (hi : y.inv = g.inv) (hd : y.default = g.default)
    (hs : y.sizes = g.sizes) : y.view = g := by
  unfold StoredD.view
  rw [hi, hd, hs]
  have : (fun r => (y.chunks.find? fun e => e.1 = r).map fun e => (⟨e.2.region, e.2.data, byteFill e.2.fill⟩ : Chunk K T)) = g.chunks := by
    funext r
    cases hg : g.chunks r with
    | none =>
      rw [Option.map_eq_none_iff, List.find?_eq_none]
      intro e he
      obtain ⟨c, hc, _⟩ := (h.mem e).mp he
      simp only [decide_eq_true_eq]
      intro hr
      rw [hr, hg] at hc
      cases hc
    | some c =>
      have hm := (h.mem (r, ⟨c.region, g.sizes, c.data, fillByte c.fill⟩)).mpr ⟨c, hg, rfl⟩
      have hf := find_key h.keys hm
      dsimp only at hf
      rw [hf, Option.map_some]
      dsimp only
      rw [byteFill_fillByte]
  rw [this]

/-- **C84** A dynamic grid created with any valid chunk sizes and default value, after any history of modifications (with any
hook, any locations, successful, refused or failed), can be listed, and for every iteration order of its chunks serializes and
deserializes to the same grid, provided its chunks and their number fit in memory. -/
theorem C84_history_round_trip (A : Arith K) (l : Bool) (rm : Ser.Repr M) (rv : Ser.Repr (Vec K)) (rk : Ser.Repr K)
    (invOf : M → Vec K → Vec K) (esz : Nat) (ins) (hins : HashInsert (K := K) (T := T) ins) (sv : Serializer T)
    (dv : Deserializer T) (hv : ∀ v, RoundTrips sv dv v) {cx cy cz : K} {n : Cell} {sz : Sizes K}
    (hs : mkSizes A cx cy cz n = .ok sz) (hx : InI64 n.x) (hy : InI64 n.y) (hz : InI64 n.z) (inv : Vec K → Vec K) (default : T)
    (hook : DHook H K) (h0 : H) (ops : List (DCall K T)) :
    ∃ g0, newDGrid inv sz default = .ok g0 ∧ ∀ g, g = (ops.foldl (DCall.run A hook) (h0, g0)).2 →
      (∃ cs, Lists g cs) ∧ ∀ (cs : List (Region K × SChunk K T)) (org : M), Lists g cs → g.inv = invOf org →
        cs.length < TWO64 → (∀ r c, g.chunks r = some c → c.data.length < TWO63 ∧ c.data.length * esz < TWO63) →
        RoundTripsUpTo (fun y x => SameD y x ∧ y.view = g) (serD A l rm rv rk sv) (deD A l rm rv rk invOf esz ins dv)
          ⟨org, g.inv, g.default, g.sizes, cs, true⟩ := by
  have hvalid : sz.valid = true := (mkSizes_ok hs).2.2.2.2.2.1
  refine ⟨⟨inv, default, sz, fun _ => none⟩, by unfold newDGrid; rw [if_pos hvalid], fun g hg => ?_⟩
  have hk : Kept sz g := by
    rw [hg]
    exact history_kept ops ⟨rfl, fun r c h => (by cases h), ⟨[], fun r c h => (by cases h)⟩⟩
  refine ⟨kept_lists hk, fun cs org hl hi hn hm => ?_⟩
  have hre := reloads_of_mk hs hx hy hz
  have hrt := C84_round_trip A l rm rv rk invOf esz ins hins sv dv ⟨org, g.inv, g.default, g.sizes, cs, true⟩
    ⟨by dsimp only; rw [hk.sizes, hvalid], hi, by dsimp only; rw [hk.sizes, hvalid]; simp, hl.keys, fun e he => by
      obtain ⟨c, hc, he2⟩ := (hl.mem e).mp he
      rw [he2, hk.sizes]
      rcases (hk.chunk _ _ hc).2 with ⟨hf, hlen⟩ | ⟨hf, hlen⟩
      · unfold chunkCheck; dsimp only; rw [hf]; simp [fillByte, hlen]
      · unfold chunkCheck; dsimp only; rw [hf, hlen]; simp [fillByte]⟩
    (by dsimp only; rw [hk.sizes]; exact hre)
    (fun e he => by
      obtain ⟨c, hc, he2⟩ := (hl.mem e).mp he
      rw [he2, hk.sizes]
      obtain ⟨a, b⟩ := hm _ _ hc
      exact ⟨hre, a, b, fun v _ => hv v⟩) (hv _) hn
  obtain ⟨enc, ne, s, d⟩ := hrt
  refine ⟨enc, ne, s, fun pre post hlen => ?_⟩
  obtain ⟨y, hy', hsame⟩ := d pre post hlen
  refine ⟨y, hy', hsame, ?_⟩
  obtain ⟨_, e2, e3, e4, e5, _⟩ := hsame
  refine view_of_lists ⟨?_, fun e => ?_⟩ e2 e3 e4
  · exact ((e5.map (·.1)).nodup_iff).mpr hl.keys
  · rw [e5.mem_iff]; exact hl.mem e

/-! ### Arbitrary bytes -/

theorem safe_region (A : Arith K) (rv : Ser.Repr (Vec K)) : SafeDeserializer (deRegion A rv) := by
  intro buf off hb ho
  have hs := safe_deMem rv buf off hb ho
  cases hd : deMem rv buf off with
  | ub => exact absurd hd hs.1
  | throw e =>
    have he : deRegion A rv buf off = .throw e := by unfold deRegion; rw [hd]; rfl
    rw [he]
    exact ⟨by simp, fun v n h => by cases h⟩
  | ok d =>
    obtain ⟨v, n⟩ := d
    obtain ⟨h1, h2, h3⟩ := hs.2 v n hd
    have he : ∀ b : Buf, deMem rv b off = .ok (v, n) → deRegion A rv b off =
        if v.w = A.one then .ok (⟨v.x, v.y, v.z⟩, n) else .throw .invalidArgument := by
      intro b hb'
      unfold deRegion
      rw [hb', Res.ok_bind, getValue_ok (by dsimp only; omega), Res.ok_bind]
      dsimp only
      rw [mkD_ok (by omega)]
    rw [he buf hd]
    split
    · rename_i hw
      refine ⟨by simp, fun v' n' h => ?_⟩
      cases h
      refine ⟨h1, h2, fun buf' hb' hl hag => ?_⟩
      rw [he buf' (h3 buf' hb' hl hag), if_pos hw]
    · exact ⟨by simp, fun v' n' h => by cases h⟩

theorem local_deChunk (A : Arith K) (l : Bool) (rv : Ser.Repr (Vec K)) (rk : Ser.Repr K) (esz : Nat) (dv : Deserializer T)
    (hdv : SafeDeserializer dv) : LocalDeserializer (deChunk A l rv rk esz dv) :=
  local_record (safe_region A rv).local fun _ => local_andThen (local_field (local_deSizes A l rk)) fun _ =>
    local_andThen (safe_field (safe_seq (header_safe l) esz hdv)).local fun _ =>
    local_andThen (safe_field (safe_deMem byteRepr)).local fun _ => local_andThen (local_lift _) fun _ => (safe_done _).local

/-- **C84** On every buffer and offset a successful deserialization reports a positive number of bytes, all inside the buffer,
and its result depends on those bytes only. -/
theorem C84_bounds (A : Arith K) (l : Bool) (rm : Ser.Repr M) (rv : Ser.Repr (Vec K)) (rk : Ser.Repr K) (invOf : M → Vec K → Vec K)
    (esz : Nat) (ins : Region K × SChunk K T → List (Region K × SChunk K T) → List (Region K × SChunk K T)) (dv : Deserializer T)
    (hdv : SafeDeserializer dv) : LocalDeserializer (deD A l rm rv rk invOf esz ins dv) :=
  local_record (safe_deMem rm).local fun _ => local_andThen (safe_field hdv).local fun _ =>
    local_andThen (local_field (local_deSizes A l rk)) fun _ => local_andThen (local_field (local_container (header_safe l).local (by
      rw [dePair_record]
      exact local_record (safe_region A rv).local fun _ =>
        local_andThen (local_field (local_deChunk A l rv rk esz dv hdv)) fun _ => (safe_done _).local) ins)) fun _ =>
    local_andThen (safe_field (safe_deMem byteRepr)).local fun _ => local_check _ _ <| local_check _ _ (safe_done _).local

omit [LinearOrder K] in
theorem ub_deSizes (A : Arith K) (l : Bool) (rk : Ser.Repr K) : UbDeserializer (OverflowingCounts l rk) (deSizes A l rk) := by
  intro buf pos hb hp h
  rcases andThen_ub (finish_ub h) with h | ⟨r, q, hr, h⟩
  · exact absurd h (safe_rawSizes l rk buf pos hb hp).1
  · obtain ⟨⟨a, b, c⟩, hov⟩ := initSizes_ub (reinit_ub (lift_eq_ub h))
    exact ⟨pos, r, q, hr, a, b, c, .inl hov⟩

omit [LinearOrder K] in
/-- Reading sizes and then something else: undefined behaviour of the rest may use that the sizes were read. -/
theorem ub_sizes_then (A : Arith K) (l : Bool) (rk : Ser.Repr K) {f : Sizes K → Cursor T}
    (hf : ∀ s : Sizes K, UbCursor (fun buf => OverflowingCounts l rk buf ∨ s.totalCells = .ub) (f s)) :
    UbCursor (OverflowingCounts l rk) ((field (deSizes A l rk)).andThen f) := by
  intro buf pos hb hp h
  rcases andThen_ub h with h | ⟨s, p, hs, h⟩
  · exact ub_deSizes A l rk buf pos hb hp (field_ub h)
  · obtain ⟨r, q, hr, hre⟩ := deSizes_from hs
    obtain ⟨g1, g2, _⟩ := local_field (local_deSizes A l rk) buf pos hb hp s p hs
    have hp' : p < TWO64 := by
      by_cases h : pos < p
      · have := g2 h; omega
      · omega
    rcases hf s buf p hb hp' h with h | h
    · exact h
    · have hov := totalCells_ub h
      rcases reinit_cases hre with hm | hd
      · obtain ⟨⟨a, b, c⟩, _, hnn, _⟩ := mkSizes_ok hm
        rw [hnn] at hov
        exact ⟨pos, r, q, hr, a, b, c, .inr hov⟩
      · subst hd
        exfalso
        rcases hov with hov | hov <;> exact hov (by show InI64 0; decide)

omit [LinearOrder K] in
theorem ub_check_lift {P : Buf → Prop} (s : Sizes K) (data : List T) (f : UInt8) :
    UbCursor (fun buf => P buf ∨ s.totalCells = .ub) (Cursor.lift (chunkCheck s data f)) := by
  intro buf pos _ _ h
  right
  have h := lift_eq_ub h
  unfold chunkCheck at h
  split at h
  · cases ht : s.totalCells with
    | ub => rfl
    | throw e => rw [ht] at h; cases h
    | ok n =>
      rw [ht, Res.ok_bind] at h
      split at h <;> cases h
  · repeat' split at h
    all_goals cases h

theorem ub_deChunk (A : Arith K) (l : Bool) (rv : Ser.Repr (Vec K)) (rk : Ser.Repr K) (esz : Nat) (dv : Deserializer T)
    (hdv : SafeDeserializer dv) : UbDeserializer (OverflowingCounts l rk) (deChunk A l rv rk esz dv) :=
  ub_finish <| ub_andThen (safe_field (safe_region A rv)).local ((safe_field (safe_region A rv)).ub _) fun _ =>
    ub_sizes_then A l rk fun s =>
    ub_andThen (safe_field (safe_seq (header_safe l) esz hdv)).local ((safe_field (safe_seq (header_safe l) esz hdv)).ub _) fun _ =>
    ub_andThen (safe_field (safe_deMem byteRepr)).local ((safe_field (safe_deMem byteRepr)).ub _) fun _ =>
    ub_andThen (local_lift _) (ub_check_lift s _ _) fun _ => (safe_done _).ub _

/-- **C84** Whatever the bytes, the only undefined behaviour of deserialization is the overflow of a product of cell counts
that the buffer contains. -/
theorem C84_ub_only_overflow (A : Arith K) (l : Bool) (rm : Ser.Repr M) (rv : Ser.Repr (Vec K)) (rk : Ser.Repr K)
    (invOf : M → Vec K → Vec K) (esz : Nat) (ins : Region K × SChunk K T → List (Region K × SChunk K T) → List (Region K × SChunk K T))
    (dv : Deserializer T) (hdv : SafeDeserializer dv) (buf : Buf) (off : Nat) (hb : buf.length < TWO63) (ho : off < TWO64)
    (h : deD A l rm rv rk invOf esz ins dv buf off = .ub) : OverflowingCounts l rk buf := by
  have hpl : LocalDeserializer (dePair (deRegion A rv) (deChunk A l rv rk esz dv)) := by
    rw [dePair_record]
    exact local_record (safe_region A rv).local fun _ =>
        local_andThen (local_field (local_deChunk A l rv rk esz dv hdv)) fun _ => (safe_done _).local
  have hpu : UbDeserializer (OverflowingCounts l rk) (dePair (deRegion A rv) (deChunk A l rv rk esz dv)) := by
    rw [dePair_record]
    exact ub_finish <| ub_andThen (safe_field (safe_region A rv)).local ((safe_field (safe_region A rv)).ub _) fun _ =>
      ub_andThen (local_field (local_deChunk A l rv rk esz dv hdv)) (ub_field (ub_deChunk A l rv rk esz dv hdv)) fun _ => (safe_done _).ub _
  have key : UbDeserializer (OverflowingCounts l rk) (deD A l rm rv rk invOf esz ins dv) :=
    ub_finish <| ub_andThen (safe_field (safe_deMem rm)).local ((safe_field (safe_deMem rm)).ub _) fun _ =>
      ub_andThen (safe_field hdv).local ((safe_field hdv).ub _) fun _ =>
      ub_andThen (local_field (local_deSizes A l rk)) (ub_field (ub_deSizes A l rk)) fun _ =>
      ub_andThen (local_field (local_container (header_safe l).local hpl ins)) (ub_field (ub_container (header_safe l) hpl hpu ins)) fun _ =>
      ub_andThen (safe_field (safe_deMem byteRepr)).local ((safe_field (safe_deMem byteRepr)).ub _) fun _ =>
      ub_check _ _ <| ub_check _ _ ((safe_done _).ub _)
  exact key buf off hb ho h

theorem finish_ok {c : Cursor T} {buf : Buf} {off : Nat} {v : T} {n : Nat} (h : finish c buf off = .ok (v, n)) :
    ∃ p, c buf off = .ok (v, p) := by
  unfold finish at h
  obtain ⟨⟨v', p⟩, h1, h2⟩ := Res.bind_eq_ok.mp h
  unfold mkDeserialized at h2
  split at h2 <;> cases h2
  exact ⟨p, h1⟩

theorem field_ok {de : Deserializer T} {buf : Buf} {pos : Nat} {v : T} {p : Nat} (h : field de buf pos = .ok (v, p)) :
    ∃ n, de buf pos = .ok (v, n) := by
  unfold field at h
  obtain ⟨⟨v', n⟩, h1, h2⟩ := Res.bind_eq_ok.mp h
  unfold getValue at h2
  split at h2
  · cases h2
  · cases h2; exact ⟨n, h1⟩

theorem andThen_ok {A B : Type} {c : Cursor A} {f : A → Cursor B} {buf : Buf} {pos : Nat} {v : B} {p : Nat}
    (h : c.andThen f buf pos = .ok (v, p)) : ∃ a q, c buf pos = .ok (a, q) ∧ f a buf q = .ok (v, p) := by
  unfold Cursor.andThen at h
  obtain ⟨⟨a, q⟩, h1, h2⟩ := Res.bind_eq_ok.mp h
  exact ⟨a, q, h1, h2⟩

theorem check_ok {b : Bool} {e : Exc} {c : Cursor T} {buf : Buf} {pos : Nat} {x : T × Nat} (h : Cursor.check b e c buf pos = .ok x) :
    b = true ∧ c buf pos = .ok x := by
  unfold Cursor.check at h
  split at h
  · rename_i hb; exact ⟨hb, h⟩
  · cases h

theorem items_all {di : Deserializer T} {Q : T → Prop} (hq : ∀ buf pos v n, di buf pos = .ok (v, n) → Q v) (buf : Buf) (n : Nat) :
    ∀ (pos : Nat) (xs : List T) (p : Nat), deItems di buf n pos = .ok (xs, p) → ∀ x ∈ xs, Q x := by
  induction n with
  | zero => intro pos xs p h; unfold deItems at h; cases h; simp
  | succ n ih =>
    intro pos xs p h
    have h' : (fun buf pos => deItems di buf (n + 1) pos) buf pos = .ok (xs, p) := h
    rw [deItems_succ] at h'
    obtain ⟨a, q, h1, h2⟩ := andThen_ok h'
    obtain ⟨ys, q2, h3, h4⟩ := andThen_ok h2
    cases h4
    obtain ⟨m, hm⟩ := field_ok h1
    intro x hx
    rcases List.mem_cons.mp hx with rfl | hx
    · exact hq _ _ _ _ hm
    · exact ih _ _ _ h3 x hx

theorem insertAll_hash {ins : Region K × SChunk K T → List (Region K × SChunk K T) → List (Region K × SChunk K T)}
    (hins : HashInsert ins) (xs : List (Region K × SChunk K T)) : ∀ c : List (Region K × SChunk K T), (c.map (·.1)).Nodup →
    ((insertAll ins xs c).map (·.1)).Nodup ∧ ∀ e ∈ insertAll ins xs c, e ∈ c ∨ e ∈ xs := by
  induction xs with
  | nil => exact fun c h => ⟨h, fun e he => .inl he⟩
  | cons x xs ih =>
    intro c h
    by_cases hx : ∃ y ∈ c, y.1 = x.1
    · have hp := hins.present x c hx
      obtain ⟨a, b⟩ := ih (ins x c) (((hp.map (·.1)).nodup_iff).mpr h)
      exact ⟨a, fun e he => (b e he).elim (fun h => .inl (hp.mem_iff.mp h)) fun h => .inr (List.mem_cons_of_mem _ h)⟩
    · push Not at hx
      have hp := hins.fresh x c hx
      obtain ⟨a, b⟩ := ih (ins x c) (((hp.map (·.1)).nodup_iff).mpr (by
        rw [List.map_cons, List.nodup_cons]
        refine ⟨fun hm => ?_, h⟩
        obtain ⟨y, hy, hyx⟩ := List.mem_map.mp hm
        exact hx y hy hyx))
      refine ⟨a, fun e he => (b e he).elim (fun h => ?_) fun h => .inr (List.mem_cons_of_mem _ h)⟩
      rcases List.mem_cons.mp (hp.mem_iff.mp h) with rfl | h
      · exact .inr List.mem_cons_self
      · exact .inl h

/-- What the checks of a chunk mean. -/
theorem chunkCheck_spec {s : Sizes K} {data : List T} {f : UInt8} (h : chunkCheck s data f = .ok ()) :
    (f = 2 → (data.length : Int) = s.n.x * s.n.y * s.n.z) ∧ (f = 1 → data.length = 1) ∧ (f ≠ 1 → f ≠ 2 → data = []) := by
  unfold chunkCheck at h
  split_ifs at h with h2 h1 h3 h4
  · obtain ⟨n, hn, h⟩ := Res.bind_eq_ok.mp h
    unfold Sizes.totalCells at hn
    obtain ⟨a, ha, hn⟩ := Res.bind_eq_ok.mp hn
    have hk : ∀ {x y : Int}, chk64 x = .ok y → x = y := by
      intro x y h
      unfold chk64 at h
      split_ifs at h
      exact Res.ok.inj h
    have e1 := hk ha
    have e2 := hk hn
    subst e1 e2
    split_ifs at h with h5
    · refine ⟨fun _ => not_not.mp h5, fun h1 => ?_, fun _ h => absurd h2 h⟩
      rw [h1] at h2
      exact absurd h2 (by decide)
  · exact ⟨fun h => absurd h h2, fun _ => not_not.mp h3, fun h => absurd h1 h⟩
  · exact ⟨fun h => absurd h h2, fun h => absurd h h1, fun _ _ => by simpa using h4⟩

/-- **C84** Whatever the bytes, deserialization that succeeds returns a consistent grid: initialized exactly if its sizes are
valid, without chunks if they are not, at most one chunk for every region, every chunk with as many values as its own sizes and
fill status say. -/
theorem C84_result_consistent (A : Arith K) (l : Bool) (rm : Ser.Repr M) (rv : Ser.Repr (Vec K)) (rk : Ser.Repr K)
    (invOf : M → Vec K → Vec K) (esz : Nat) (ins) (hins : HashInsert (K := K) (T := T) ins)
    (dv : Deserializer T) (buf : Buf) (off : Nat) (s : StoredD M K T) (n : Nat)
    (h : deD A l rm rv rk invOf esz ins dv buf off = .ok (s, n)) : ConsistentD invOf s ∧
      ∀ e ∈ s.chunks, (e.2.fill = 2 → (e.2.data.length : Int) = e.2.sizes.n.x * e.2.sizes.n.y * e.2.sizes.n.z) ∧
        (e.2.fill = 1 → e.2.data.length = 1) ∧ (e.2.fill ≠ 1 → e.2.fill ≠ 2 → e.2.data = []) := by
  suffices hc : ConsistentD invOf s from ⟨hc, fun e he => chunkCheck_spec (hc.chunk e he)⟩
  obtain ⟨p, h⟩ := finish_ok h
  obtain ⟨org, _, _, h⟩ := andThen_ok h
  obtain ⟨d, _, _, h⟩ := andThen_ok h
  obtain ⟨sz, _, _, h⟩ := andThen_ok h
  obtain ⟨cs, _, hcs, h⟩ := andThen_ok h
  obtain ⟨b, _, _, h⟩ := andThen_ok h
  obtain ⟨c1, h⟩ := check_ok h
  obtain ⟨c2, h⟩ := check_ok h
  cases h
  obtain ⟨m, hcs⟩ := field_ok hcs
  rw [deContainer_record] at hcs
  obtain ⟨_, hcs⟩ := finish_ok hcs
  obtain ⟨k, _, _, hcs⟩ := andThen_ok hcs
  obtain ⟨xs, _, hxs, hcs⟩ := andThen_ok hcs
  cases hcs
  obtain ⟨i1, i2⟩ := insertAll_hash hins xs [] (by simp)
  have hall := items_all (Q := fun e : Region K × SChunk K T => chunkCheck e.2.sizes e.2.data e.2.fill = .ok ())
    (di := dePair (deRegion A rv) (deChunk A l rv rk esz dv)) (by
      intro buf pos v n h
      rw [dePair_record] at h
      obtain ⟨_, h⟩ := finish_ok h
      obtain ⟨a, _, _, h⟩ := andThen_ok h
      obtain ⟨c, _, hc, h⟩ := andThen_ok h
      cases h
      obtain ⟨_, hc⟩ := field_ok hc
      obtain ⟨_, hc⟩ := finish_ok hc
      obtain ⟨_, _, _, hc⟩ := andThen_ok hc
      obtain ⟨_, _, _, hc⟩ := andThen_ok hc
      obtain ⟨_, _, _, hc⟩ := andThen_ok hc
      obtain ⟨_, _, _, hc⟩ := andThen_ok hc
      obtain ⟨u, _, hu, hc⟩ := andThen_ok hc
      cases hc
      unfold Cursor.lift at hu
      obtain ⟨_, hu, _⟩ := Res.bind_eq_ok.mp hu
      exact hu) _ _ _ _ _ hxs
  refine ⟨(by simpa using c1 : sz.valid = (b != 0)).symm, rfl, fun hv => ?_, i1, fun e he => hall e ((i2 e he).resolve_left (by simp))⟩
  dsimp only at hv ⊢
  rw [hv] at c2
  simpa using c2

/-- **C84** The default-constructed (uninitialized) grid round-trips too. -/
theorem C84_default_round_trip (A : Arith K) (l : Bool) (rm : Ser.Repr M) (rv : Ser.Repr (Vec K)) (rk : Ser.Repr K)
    (invOf : M → Vec K → Vec K) (esz : Nat) (ins) (hins : HashInsert (K := K) (T := T) ins) (sv : Serializer T)
    (dv : Deserializer T) (org : M) (d : T) (hd : RoundTrips sv dv d) :
    RoundTripsUpTo SameD (serD A l rm rv rk sv) (deD A l rm rv rk invOf esz ins dv) ⟨org, invOf org, d, defaultSizes A, [], false⟩ :=
  C84_round_trip A l rm rv rk invOf esz ins hins sv dv _ ⟨rfl, rfl, fun _ => rfl, by simp, by simp⟩ (reloads_default A) (by simp) hd
    (by simp)

/-- C84: what is accepted is not always usable. The fill status of chunks is checked against their own number of values only: bytes
with a chunk that is not filled are accepted, and a query of a location in that chunk then throws, which no grid made by the
interface does there. (Neither are the region and the sizes of a chunk compared with those of the grid.) -/
theorem C84_unfilled_false (A : Arith K) (l : Bool) (rm : Ser.Repr M) (rv : Ser.Repr (Vec K)) (rk : Ser.Repr K)
    (invOf : M → Vec K → Vec K) (esz : Nat) (ins) (hins : HashInsert (K := K) (T := T) ins) (sv : Serializer T)
    (dv : Deserializer T) (org : M) (d : T) (hd : RoundTrips sv dv d) {cx cy cz : K} {n : Cell} {sz : Sizes K}
    (hs : mkSizes A cx cy cz n = .ok sz) (hx : InI64 n.x) (hy : InI64 n.y) (hz : InI64 n.z) (loc : Vec K) :
    ∃ enc : Buf, ∀ pre post : Buf, (pre ++ enc ++ post).length < TWO63 → ∃ y : StoredD M K T,
      deD A l rm rv rk invOf esz ins dv (pre ++ enc ++ post) pre.length = .ok (y, enc.length) ∧
      dGet A y.view loc = .throw .runtimeError := by
  have hvalid : sz.valid = true := (mkSizes_ok hs).2.2.2.2.2.1
  have hc : ∃ r, containing A sz (invOf org loc) = .ok r := by
    unfold containing; rw [if_pos hvalid]; exact ⟨_, rfl⟩
  obtain ⟨r, hr⟩ := hc
  have hre := reloads_of_mk hs hx hy hz
  obtain ⟨enc, _, _, h⟩ := C84_round_trip A l rm rv rk invOf esz ins hins sv dv ⟨org, invOf org, d, sz, [(r, ⟨r, sz, [], 0⟩)], true⟩
    ⟨hvalid.symm, rfl, fun h => absurd h (by rw [hvalid]; simp), by simp, by simp [chunkCheck]⟩ hre
    (by intro e he; rw [List.mem_singleton] at he; subst he; exact ⟨hre, by simp, by simp, by simp⟩) hd (by simp)
  refine ⟨enc, fun pre post hl => ?_⟩
  obtain ⟨y, hy, _, e2, _, e4, e5, _⟩ := h pre post hl
  refine ⟨y, hy, ?_⟩
  dsimp only at e2 e4 e5
  have hcs : y.chunks = [(r, ⟨r, sz, [], 0⟩)] := List.perm_singleton.mp e5
  unfold dGet StoredD.view
  dsimp only
  rw [e2, e4, hr, Res.ok_bind, hcs]
  simp [chunkFind, byteFill]

/-! ### The hypotheses are satisfiable -/

/-- The order of words. -/
@[instance_reducible] def wordOrder : LinearOrder UInt64 := LinearOrder.lift' UInt64.toNat fun _ _ h => UInt64.toNat_inj.mp h

attribute [local instance] wordOrder

/-- Object representation of four words. -/
def wordVec : Ser.Repr (Vec UInt64) where
  size := 32
  pos := by decide
  small := by decide
  bytes v := (Rrt.word true).bytes v.x ++ (Rrt.word true).bytes v.y ++ (Rrt.word true).bytes v.z ++ (Rrt.word true).bytes v.w
  ofBytes b := ⟨(Rrt.word true).ofBytes (b.take 8), (Rrt.word true).ofBytes ((b.drop 8).take 8),
    (Rrt.word true).ofBytes ((b.drop 16).take 8), (Rrt.word true).ofBytes ((b.drop 24).take 8)⟩
  length_bytes v := by
    have h := (Rrt.word true).length_bytes
    have hs : (Rrt.word true).size = 8 := rfl
    simp only [List.length_append, h, hs]
  ofBytes_bytes v := by
    have h := (Rrt.word true).length_bytes
    have hs : (Rrt.word true).size = 8 := rfl
    rw [hs] at h
    have e1 := (Rrt.word true).ofBytes_bytes v.x
    have e2 := (Rrt.word true).ofBytes_bytes v.y
    have e3 := (Rrt.word true).ofBytes_bytes v.z
    have e4 := (Rrt.word true).ofBytes_bytes v.w
    simp [List.drop_append, h, e1, e2, e3, e4, List.take_of_length_le, List.drop_of_length_le]

/-- A hash map that keeps the order of insertion. -/
def listInsert (x : Region UInt64 × SChunk UInt64 UInt8) (c : List (Region UInt64 × SChunk UInt64 UInt8)) :
    List (Region UInt64 × SChunk UInt64 UInt8) := if c.any fun y => y.1 = x.1 then c else x :: c

theorem listInsert_hash : HashInsert listInsert where
  fresh x c h := by
    unfold listInsert
    rw [if_neg (by
      simp only [List.any_eq_true, decide_eq_true_eq]
      rintro ⟨y, hy, he⟩
      exact h y hy he)]
  present x c h := by
    unfold listInsert
    rw [if_pos (by simpa using h)]

example (ops : List (DCall UInt64 UInt8)) := C84_history_round_trip wordArith true byteRepr wordVec (Rrt.word true) (fun _ => id) 1
  listInsert listInsert_hash _ _ (rt_mem byteRepr) mk_wordSizes (by decide) (by decide) (by decide) id 7
  (pureHook fun _ => true) () ops

/-- A grid with a chunk of each kind. -/
def exampleD : DGrid UInt64 UInt8 :=
  ([.set ⟨1, 1, 1, 1⟩ .cell 5, .set ⟨9, 1, 1, 1⟩ .chunk 6] : List (DCall UInt64 UInt8)).foldl (DCall.run wordArith (pureHook fun _ => true))
    ((), ⟨id, 7, wordSizes, fun _ => none⟩) |>.2

example : exampleD.chunks ⟨0, 0, 0⟩ = some ⟨⟨0, 0, 0⟩, (List.replicate 24 7).set 17 5, .cellFilled⟩ := by rfl
example : exampleD.chunks ⟨8, 0, 0⟩ = some ⟨⟨8, 0, 0⟩, [6], .chunkFilled⟩ := by rfl

example := C84_unfilled_false wordArith true byteRepr wordVec (Rrt.word true) (fun _ => id) 1 listInsert listInsert_hash _ _ 0 7
  (rt_mem byteRepr 7) mk_wordSizes (by decide) (by decide) (by decide) ⟨1, 1, 1, 1⟩

end CRU.Voxel
