import Verif.Voxel.Props
import Verif.Serialization.Cursor
import Verif.Rrt.Ser
import Verif.Voxel.Geometry
import Verif.FloatEven
/-
  Model of the serialization of voxel grids (include/common_robotics_utilities/voxel_grid.hpp:186-320, 587-661, 758-779,
  1358-1375) and its round trip.
-/
namespace CRU.Ser

variable {T A B : Type}

/-- A computation between two reads; the position does not move. -/
def Cursor.lift (r : Res T) : Cursor T := fun _ pos => do
  let x ← r
  pure (x, pos)

/-- Object representation of `uint8_t` (serialization.hpp:305-337 at `T = uint8_t`). -/
def byteRepr : Ser.Repr UInt8 where
  size := 1
  pos := by decide
  small := by decide
  bytes x := [x]
  ofBytes b := b.headD 0
  length_bytes _ := rfl
  ofBytes_bytes _ := rfl

theorem andThen_assoc {C : Type} (c : Cursor A) (f : A → Cursor B) (g : B → Cursor C) :
    (c.andThen f).andThen g = c.andThen fun a => (f a).andThen g := by
  funext buf pos
  unfold Cursor.andThen
  cases c buf pos <;> simp

theorem wr_lift {Q : B → Prop} {w : Buf → Res Buf} {x : A} {f : A → Cursor B} (h : WritesReads Q w (f x)) :
    WritesReads Q w ((Cursor.lift (.ok x)).andThen f) := by
  have : (Cursor.lift (.ok x)).andThen f = f x := by
    funext buf pos; simp [Cursor.andThen, Cursor.lift]
  rw [this]; exact h

theorem wr_check {Q : B → Prop} {w : Buf → Res Buf} {c : Cursor B} {b : Bool} (e : Exc) (hb : b = true)
    (h : WritesReads Q w c) : WritesReads Q w (Cursor.check b e c) := by
  subst hb; exact h

/-- What `SafeCursor` says about successful reads. -/
def LocalCursor (c : Cursor T) : Prop :=
  ∀ (buf : Buf) (pos : Nat), buf.length < TWO63 → pos < TWO64 →
    ∀ v p, c buf pos = .ok (v, p) → pos ≤ p ∧ (pos < p → p ≤ buf.length) ∧
      ∀ buf' : Buf, buf'.length < TWO63 → (pos < p → p ≤ buf'.length) →
        (buf'.drop pos).take (p - pos) = (buf.drop pos).take (p - pos) → c buf' pos = .ok (v, p)

theorem SafeCursor.local {c : Cursor T} (h : SafeCursor c) : LocalCursor c := fun buf pos hb hp => (h buf pos hb hp).2

theorem local_andThen {c : Cursor A} {f : A → Cursor B} (hc : LocalCursor c) (hf : ∀ a, LocalCursor (f a)) :
    LocalCursor (c.andThen f) := by
  intro buf pos hb hp v q hq
  have hq0 := hq
  unfold Cursor.andThen at hq
  obtain ⟨⟨a, p⟩, hd, hq⟩ := Res.bind_eq_ok.mp hq
  obtain ⟨h1, h2, h3⟩ := hc buf pos hb hp a p hd
  have hp' : p < TWO64 := by
    by_cases h : pos < p
    · have := h2 h; omega
    · omega
  obtain ⟨g1, g2, g3⟩ := hf a buf p hb hp' v q hq
  refine ⟨by omega, ?_, ?_⟩
  · intro hlt
    by_cases hpq : p < q
    · exact g2 hpq
    · have : q = p := by omega
      subst this; exact h2 hlt
  · intro buf' hb' hl hag
    have hlp : pos < p → p ≤ buf'.length := fun h => by have := hl (by omega); omega
    unfold Cursor.andThen
    rw [h3 buf' hb' hlp (drop_take_sub _ _ pos _ _ _ hag (by omega) (by omega)), Res.ok_bind]
    exact g3 buf' hb' (fun h => hl (by omega)) (drop_take_sub _ _ pos _ _ _ hag (by omega) (by omega))

theorem local_lift (r : Res T) : LocalCursor (Cursor.lift r) := by
  intro buf pos _ _ v p h
  unfold Cursor.lift at h
  obtain ⟨x, hx, h⟩ := Res.bind_eq_ok.mp h
  cases h
  exact ⟨le_refl _, by omega, fun _ _ _ _ => by unfold Cursor.lift; rw [hx]; rfl⟩

theorem local_check (b : Bool) (e : Exc) {c : Cursor T} (h : LocalCursor c) : LocalCursor (Cursor.check b e c) := by
  cases b
  · intro buf pos _ _ v p h; cases h
  · exact h

/-- What `SafeDeserializer` says about successful reads. -/
def LocalDeserializer (de : Deserializer T) : Prop :=
  ∀ (buf : Buf) (off : Nat), buf.length < TWO63 → off < TWO64 →
    ∀ v n, de buf off = .ok (v, n) → 0 < n ∧ off + n ≤ buf.length ∧
      ∀ buf' : Buf, buf'.length < TWO63 → off + n ≤ buf'.length →
        (buf'.drop off).take n = (buf.drop off).take n → de buf' off = .ok (v, n)

theorem local_field {de : Deserializer T} (h : LocalDeserializer de) : LocalCursor (field de) := by
  intro buf pos hb hp v p heq
  unfold field at heq
  obtain ⟨⟨v', n⟩, hd, heq⟩ := Res.bind_eq_ok.mp heq
  obtain ⟨h1, h2, h3⟩ := h buf pos hb hp v' n hd
  have common : ∀ b : Buf, de b pos = .ok (v', n) → field de b pos = .ok (v', pos + n) := by
    intro b hb
    unfold field
    rw [hb, Res.ok_bind, getValue_ok (show (v', n).2 ≠ 0 by dsimp only; omega), Res.ok_bind, Res.pure_eq]
    dsimp only
    rw [add64_eq (by omega)]
  have hc := common buf hd
  unfold field at hc
  rw [hd, Res.ok_bind, heq] at hc
  simp only [Res.ok.injEq, Prod.mk.injEq] at hc
  obtain ⟨rfl, rfl⟩ := hc
  refine ⟨by omega, fun _ => h2, ?_⟩
  intro buf' hb' hl hag
  exact common buf' (h3 buf' hb' (hl (by omega)) (drop_take_sub _ _ pos _ _ _ hag (by omega) (by omega)))

/-- A record that starts with a field. -/
theorem local_record {de : Deserializer A} (hd : LocalDeserializer de) {f : A → Cursor B} (hf : ∀ a, LocalCursor (f a)) :
    LocalDeserializer (finish ((field de).andThen f)) := by
  intro buf off hb ho v n h
  unfold finish at h
  obtain ⟨⟨v', p⟩, h1, h⟩ := Res.bind_eq_ok.mp h
  obtain ⟨g1, g2, g3⟩ := local_andThen (local_field hd) hf buf off hb ho v' p h1
  have hnp : p ≠ off := by
    unfold Cursor.andThen at h1
    obtain ⟨⟨a, q⟩, k1, k2⟩ := Res.bind_eq_ok.mp h1
    obtain ⟨l1, l2, _⟩ := local_field hd buf off hb ho a q k1
    have k1' := k1
    unfold field at k1
    obtain ⟨⟨a', m⟩, m1, m2⟩ := Res.bind_eq_ok.mp k1
    have hm := hd buf off hb ho a' m m1
    rw [getValue_ok (show (a', m).2 ≠ 0 by dsimp only; omega), Res.ok_bind, Res.pure_eq] at m2
    simp only [Res.ok.injEq, Prod.mk.injEq] at m2
    rw [add64_eq (by omega)] at m2
    have := (hf a buf q hb (by omega) v' p k2).1
    omega
  have hple := g2 (by omega)
  have common : ∀ b : Buf, (field de).andThen f b off = .ok (v', p) → finish ((field de).andThen f) b off = .ok (v', p - off) := by
    intro b hb'
    unfold finish
    rw [hb', Res.ok_bind]
    dsimp only
    rw [sub64 (by omega) (by omega), mkD_ok (by omega)]
  have hc := common buf h1
  unfold finish at hc
  rw [h1, Res.ok_bind, h] at hc
  simp only [Res.ok.injEq, Prod.mk.injEq] at hc
  obtain ⟨rfl, rfl⟩ := hc
  exact ⟨by omega, by omega, fun buf' hb' hl hag => common buf' (g3 buf' hb' (fun _ => by omega) hag)⟩

theorem SafeDeserializer.local {de : Deserializer T} (h : SafeDeserializer de) : LocalDeserializer de :=
  fun buf off hb ho => (h buf off hb ho).2

end CRU.Ser

namespace CRU.Voxel
open CRU.Ser

variable {K T M H : Type}

attribute [local irreducible] add64 mul64 diff64 mkDeserialized getValue allocate memRead memWrite

/-- voxel_grid.hpp:186-190, 258-272 `GridSizes::Serialize` / `SerializeSelf`. -/
def serSizes (little : Bool) (rk : Ser.Repr K) : Serializer (Sizes K) :=
  wrote fun s => seqW (put (serMem rk) s.cx) (seqW (put (serMem rk) s.cy) (seqW (put (serMem rk) s.cz)
    (seqW (put (serI64 little) s.n.x) (seqW (put (serI64 little) s.n.y) (put (serI64 little) s.n.z)))))

/-- voxel_grid.hpp:278-305: the six numbers read by `GridSizes::DeserializeSelf`. -/
def rawSizes (little : Bool) (rk : Ser.Repr K) : Cursor (Vec K × Cell) :=
  (field (deMem rk)).andThen fun cx => (field (deMem rk)).andThen fun cy => (field (deMem rk)).andThen fun cz =>
  (field (deI64 little)).andThen fun nx => (field (deI64 little)).andThen fun ny => (field (deI64 little)).andThen fun nz =>
  Cursor.done (⟨cx, cy, cz, cx⟩, ⟨nx, ny, nz⟩)

/-- voxel_grid.hpp:307-315: `Initialize`, and `DefaultInitialize` if it fails. -/
def reinit (A : Arith K) (cx cy cz : K) (n : Cell) : Res (Sizes K) := do
  let o ← initSizes A cx cy cz n
  pure (o.getD (defaultSizes A))

/-- voxel_grid.hpp:192-199, 274-320 `GridSizes::Deserialize` / `DeserializeSelf`. -/
def deSizes (A : Arith K) (little : Bool) (rk : Ser.Repr K) : Deserializer (Sizes K) :=
  finish <| (rawSizes little rk).andThen fun r => Cursor.lift (reinit A r.1.x r.1.y r.1.z r.2)

/-- voxel_grid.hpp:540-549: the stored members; `origin` is `origin_transform_` (a 4x4 matrix of doubles), of which
`grid.inv` applies the inverse. -/
structure Stored (M K T : Type) where
  origin : M
  grid : Grid K T

/-- voxel_grid.hpp:587-610, 758-764, 1328-1334, 1358-1363 `VoxelGrid::Serialize`; the derived class adds nothing. -/
def serGrid (little : Bool) (rm : Ser.Repr M) (rk : Ser.Repr K) (sv : Serializer T) : Serializer (Stored M K T) :=
  wrote fun s => seqW (put (serMem rm) s.origin) (seqW (put sv s.grid.default) (seqW (put sv s.grid.oob)
    (seqW (put (serSeq (serU64 little) sv) s.grid.data) (seqW (put (serSizes little rk) s.grid.sizes)
      (put (serMem byteRepr) (if s.grid.initialized then 1 else 0))))))

/-- voxel_grid.hpp:612-659, 766-779, 1336-1345, 1365-1375 `VoxelGrid::Deserialize`. `invOf` is Eigen's `inverse()` of the
transform, `esz` the size of a value in memory. The number of cells is computed in `int64_t` (overflow is undefined). -/
def deGrid (A : Arith K) (little : Bool) (rm : Ser.Repr M) (rk : Ser.Repr K) (invOf : M → Vec K → Vec K) (esz : Nat)
    (dv : Deserializer T) : Deserializer (Stored M K T) :=
  finish <| (field (deMem rm)).andThen fun org => (field dv).andThen fun d => (field dv).andThen fun o =>
    (field (deSeq (deU64 little) esz dv)).andThen fun data => (field (deSizes A little rk)).andThen fun s =>
    (Cursor.lift s.totalCells).andThen fun n => Cursor.check (decide (n = data.length)) .runtimeError <|
    (field (deMem byteRepr)).andThen fun b => Cursor.check (s.valid == (b != 0)) .runtimeError <|
    Cursor.done ⟨org, ⟨invOf org, d, o, data, s, b != 0⟩⟩

/-! ### Sizes -/

/-- Sizes that `Initialize` computes again from the six stored numbers. -/
def Reloads (A : Arith K) (s : Sizes K) : Prop :=
  reinit A s.cx s.cy s.cz s.n = .ok s ∧ InI64 s.n.x ∧ InI64 s.n.y ∧ InI64 s.n.z

theorem reinit_cases {A : Arith K} {cx cy cz : K} {n : Cell} {s : Sizes K} (h : reinit A cx cy cz n = .ok s) :
    mkSizes A cx cy cz n = .ok s ∨ s = defaultSizes A := by
  unfold reinit at h
  obtain ⟨o, ho, h⟩ := Res.bind_eq_ok.mp h
  cases h
  cases o with
  | some t => left; unfold mkSizes; rw [ho]; rfl
  | none => exact .inr rfl

theorem reloads_of_mk {A : Arith K} {cx cy cz : K} {n : Cell} {s : Sizes K} (h : mkSizes A cx cy cz n = .ok s)
    (hx : InI64 n.x) (hy : InI64 n.y) (hz : InI64 n.z) : Reloads A s := by
  obtain ⟨_, _, h1, _, _, _, h2, h3, h4, _⟩ := mkSizes_ok h
  refine ⟨?_, h1 ▸ hx, h1 ▸ hy, h1 ▸ hz⟩
  rw [h1, h2, h3, h4]
  unfold mkSizes at h
  unfold reinit
  cases hi : initSizes A cx cy cz n with
  | ub => rw [hi] at h; cases h
  | throw e => rw [hi] at h; cases h
  | ok o =>
    rw [hi] at h
    cases o with
    | none => cases h
    | some t => cases h; rfl

theorem reloads_default (A : Arith K) : Reloads A (defaultSizes A) := by
  refine ⟨?_, by show InI64 0; decide, by show InI64 0; decide, by show InI64 0; decide⟩
  unfold reinit initSizes
  rw [if_neg (by simp [defaultSizes])]
  rfl

theorem wr_rawSizes (l : Bool) (rk : Ser.Repr K) (s : Sizes K) (hx : InI64 s.n.x) (hy : InI64 s.n.y) (hz : InI64 s.n.z)
    {Q : T → Prop} {f : Vec K × Cell → Cursor T}
    (h : WritesReads Q (fun b => .ok b) (f (⟨s.cx, s.cy, s.cz, s.cx⟩, s.n))) :
    WritesReads Q (seqW (put (serMem rk) s.cx) (seqW (put (serMem rk) s.cy) (seqW (put (serMem rk) s.cz)
      (seqW (put (serI64 l) s.n.x) (seqW (put (serI64 l) s.n.y) (put (serI64 l) s.n.z))))))
      ((rawSizes l rk).andThen f) := by
  unfold InI64 at hx hy hz
  unfold rawSizes
  simp only [andThen_assoc]
  refine wr_seq_eq (wr_field (rt_mem rk s.cx)) <| wr_seq_eq (wr_field (rt_mem rk s.cy)) <|
    wr_seq_eq (wr_field (rt_mem rk s.cz)) <| wr_seq_eq (wr_field (rt_i64 l s.n.x (by omega) (by omega))) <|
    wr_seq_eq (wr_field (rt_i64 l s.n.y (by omega) (by omega))) ?_
  have hd : ∀ x : Vec K × Cell, (Cursor.done x).andThen f = f x := by
    intro x; funext buf pos; simp [Cursor.andThen, Cursor.done]
  simp only [hd]
  have := wr_seq_eq (wr_field (rt_i64 l s.n.z (by omega) (by omega))) (f := fun z => f (⟨s.cx, s.cy, s.cz, s.cx⟩, ⟨s.n.x, s.n.y, z⟩)) h
  have e : seqW (put (serI64 l) s.n.z) (fun b => Res.ok b) = put (serI64 l) s.n.z := by
    funext b; unfold seqW; cases put (serI64 l) s.n.z b <;> rfl
  rwa [e] at this

theorem rt_sizes {A : Arith K} (l : Bool) (rk : Ser.Repr K) {s : Sizes K} (h : Reloads A s) :
    RoundTrips (serSizes l rk) (deSizes A l rk) s := by
  obtain ⟨h0, hx, hy, hz⟩ := h
  have key := wr_rawSizes l rk s hx hy hz (Q := fun y => y = s)
    (f := fun r => Cursor.lift (reinit A r.1.x r.1.y r.1.z r.2)) (by
      dsimp only
      rw [h0]
      have : (Cursor.lift (.ok s)) = Cursor.done s := by funext buf pos; simp [Cursor.lift, Cursor.done]
      rw [this]
      exact wr_done _ s rfl)
  refine wr_finish key ?_
  obtain ⟨enc, ne, sr, _⟩ := rt_mem rk s.cx
  intro hc
  unfold seqW at hc
  obtain ⟨b, hb, hc⟩ := Res.bind_eq_ok.mp hc
  have hlen : ∀ (x : K) (b b' : Buf), put (serMem rk) x b = .ok b' → b.length ≤ b'.length := by
    intro x b b' h; unfold put serMem at h; simp at h; subst h; simp
  have hleni : ∀ (x : Int) (b b' : Buf), put (serI64 l) x b = .ok b' → b.length ≤ b'.length := by
    intro x b b' h; unfold put serI64 serU64 at h; simp at h; subst h; simp
  obtain ⟨b2, hb2, hc⟩ := Res.bind_eq_ok.mp hc
  obtain ⟨b3, hb3, hc⟩ := Res.bind_eq_ok.mp hc
  obtain ⟨b4, hb4, hc⟩ := Res.bind_eq_ok.mp hc
  obtain ⟨b5, hb5, hc⟩ := Res.bind_eq_ok.mp hc
  have l1 : 0 < b.length := by
    unfold put serMem at hb; simp at hb; subst hb; rw [rk.length_bytes]; exact rk.pos
  have := hlen _ _ _ hb2
  have := hlen _ _ _ hb3
  have := hleni _ _ _ hb4
  have := hleni _ _ _ hb5
  have := hleni _ _ _ hc
  rw [List.length_nil] at this
  omega


/-! ### Grids -/

/-- What the members of a voxel grid satisfy, whatever its history: the number of values is the number of cells, the grid is
initialized exactly if its sizes are valid, and the stored inverse belongs to the stored transform. -/
structure Consistent (invOf : M → Vec K → Vec K) (s : Stored M K T) : Prop where
  total : s.grid.sizes.totalCells = .ok (s.grid.data.length : Int)
  init : s.grid.initialized = s.grid.sizes.valid
  inv : s.grid.inv = invOf s.origin

/-- **C83** Every consistent grid whose sizes are recomputed from the stored numbers and whose values round-trip,
round-trips: the same transform, inverse, special values, cell values, sizes and state. -/
theorem C83_grid_round_trip (A : Arith K) (l : Bool) (rm : Ser.Repr M) (rk : Ser.Repr K) (invOf : M → Vec K → Vec K)
    (esz : Nat) (sv : Serializer T) (dv : Deserializer T) (s : Stored M K T) (hc : Consistent invOf s)
    (hs : Reloads A s.grid.sizes) (hd : RoundTrips sv dv s.grid.default) (ho : RoundTrips sv dv s.grid.oob)
    (hv : ∀ v ∈ s.grid.data, RoundTrips sv dv v) (hl : s.grid.data.length < TWO63) (hm : s.grid.data.length * esz < TWO63) :
    RoundTrips (serGrid l rm rk sv) (deGrid A l rm rk invOf esz dv) s := by
  refine rt_record (x1 := s.origin) (rt_mem rm s.origin) ?_ rfl
  refine wr_seq_eq (wr_field hd) <| wr_seq_eq (wr_field ho) <|
    wr_seq_eq (wr_field (rt_list (header_good l) esz sv dv s.grid.data hm (by omega) hv)) <|
    wr_seq_eq (wr_field (rt_sizes l rk hs)) ?_
  rw [hc.total]
  refine wr_lift (wr_check _ (by simp) ?_)
  have key : ∀ b : UInt8, (b != 0) = s.grid.initialized →
      WritesReads (fun y => y = s) (put (serMem byteRepr) b) ((field (deMem byteRepr)).andThen fun b =>
        Cursor.check (s.grid.sizes.valid == (b != 0)) .runtimeError <|
        Cursor.done ⟨s.origin, ⟨invOf s.origin, s.grid.default, s.grid.oob, s.grid.data, s.grid.sizes, b != 0⟩⟩) := by
    intro b hb
    have hw : WritesReads (fun y => y = s) (fun b => .ok b) (Cursor.check (s.grid.sizes.valid == (b != 0)) .runtimeError <|
        Cursor.done ⟨s.origin, ⟨invOf s.origin, s.grid.default, s.grid.oob, s.grid.data, s.grid.sizes, b != 0⟩⟩) := by
      refine wr_check _ (by rw [hb, hc.init]; simp) (wr_done _ _ ?_)
      rw [hb, ← hc.inv]
    have := wr_seq_eq (wr_field (rt_mem byteRepr b)) (f := fun b => Cursor.check (s.grid.sizes.valid == (b != 0)) .runtimeError <|
        Cursor.done (⟨s.origin, ⟨invOf s.origin, s.grid.default, s.grid.oob, s.grid.data, s.grid.sizes, b != 0⟩⟩ : Stored M K T)) hw
    have e : seqW (put (serMem byteRepr) b) (fun b => Res.ok b) = put (serMem byteRepr) b := by
      funext b'; unfold seqW; cases put (serMem byteRepr) b b' <;> rfl
    rwa [e] at this
  refine key _ ?_
  cases s.grid.initialized <;> rfl

theorem setIndex_keeps (hook : Hook H) (h : H) (o : Overload) (g : Grid K T) (c : Cell) (v : T) :
    (setIndex hook h o g c v).1.2.sizes = g.sizes ∧ (setIndex hook h o g c v).1.2.initialized = g.initialized := by
  unfold setIndex
  split <;> exact ⟨rfl, rfl⟩

theorem resetTo_keeps (g : Grid K T) (v : T) :
    (resetTo g v).1.sizes = g.sizes ∧ (resetTo g v).1.initialized = g.initialized := by
  unfold resetTo
  split
  · rename_i g' h
    unfold setContents at h
    obtain ⟨n, _, h⟩ := Res.bind_eq_ok.mp h
    split at h
    · cases h
    · cases h; exact ⟨rfl, rfl⟩
  · exact ⟨rfl, rfl⟩
  · exact ⟨rfl, rfl⟩

theorem op_keeps [DecidableEq K] (A : Arith K) (hook : Hook H) (hg : H × Grid K T) (op : Op K T) :
    (op.run A hook hg).1.2.sizes = hg.2.sizes ∧ (op.run A hook hg).1.2.initialized = hg.2.initialized := by
  cases op with
  | setIndex o c v => exact setIndex_keeps hook hg.1 o hg.2 c v
  | setLocation3 l v => simp only [Op.run]; split <;> first | exact setIndex_keeps _ _ _ _ _ _ | exact ⟨rfl, rfl⟩
  | setLocation4 l v => simp only [Op.run]; split <;> first | exact setIndex_keeps _ _ _ _ _ _ | exact ⟨rfl, rfl⟩
  | setDataIndex d v => simp only [Op.run, Voxel.setDataIndex]; repeat' split
                        all_goals exact ⟨rfl, rfl⟩
  | setRawData vs => simp only [Op.run, setRaw]; repeat' split
                     all_goals exact ⟨rfl, rfl⟩
  | resetWithDefault => exact resetTo_keeps hg.2 hg.2.default
  | resetWithNewValue v => exact resetTo_keeps hg.2 v
  | resetWithNewDefault v => exact resetTo_keeps { hg.2 with default := v } v
  | setDefaultValue v => exact ⟨rfl, rfl⟩
  | setOOBValue v => exact ⟨rfl, rfl⟩
  | updateOrigin inv => exact ⟨rfl, rfl⟩

theorem history_keeps [DecidableEq K] (A : Arith K) (hook : Hook H) (ops : List (Op K T)) : ∀ hg : H × Grid K T,
    (runAll A hook hg ops).1.2.sizes = hg.2.sizes ∧ (runAll A hook hg ops).1.2.initialized = hg.2.initialized := by
  induction ops with
  | nil => exact fun _ => ⟨rfl, rfl⟩
  | cons op ops ih =>
    intro hg
    obtain ⟨a, b⟩ := ih (op.run A hook hg).1
    obtain ⟨c, d⟩ := op_keeps A hook hg op
    exact ⟨a.trans c, b.trans d⟩

/-- A call keeps the number of values. -/
theorem op_length [DecidableEq K] (A : Arith K) (hook : Hook H) (hg : H × Grid K T) (op : Op K T)
    (h : hg.2.sizes.totalCells = .ok (hg.2.data.length : Int)) :
    (op.run A hook hg).1.2.data.length = hg.2.data.length := by
  have hset : ∀ o c v, (setIndex hook hg.1 o hg.2 c v).1.2.data.length = hg.2.data.length := by
    intro o c v; unfold setIndex; split <;> simp
  have hreset : ∀ (g : Grid K T) v, g.sizes.totalCells = .ok (g.data.length : Int) → (resetTo g v).1.data.length = g.data.length := by
    intro g v hg
    unfold resetTo setContents
    rw [hg, Res.ok_bind, if_neg (by omega)]
    simp
  cases op with
  | setIndex o c v => exact hset o c v
  | setLocation3 l v => simp only [Op.run]; split <;> first | exact hset _ _ _ | rfl
  | setLocation4 l v => simp only [Op.run]; split <;> first | exact hset _ _ _ | rfl
  | setDataIndex d v => simp only [Op.run, Voxel.setDataIndex]; repeat' split
                        all_goals simp
  | setRawData vs =>
    simp only [Op.run, setRaw]
    rw [h]
    dsimp only
    split
    · split
      · rename_i hv; dsimp only; omega
      · rfl
    · rfl
  | resetWithDefault => exact hreset hg.2 hg.2.default h
  | resetWithNewValue v => exact hreset hg.2 v h
  | resetWithNewDefault v => exact hreset { hg.2 with default := v } v h
  | setDefaultValue v => rfl
  | setOOBValue v => rfl
  | updateOrigin inv => rfl

theorem history_length [DecidableEq K] (A : Arith K) (hook : Hook H) (ops : List (Op K T)) : ∀ hg : H × Grid K T,
    hg.2.sizes.totalCells = .ok (hg.2.data.length : Int) → (runAll A hook hg ops).1.2.data.length = hg.2.data.length := by
  induction ops with
  | nil => exact fun _ _ => rfl
  | cons op ops ih =>
    intro hg h
    have hl := op_length A hook hg op h
    exact (ih (op.run A hook hg).1 (by rw [(op_keeps A hook hg op).1, h, hl])).trans hl

/-- **C83** A grid created with any valid sizes and default values, after any history of modifications (with any hook, any
locations, successful or refused), round-trips. -/
theorem C83_history_round_trip [DecidableEq K] (A : Arith K) (l : Bool) (rm : Ser.Repr M) (rk : Ser.Repr K)
    (invOf : M → Vec K → Vec K) (esz : Nat) (sv : Serializer T) (dv : Deserializer T) (hv : ∀ v, RoundTrips sv dv v)
    {cx cy cz : K} {n : Cell} {sz : Sizes K} (hs : mkSizes A cx cy cz n = .ok sz)
    (hf : InI64 (volume n)) (hm : (volume n).toNat * esz < TWO63) (inv : Vec K → Vec K) (default oob : T) (hook : Hook H)
    (h0 : H) (ops : List (Op K T)) :
    ∃ g, initGrid inv sz default oob = .ok g ∧
      ∀ org : M, (runAll A hook (h0, g) ops).1.2.inv = invOf org →
        RoundTrips (serGrid l rm rk sv) (deGrid A l rm rk invOf esz dv) ⟨org, (runAll A hook (h0, g) ops).1.2⟩ := by
  obtain ⟨g, hg, hr⟩ := C27_fresh hs hf inv default oob
  refine ⟨g, hg, fun org horg => ?_⟩
  obtain ⟨k1, k2⟩ := history_keeps A hook ops (h0, g)
  have hgood := good_of_mk hs hf
  have hn := hr.n
  have hsz : g.sizes = sz ∧ g.initialized = true := by
    unfold initGrid at hg
    rw [if_pos hgood.valid, setContents_ok (by exact hgood)] at hg
    cases hg
    exact ⟨rfl, rfl⟩
  have htot : g.sizes.totalCells = .ok (g.data.length : Int) := by
    rw [hr.len, totalCells_ok hr.good.nums, hn]
  have hlen := history_length A hook ops (h0, g) htot
  obtain ⟨⟨px, py, pz⟩, _, hnn, _⟩ := mkSizes_ok hs
  have hvol : (g.data.length : Int) = volume n := hr.len
  have hpos := volume_pos hr.good.nums
  dsimp only at k1 k2 hlen
  unfold InI64 at hf
  have hxy : 0 < n.x * n.y := Int.mul_pos px py
  have b1 : n.x ≤ n.x * n.y := le_mul_of_one_le_right (by omega) (by omega)
  have b2 : n.y ≤ n.x * n.y := le_mul_of_one_le_left (by omega) (by omega)
  have b3 : n.x * n.y ≤ volume n := le_mul_of_one_le_right (by omega) (by omega)
  have b4 : n.z ≤ volume n := le_mul_of_one_le_left (by omega) (by omega)
  refine C83_grid_round_trip A l rm rk invOf esz sv dv _ ⟨?_, ?_, horg⟩ ?_ (hv _) (hv _) (fun v _ => hv v) ?_ ?_
  · dsimp only
    rw [k1, hlen, htot]
  · dsimp only
    rw [k1, k2, hsz.1, hsz.2, hgood.valid]
  · dsimp only
    rw [k1, hsz.1]
    exact reloads_of_mk hs (by unfold InI64; omega) (by unfold InI64; omega) (by unfold InI64; omega)
  · dsimp only; omega
  · dsimp only
    have : g.data.length = (volume n).toNat := by omega
    rw [hlen, this]; exact hm

/-- **C83** The default-constructed (uninitialized) grid round-trips too, without cells. -/
theorem C83_default_round_trip (A : Arith K) (l : Bool) (rm : Ser.Repr M) (rk : Ser.Repr K)
    (invOf : M → Vec K → Vec K) (esz : Nat) (sv : Serializer T) (dv : Deserializer T) (org : M) (d o : T)
    (hd : RoundTrips sv dv d) (ho : RoundTrips sv dv o) :
    RoundTrips (serGrid l rm rk sv) (deGrid A l rm rk invOf esz dv) ⟨org, ⟨invOf org, d, o, [], defaultSizes A, false⟩⟩ :=
  C83_grid_round_trip A l rm rk invOf esz sv dv _ ⟨rfl, rfl, rfl⟩ (reloads_default A) hd ho (by simp) (by simp) (by simp)

/-! ### Arbitrary bytes -/

theorem deGrid_ok {A : Arith K} {l : Bool} {rm : Ser.Repr M} {rk : Ser.Repr K} {invOf : M → Vec K → Vec K} {esz : Nat}
    {dv : Deserializer T} {buf : Buf} {off : Nat} {s : Stored M K T} {n : Nat}
    (h : deGrid A l rm rk invOf esz dv buf off = .ok (s, n)) :
    Consistent invOf s ∧ ∃ cx cy cz n, reinit A cx cy cz n = .ok s.grid.sizes := by
  unfold deGrid finish at h
  obtain ⟨⟨s', p⟩, k, hf⟩ := Res.bind_eq_ok.mp h
  clear h
  rename' k => h
  have hs' : s' = s := by
    unfold mkDeserialized at hf
    split at hf <;> cases hf
    rfl
  subst hs'
  unfold Cursor.andThen at h
  obtain ⟨⟨org, p1⟩, _, h⟩ := Res.bind_eq_ok.mp h
  obtain ⟨⟨d, p2⟩, _, h⟩ := Res.bind_eq_ok.mp h
  obtain ⟨⟨o, p3⟩, _, h⟩ := Res.bind_eq_ok.mp h
  obtain ⟨⟨data, p4⟩, _, h⟩ := Res.bind_eq_ok.mp h
  obtain ⟨⟨sz, p5⟩, hsz, h⟩ := Res.bind_eq_ok.mp h
  obtain ⟨⟨tot, p6⟩, ht, h⟩ := Res.bind_eq_ok.mp h
  unfold Cursor.lift at ht
  obtain ⟨tot', ht', hp⟩ := Res.bind_eq_ok.mp ht
  cases hp
  dsimp only at h
  unfold Cursor.check at h
  split at h
  · rename_i hc
    obtain ⟨⟨b, p7⟩, _, h⟩ := Res.bind_eq_ok.mp h
    dsimp only at h
    split at h
    · rename_i hc2
      cases h
      simp only [decide_eq_true_eq] at hc
      simp only [beq_iff_eq] at hc2
      refine ⟨⟨by rw [← hc]; exact ht', hc2.symm, rfl⟩, ?_⟩
      unfold field at hsz
      obtain ⟨⟨sz', m⟩, hsz, hg⟩ := Res.bind_eq_ok.mp hsz
      unfold deSizes finish at hsz
      obtain ⟨⟨s2, q⟩, hsz, hf2⟩ := Res.bind_eq_ok.mp hsz
      unfold Cursor.andThen Cursor.lift at hsz
      obtain ⟨⟨r, q2⟩, _, hsz⟩ := Res.bind_eq_ok.mp hsz
      obtain ⟨s3, hr, he⟩ := Res.bind_eq_ok.mp hsz
      have e0 : s3 = s2 := by cases he; rfl
      have e1 : s2 = sz' := by
        unfold mkDeserialized at hf2
        split at hf2 <;> cases hf2
        rfl
      have e2 : sz' = sz := by
        unfold getValue at hg
        split at hg
        · cases hg
        · cases hg; rfl
      rw [e0, e1, e2] at hr
      exact ⟨_, _, _, _, hr⟩
    · cases h
  · cases h

/-- **C83** Whatever the bytes, deserialization throws or returns a consistent grid (or overflows, see `C83_overflow_false`):
as many values as cells, initialized exactly if its sizes are valid. -/
theorem C83_result_consistent (A : Arith K) (l : Bool) (rm : Ser.Repr M) (rk : Ser.Repr K) (invOf : M → Vec K → Vec K) (esz : Nat)
    (dv : Deserializer T) (buf : Buf) (off : Nat) (s : Stored M K T) (n : Nat)
    (h : deGrid A l rm rk invOf esz dv buf off = .ok (s, n)) : Consistent invOf s := (deGrid_ok h).1

theorem totalCells_fits {s : Sizes K} {n : Int} (h : s.totalCells = .ok n) : n = volume s.n ∧ InI64 (volume s.n) := by
  unfold Sizes.totalCells chk64 at h
  split at h
  · rw [Res.ok_bind] at h
    split at h
    · rename_i h2; cases h; exact ⟨rfl, h2⟩
    · cases h
  · cases h

/-- **C83** A deserialized grid that says it is initialized is a grid like any other: it stores a map of its cells, so that
everything said about reads, writes and histories of a constructed grid (C27) holds of it. -/
theorem C83_result_is_map (A : Arith K) (l : Bool) (rm : Ser.Repr M) (rk : Ser.Repr K) (invOf : M → Vec K → Vec K) (esz : Nat)
    (dv : Deserializer T) (buf : Buf) (off : Nat) (s : Stored M K T) (n : Nat)
    (h : deGrid A l rm rk invOf esz dv buf off = .ok (s, n)) (hi : s.grid.initialized = true) :
    ∃ m, Rel s.grid m ∧ m.n = s.grid.sizes.n ∧ m.default = s.grid.default ∧ m.oob = s.grid.oob ∧
      ∀ c, InGrid m.n c → s.grid.data[(position m.n c).toNat]? = some (m.at_ c) := by
  obtain ⟨hc, cx, cy, cz, nn, hr⟩ := deGrid_ok h
  obtain ⟨ht1, ht2⟩ := totalCells_fits hc.total
  rcases reinit_cases hr with hm | hd
  · have hnn := (mkSizes_ok hm).2.2.1
    have hg : GoodSizes s.grid.sizes := good_of_mk hm (hnn ▸ ht2)
    let m : Map T := ⟨s.grid.sizes.n, s.grid.default, s.grid.oob,
      fun c => (s.grid.data[(position s.grid.sizes.n c).toNat]?).getD s.grid.default⟩
    have hat : ∀ c, InGrid m.n c → s.grid.data[(position m.n c).toNat]? = some (m.at_ c) := by
      intro c hcc
      have hp := position_range hcc
      have hp1 : 0 ≤ position s.grid.sizes.n c := hp.1
      have hp2 : position s.grid.sizes.n c < volume s.grid.sizes.n := hp.2
      have hlt : (position s.grid.sizes.n c).toNat < s.grid.data.length := by omega
      show s.grid.data[(position s.grid.sizes.n c).toNat]? = some ((s.grid.data[(position s.grid.sizes.n c).toNat]?).getD s.grid.default)
      rw [List.getElem?_eq_getElem hlt]
      rfl
    exact ⟨m, ⟨hg, rfl, rfl, rfl, ht1, hat⟩, rfl, rfl, rfl, hat⟩
  · rw [hc.init, hd] at hi
    cases hi


theorem safe_rawSizes (l : Bool) (rk : Ser.Repr K) : SafeCursor (rawSizes l rk) :=
  safe_andThen (safe_field (safe_deMem rk)) fun _ => safe_andThen (safe_field (safe_deMem rk)) fun _ =>
    safe_andThen (safe_field (safe_deMem rk)) fun _ => safe_andThen (safe_field (safe_i64 l)) fun _ =>
      safe_andThen (safe_field (safe_i64 l)) fun _ => safe_andThen (safe_field (safe_i64 l)) fun _ => safe_done _

theorem deSizes_record (A : Arith K) (l : Bool) (rk : Ser.Repr K) : ∃ f, deSizes A l rk = finish ((field (deMem rk)).andThen f) ∧
    ∀ a, LocalCursor (f a) := by
  refine ⟨_, by unfold deSizes rawSizes; rw [andThen_assoc], fun a => ?_⟩
  refine local_andThen ?_ (fun _ => local_lift _)
  exact (safe_andThen (safe_field (safe_deMem rk)) fun _ =>
    safe_andThen (safe_field (safe_deMem rk)) fun _ => safe_andThen (safe_field (safe_i64 l)) fun _ =>
      safe_andThen (safe_field (safe_i64 l)) fun _ => safe_andThen (safe_field (safe_i64 l)) fun _ => safe_done _).local

theorem local_deSizes (A : Arith K) (l : Bool) (rk : Ser.Repr K) : LocalDeserializer (deSizes A l rk) := by
  obtain ⟨f, h, hf⟩ := deSizes_record A l rk
  rw [h]
  exact local_record (safe_deMem rk).local hf

theorem local_deGrid_tail (A : Arith K) (l : Bool) (rk : Ser.Repr K) (invOf : M → Vec K → Vec K) (org : M) (d o : T) (data : List T) :
    LocalCursor ((field (deSizes A l rk)).andThen fun s =>
    (Cursor.lift s.totalCells).andThen fun n => Cursor.check (decide (n = data.length)) .runtimeError <|
    (field (deMem byteRepr)).andThen fun b => Cursor.check (s.valid == (b != 0)) .runtimeError <|
    Cursor.done (⟨org, ⟨invOf org, d, o, data, s, b != 0⟩⟩ : Stored M K T)) :=
  local_andThen (local_field (local_deSizes A l rk)) fun _ => local_andThen (local_lift _) fun _ => local_check _ _ <|
    local_andThen (safe_field (safe_deMem byteRepr)).local fun _ => local_check _ _ (safe_done _).local

/-- **C83** On every buffer and offset a successful deserialization reports a positive number of bytes, all inside the buffer,
and its result depends on those bytes only. -/
theorem C83_bounds (A : Arith K) (l : Bool) (rm : Ser.Repr M) (rk : Ser.Repr K) (invOf : M → Vec K → Vec K) (esz : Nat)
    (dv : Deserializer T) (hdv : SafeDeserializer dv) : LocalDeserializer (deGrid A l rm rk invOf esz dv) :=
  local_record (safe_deMem rm).local fun _ => local_andThen (safe_field hdv).local fun _ =>
    local_andThen (safe_field hdv).local fun _ => local_andThen (safe_field (safe_seq (header_safe l) esz hdv)).local fun _ =>
      local_deGrid_tail A l rk invOf _ _ _ _

/-- The buffer contains, somewhere, positive cell counts whose number of cells (or one of the partial products) does not fit
in `int64_t`. -/
def OverflowingCounts (l : Bool) (rk : Ser.Repr K) (buf : Buf) : Prop :=
  ∃ pos r p, rawSizes l rk buf pos = .ok (r, p) ∧ 0 < r.2.x ∧ 0 < r.2.y ∧ 0 < r.2.z ∧
    (¬ InI64 (r.2.y * r.2.z) ∨ ¬ InI64 (r.2.x * r.2.y) ∨ ¬ InI64 (volume r.2))

theorem initSizes_ub {A : Arith K} {cx cy cz : K} {n : Cell} (h : initSizes A cx cy cz n = .ub) :
    (0 < n.x ∧ 0 < n.y ∧ 0 < n.z) ∧ ¬ InI64 (n.y * n.z) := by
  unfold initSizes at h
  split at h
  · rename_i hc
    simp only [Bool.and_eq_true, decide_eq_true_eq] at hc
    refine ⟨⟨hc.1.1.2, hc.1.2, hc.2⟩, fun hi => ?_⟩
    rw [chk64_ok hi, Res.ok_bind] at h
    cases h
  · cases h

theorem lift_eq_ub {r : Res T} {buf : Buf} {pos : Nat} (h : Cursor.lift r buf pos = .ub) : r = .ub := by
  unfold Cursor.lift at h
  cases r with
  | ok x => cases h
  | throw e => cases h
  | ub => rfl

theorem andThen_ub {A B : Type} {c : Cursor A} {f : A → Cursor B} {buf : Buf} {pos : Nat} (h : c.andThen f buf pos = .ub) :
    c buf pos = .ub ∨ ∃ a p, c buf pos = .ok (a, p) ∧ f a buf p = .ub := by
  unfold Cursor.andThen at h
  cases hc : c buf pos with
  | ub => exact .inl rfl
  | throw e => rw [hc] at h; cases h
  | ok d => rw [hc, Res.ok_bind] at h; exact .inr ⟨d.1, d.2, rfl, h⟩

theorem safe_step {A B : Type} {c : Cursor A} (hs : SafeCursor c) {f : A → Cursor B} {buf : Buf} {pos : Nat}
    (hb : buf.length < TWO63) (hp : pos < TWO64) (h : c.andThen f buf pos = .ub) :
    ∃ a p, p < TWO64 ∧ f a buf p = .ub := by
  rcases andThen_ub h with h | ⟨a, p, h1, h2⟩
  · exact absurd h (hs buf pos hb hp).1
  · obtain ⟨g1, g2, _⟩ := (hs buf pos hb hp).2 a p h1
    refine ⟨a, p, ?_, h2⟩
    by_cases h : pos < p
    · have := g2 h; omega
    · omega

theorem mkDeserialized_ne_ub {v : T} {n : Nat} : mkDeserialized v n ≠ .ub := by
  unfold mkDeserialized; split <;> simp

theorem finish_ub {c : Cursor T} {buf : Buf} {off : Nat} (h : finish c buf off = .ub) : c buf off = .ub := by
  unfold finish at h
  cases hc : c buf off with
  | ub => rfl
  | throw e => rw [hc] at h; cases h
  | ok d => rw [hc, Res.ok_bind] at h; exact absurd h mkDeserialized_ne_ub

theorem field_ub {de : Deserializer T} {buf : Buf} {pos : Nat} (h : field de buf pos = .ub) : de buf pos = .ub := by
  unfold field at h
  cases hc : de buf pos with
  | ub => rfl
  | throw e => rw [hc] at h; cases h
  | ok d =>
    rw [hc, Res.ok_bind] at h
    unfold getValue at h
    split at h <;> cases h

theorem reinit_ub {A : Arith K} {cx cy cz : K} {n : Cell} (h : reinit A cx cy cz n = .ub) : initSizes A cx cy cz n = .ub := by
  unfold reinit at h
  cases hc : initSizes A cx cy cz n with
  | ub => rfl
  | throw e => rw [hc] at h; cases h
  | ok o => rw [hc] at h; cases h

theorem deSizes_from {A : Arith K} {l : Bool} {rk : Ser.Repr K} {buf : Buf} {pos : Nat} {s : Sizes K} {p : Nat}
    (h : field (deSizes A l rk) buf pos = .ok (s, p)) :
    ∃ r q, rawSizes l rk buf pos = .ok (r, q) ∧ reinit A r.1.x r.1.y r.1.z r.2 = .ok s := by
  unfold field at h
  obtain ⟨⟨s', m⟩, h1, hg⟩ := Res.bind_eq_ok.mp h
  unfold deSizes finish at h1
  obtain ⟨⟨s2, q⟩, h2, hf2⟩ := Res.bind_eq_ok.mp h1
  unfold Cursor.andThen Cursor.lift at h2
  obtain ⟨⟨r, q2⟩, h3, h4⟩ := Res.bind_eq_ok.mp h2
  obtain ⟨s3, hr, he⟩ := Res.bind_eq_ok.mp h4
  have e0 : s3 = s2 := by cases he; rfl
  have e1 : s2 = s' := by
    unfold mkDeserialized at hf2
    split at hf2 <;> cases hf2
    rfl
  have e2 : s' = s := by
    unfold getValue at hg
    split at hg
    · cases hg
    · cases hg; rfl
  rw [e0, e1, e2] at hr
  exact ⟨r, q2, h3, hr⟩

theorem totalCells_ub {s : Sizes K} (h : s.totalCells = .ub) : ¬ InI64 (s.n.x * s.n.y) ∨ ¬ InI64 (volume s.n) := by
  by_contra hc
  push Not at hc
  unfold Sizes.totalCells at h
  rw [chk64_ok hc.1, Res.ok_bind, chk64_ok (show InI64 (s.n.x * s.n.y * s.n.z) from hc.2)] at h
  cases h

/-- **C83** Whatever the bytes, the only undefined behaviour of deserialization is the overflow of a product of cell counts
that the buffer contains. -/
theorem C83_ub_only_overflow (A : Arith K) (l : Bool) (rm : Ser.Repr M) (rk : Ser.Repr K) (invOf : M → Vec K → Vec K) (esz : Nat)
    (dv : Deserializer T) (hdv : SafeDeserializer dv) (buf : Buf) (off : Nat) (hb : buf.length < TWO63) (ho : off < TWO64)
    (h : deGrid A l rm rk invOf esz dv buf off = .ub) : OverflowingCounts l rk buf := by
  have h := finish_ub h
  obtain ⟨org, p1, hp1, h⟩ := safe_step (safe_field (safe_deMem rm)) hb ho h
  obtain ⟨d, p2, hp2, h⟩ := safe_step (safe_field hdv) hb hp1 h
  obtain ⟨o, p3, hp3, h⟩ := safe_step (safe_field hdv) hb hp2 h
  obtain ⟨data, p4, hp4, h⟩ := safe_step (safe_field (safe_seq (header_safe l) esz hdv)) hb hp3 h
  rcases andThen_ub h with h | ⟨s, p5, hs, h⟩
  · have h := finish_ub (field_ub h)
    rcases andThen_ub h with h | ⟨r, q, hr, h⟩
    · exact absurd h (safe_rawSizes l rk buf p4 hb hp4).1
    · obtain ⟨⟨a, b, c⟩, hov⟩ := initSizes_ub (reinit_ub (lift_eq_ub h))
      exact ⟨p4, r, q, hr, a, b, c, .inl hov⟩
  · obtain ⟨r, q, hr, hre⟩ := deSizes_from hs
    rcases andThen_ub h with h | ⟨n, p6, hn, h⟩
    · have hov := totalCells_ub (lift_eq_ub h)
      rcases reinit_cases hre with hm | hd
      · obtain ⟨⟨a, b, c⟩, _, hnn, _⟩ := mkSizes_ok hm
        rw [hnn] at hov
        exact ⟨p4, r, q, hr, a, b, c, .inr hov⟩
      · subst hd
        exfalso
        rcases hov with hov | hov <;> exact hov (by show InI64 0; decide)
    · exfalso
      have hp6 : p6 < TWO64 := by
        obtain ⟨_, g2, _⟩ := local_field (local_deSizes A l rk) buf p4 hb hp4 s p5 hs
        have e : p6 = p5 := by
          unfold Cursor.lift at hn
          obtain ⟨_, _, hn⟩ := Res.bind_eq_ok.mp hn
          cases hn; rfl
        by_cases h : p4 < p5
        · have := g2 h; omega
        · have := (local_field (local_deSizes A l rk) buf p4 hb hp4 s p5 hs).1
          omega
      exact (safe_check _ _ (safe_andThen (safe_field (safe_deMem byteRepr)) fun _ => safe_check _ _ (safe_done _)) buf p6 hb hp6).1 h


/-! ### Where it fails -/

/-- An exception or undefined behaviour. -/
def failRes (T : Type) : Option Exc → Res T
  | some e => .throw e
  | none => .ub

/-- The bytes written by `w` make the read `c` fail with `e`. -/
def WritesFails (e : Option Exc) (w : Buf → Res Buf) (c : Cursor T) : Prop :=
  ∃ enc : Buf, (∀ buf : Buf, (buf ++ enc).length < TWO63 → w buf = .ok (buf ++ enc)) ∧
    ∀ pre post : Buf, (pre ++ enc ++ post).length < TWO63 → c (pre ++ enc ++ post) pre.length = failRes (T × Nat) e

theorem wf_seq {A B : Type} {e : Option Exc} {wa wb : Buf → Res Buf} {ca : Cursor A} {f : A → Cursor B} {x : A}
    (ha : WritesReads (fun y => y = x) wa ca) (hb : WritesFails e wb (f x)) : WritesFails e (seqW wa wb) (ca.andThen f) := by
  obtain ⟨e1, s1, d1⟩ := ha
  obtain ⟨e2, s2, d2⟩ := hb
  refine ⟨e1 ++ e2, ?_, ?_⟩
  · intro buf hbuf
    have hl : buf.length + e1.length + e2.length < TWO63 := by simpa [Nat.add_assoc] using hbuf
    unfold seqW
    rw [s1 buf (by simp; omega), Res.ok_bind, s2 (buf ++ e1) (by simp; omega), List.append_assoc]
  · intro pre post hl
    have eq1 : pre ++ (e1 ++ e2) ++ post = pre ++ e1 ++ (e2 ++ post) := by simp
    have eq2 : pre ++ (e1 ++ e2) ++ post = (pre ++ e1) ++ e2 ++ post := by simp
    obtain ⟨y, hy, rfl⟩ := d1 pre (e2 ++ post) (by rw [← eq1]; exact hl)
    unfold Cursor.andThen
    rw [eq1, hy, Res.ok_bind]
    dsimp only
    rw [← eq1, eq2, d2 (pre ++ e1) post (by rw [← eq2]; exact hl)]

theorem wf_of_reads {A B : Type} {e : Option Exc} {w : Buf → Res Buf} {ca : Cursor A} {f : A → Cursor B} {x : A}
    (ha : WritesReads (fun y => y = x) w ca) (hf : ∀ buf pos, f x buf pos = failRes (B × Nat) e) :
    WritesFails e w (ca.andThen f) := by
  obtain ⟨e1, s1, d1⟩ := ha
  refine ⟨e1, s1, fun pre post hl => ?_⟩
  obtain ⟨y, hy, rfl⟩ := d1 pre post hl
  unfold Cursor.andThen
  rw [hy, Res.ok_bind, hf]

/-- A record whose deserialization fails. -/
theorem wf_finish {e : Option Exc} {w : T → Buf → Res Buf} {c : Cursor T} {x : T} (h : WritesFails e (w x) c) :
    ∃ enc : Buf, (∀ buf : Buf, (buf ++ enc).length < TWO63 → wrote w x buf = .ok (buf ++ enc, enc.length)) ∧
      ∀ pre post : Buf, (pre ++ enc ++ post).length < TWO63 → finish c (pre ++ enc ++ post) pre.length = failRes (T × Nat) e := by
  obtain ⟨enc, s, d⟩ := h
  refine ⟨enc, fun buf hb => ?_, fun pre post hl => ?_⟩
  · unfold wrote
    rw [s buf hb, Res.ok_bind, Res.pure_eq]
    simp
  · unfold finish
    rw [d pre post hl]
    cases e <;> rfl

theorem raw_reads (l : Bool) (rk : Ser.Repr K) (s : Sizes K) (hx : InI64 s.n.x) (hy : InI64 s.n.y) (hz : InI64 s.n.z) :
    WritesReads (fun y => y = ((⟨s.cx, s.cy, s.cz, s.cx⟩, s.n) : Vec K × Cell))
      (seqW (put (serMem rk) s.cx) (seqW (put (serMem rk) s.cy) (seqW (put (serMem rk) s.cz)
      (seqW (put (serI64 l) s.n.x) (seqW (put (serI64 l) s.n.y) (put (serI64 l) s.n.z)))))) (rawSizes l rk) := by
  have h := wr_rawSizes l rk s hx hy hz (Q := fun y => y = ((⟨s.cx, s.cy, s.cz, s.cx⟩, s.n) : Vec K × Cell)) (f := Cursor.done)
    (wr_done _ _ rfl)
  have e : (rawSizes l rk).andThen Cursor.done = rawSizes l rk := by
    funext buf pos
    unfold Cursor.andThen Cursor.done
    cases rawSizes l rk buf pos <;> rfl
  rwa [e] at h

theorem wf_field {e : Option Exc} {A B : Type} {ser : Serializer A} {x : A} {de : Deserializer A} {f : A → Cursor B}
    (h : ∃ enc : Buf, (∀ buf : Buf, (buf ++ enc).length < TWO63 → ser x buf = .ok (buf ++ enc, enc.length)) ∧
      ∀ pre post : Buf, (pre ++ enc ++ post).length < TWO63 → de (pre ++ enc ++ post) pre.length = failRes (A × Nat) e)
    {wb : Buf → Res Buf} {enc2 : Buf} (hb : ∀ buf : Buf, (buf ++ enc2).length < TWO63 → wb buf = .ok (buf ++ enc2)) :
    WritesFails e (seqW (put ser x) wb) ((field de).andThen f) := by
  obtain ⟨enc, s, d⟩ := h
  refine ⟨enc ++ enc2, fun buf hl => ?_, fun pre post hl => ?_⟩
  · have hl' : buf.length + enc.length + enc2.length < TWO63 := by simpa [Nat.add_assoc] using hl
    unfold seqW put
    rw [s buf (by simp; omega), Res.ok_bind, Res.pure_eq, Res.ok_bind, hb _ (by simp; omega), List.append_assoc]
  · have eq1 : pre ++ (enc ++ enc2) ++ post = pre ++ enc ++ (enc2 ++ post) := by simp
    unfold Cursor.andThen field
    rw [eq1, d pre (enc2 ++ post) (by rw [← eq1]; exact hl)]
    cases e <;> rfl

/-- C83 is false for arbitrary bytes: bytes that encode positive cell sizes and `1 x 2^32 x 2^32` cells make deserialization
overflow a signed integer (undefined behaviour) instead of throwing. The bytes have the format written by `Serialize`. -/
theorem C83_overflow_false (A : Arith K) (l : Bool) (rm : Ser.Repr M) (rk : Ser.Repr K) (invOf : M → Vec K → Vec K) (esz : Nat)
    (sv : Serializer T) (dv : Deserializer T) (org : M) (v : T) (hv : RoundTrips sv dv v) (c : K) (hc : A.pos c = true) :
    ∃ enc : Buf, ∀ pre post : Buf, (pre ++ enc ++ post).length < TWO63 →
      deGrid A l rm rk invOf esz dv (pre ++ enc ++ post) pre.length = .ub := by
  let bad : Sizes K := { defaultSizes A with cx := c, cy := c, cz := c, n := ⟨1, 4294967296, 4294967296⟩ }
  have hr : WritesFails (T := Sizes K) none _ ((rawSizes l rk).andThen fun r => Cursor.lift (reinit A r.1.x r.1.y r.1.z r.2)) :=
    wf_of_reads (raw_reads l rk bad (by show InI64 1; decide) (by show InI64 4294967296; decide) (by show InI64 4294967296; decide)) (by
      intro buf pos
      have : reinit A c c c ⟨1, 4294967296, 4294967296⟩ = .ub := by
        unfold reinit initSizes
        rw [if_pos (by simp [hc])]
        rfl
      show Cursor.lift (reinit A c c c ⟨1, 4294967296, 4294967296⟩) buf pos = .ub
      rw [this]; rfl)
  have hs := wf_finish (w := fun s : Sizes K => seqW (put (serMem rk) s.cx) (seqW (put (serMem rk) s.cy) (seqW (put (serMem rk) s.cz)
    (seqW (put (serI64 l) s.n.x) (seqW (put (serI64 l) s.n.y) (put (serI64 l) s.n.z)))))) hr
  have hb : ∀ buf : Buf, (buf ++ ([1] : Buf)).length < TWO63 → put (serMem byteRepr) 1 buf = .ok (buf ++ [1]) := by
    intro buf _; rfl
  have key := wf_seq (wr_field (rt_mem rm org)) (f := fun org => (field dv).andThen fun d => (field dv).andThen fun o =>
    (field (deSeq (deU64 l) esz dv)).andThen fun data => (field (deSizes A l rk)).andThen fun s =>
    (Cursor.lift s.totalCells).andThen fun n => Cursor.check (decide (n = data.length)) .runtimeError <|
    (field (deMem byteRepr)).andThen fun b => Cursor.check (s.valid == (b != 0)) .runtimeError <|
    Cursor.done (⟨org, ⟨invOf org, d, o, data, s, b != 0⟩⟩ : Stored M K T)) <|
    wf_seq (wr_field hv) <| wf_seq (wr_field hv) <|
    wf_seq (wr_field (rt_list (header_good l) esz sv dv [] (by simp) (by simp) (by simp))) <|
    wf_field (ser := serSizes l rk) (x := bad) (de := deSizes A l rk) hs hb
  obtain ⟨enc, _, d⟩ := wf_finish (w := fun _ : Stored M K T => _) (x := ⟨org, ⟨invOf org, v, v, [], bad, true⟩⟩) key
  exact ⟨enc, d⟩

/-- C83 is also false for grids whose sizes were given as lengths so short, compared to the cells, that the quotient underflows
to zero cells: such sizes are accepted as valid, the (empty) grid is serialized, and deserializing those bytes throws. -/
theorem C83_zero_cells_false (A : Arith K) (l : Bool) (rm : Ser.Repr M) (rk : Ser.Repr K) (invOf : M → Vec K → Vec K) (esz : Nat)
    (sv : Serializer T) (dv : Deserializer T) (org : M) (v o : T) (hv : RoundTrips sv dv v) (ho : RoundTrips sv dv o)
    {cx cy cz sx sy sz : K} {s : Sizes K} (hs : mkSizesD A cx cy cz sx sy sz = .ok s)
    (hz : s.n.x = 0) (hy : InI64 s.n.y) (hzz : InI64 s.n.z) :
    ∃ g : Grid K T, initGrid (invOf org) s v o = .ok g ∧ ∃ enc : Buf,
      (∀ buf : Buf, (buf ++ enc).length < TWO63 → serGrid l rm rk sv ⟨org, g⟩ buf = .ok (buf ++ enc, enc.length)) ∧
      ∀ pre post : Buf, (pre ++ enc ++ post).length < TWO63 →
        deGrid A l rm rk invOf esz dv (pre ++ enc ++ post) pre.length = .throw .runtimeError := by
  have hvalid : s.valid = true := by
    unfold mkSizesD at hs
    cases hi : initSizesD A cx cy cz sx sy sz with
    | ub => rw [hi] at hs; cases hs
    | throw e => rw [hi] at hs; cases hs
    | ok x =>
      rw [hi] at hs
      cases x with
      | none => cases hs
      | some t =>
        cases hs
        unfold initSizesD at hi
        split at hi
        · obtain ⟨_, _, hi⟩ := Res.bind_eq_ok.mp hi
          obtain ⟨_, _, hi⟩ := Res.bind_eq_ok.mp hi
          obtain ⟨_, _, hi⟩ := Res.bind_eq_ok.mp hi
          obtain ⟨_, _, hi⟩ := Res.bind_eq_ok.mp hi
          cases hi; rfl
        · cases hi
  have htot : s.totalCells = .ok 0 := by
    unfold Sizes.totalCells
    rw [hz, Int.zero_mul, chk64_ok (by decide), Res.ok_bind, Int.zero_mul, chk64_ok (by decide)]
  have hx : InI64 s.n.x := by rw [hz]; decide
  refine ⟨⟨invOf org, v, o, [], s, true⟩, ?_, ?_⟩
  · unfold initGrid setContents
    rw [if_pos hvalid]
    dsimp only
    rw [htot]
    rfl
  · have hsz : WritesReads (fun y => y = defaultSizes A) (put (serSizes l rk) s) (field (deSizes A l rk)) := by
      have hre : reinit A s.cx s.cy s.cz s.n = .ok (defaultSizes A) := by
        unfold reinit initSizes
        rw [if_neg (by simp [hz])]
        rfl
      have hw := wr_rawSizes l rk s hx hy hzz (Q := fun y => y = defaultSizes A)
        (f := fun r => Cursor.lift (reinit A r.1.x r.1.y r.1.z r.2)) (by
          dsimp only
          rw [hre]
          have : (Cursor.lift (.ok (defaultSizes A))) = Cursor.done (defaultSizes A) := by
            funext buf pos; simp [Cursor.lift, Cursor.done]
          rw [this]
          exact wr_done _ _ rfl)
      obtain ⟨enc, hs1, hd1⟩ := hw
      have hpos : enc ≠ [] := by
        intro h0
        subst h0
        have := hs1 [] (by simp)
        obtain ⟨e1, n1, hw1, _⟩ := rt_mem rk s.cx
        unfold seqW at this
        obtain ⟨b, hb, h2⟩ := Res.bind_eq_ok.mp this
        have hlen : ∀ (x : K) (b b' : Buf), put (serMem rk) x b = .ok b' → b.length ≤ b'.length := by
          intro x b b' h; unfold put serMem at h; simp at h; subst h; simp
        have hleni : ∀ (x : Int) (b b' : Buf), put (serI64 l) x b = .ok b' → b.length ≤ b'.length := by
          intro x b b' h; unfold put serI64 serU64 at h; simp at h; subst h; simp
        obtain ⟨b2, hb2, h2⟩ := Res.bind_eq_ok.mp h2
        obtain ⟨b3, hb3, h2⟩ := Res.bind_eq_ok.mp h2
        obtain ⟨b4, hb4, h2⟩ := Res.bind_eq_ok.mp h2
        obtain ⟨b5, hb5, h2⟩ := Res.bind_eq_ok.mp h2
        have l1 : 0 < b.length := by
          unfold put serMem at hb; simp at hb; subst hb; rw [rk.length_bytes]; exact rk.pos
        have := hlen _ _ _ hb2
        have := hlen _ _ _ hb3
        have := hleni _ _ _ hb4
        have := hleni _ _ _ hb5
        have := hleni _ _ _ h2
        rw [List.append_nil, List.length_nil] at this
        omega
      have hp : 0 < enc.length := List.length_pos_iff.mpr hpos
      refine ⟨enc, fun buf hb => ?_, fun pre post hl => ?_⟩
      · unfold put serSizes wrote
        dsimp only
        rw [hs1 buf hb]
        rfl
      · obtain ⟨y, hy, rfl⟩ := hd1 pre post hl
        refine ⟨_, ?_, rfl⟩
        have hl2 : pre.length + enc.length + post.length < TWO63 := by simpa [Nat.add_assoc] using hl
        unfold field deSizes finish
        rw [hy, Res.ok_bind]
        dsimp only
        rw [List.length_append, sub64 (by omega) (by omega), mkD_ok (by omega), Res.ok_bind, getValue_ok (by dsimp only; omega),
          Res.ok_bind, Res.pure_eq]
        dsimp only
        rw [add64_eq (by omega)]
        congr 2
        omega
    have hlast : WritesFails (T := Stored M K T) (some .runtimeError) (put (serMem byteRepr) 1)
        ((Cursor.lift (defaultSizes A).totalCells).andThen fun n => Cursor.check (decide (n = (([] : List T).length : Int))) .runtimeError <|
          (field (deMem byteRepr)).andThen fun b => Cursor.check ((defaultSizes A).valid == (b != 0)) .runtimeError <|
          Cursor.done (⟨org, ⟨invOf org, v, o, [], defaultSizes A, b != 0⟩⟩ : Stored M K T)) := by
      have h1 := wf_of_reads (e := some .runtimeError) (wr_field (rt_mem byteRepr 1))
        (f := fun b => Cursor.check ((defaultSizes A).valid == (b != 0)) .runtimeError <|
          Cursor.done (⟨org, ⟨invOf org, v, o, [], defaultSizes A, b != 0⟩⟩ : Stored M K T)) (fun _ _ => rfl)
      obtain ⟨enc, a, b⟩ := h1
      exact ⟨enc, a, fun pre post hl => b pre post hl⟩
    have key := wf_seq (wr_field (rt_mem rm org)) (f := fun org => (field dv).andThen fun d => (field dv).andThen fun o =>
      (field (deSeq (deU64 l) esz dv)).andThen fun data => (field (deSizes A l rk)).andThen fun s =>
      (Cursor.lift s.totalCells).andThen fun n => Cursor.check (decide (n = data.length)) .runtimeError <|
      (field (deMem byteRepr)).andThen fun b => Cursor.check (s.valid == (b != 0)) .runtimeError <|
      Cursor.done (⟨org, ⟨invOf org, d, o, data, s, b != 0⟩⟩ : Stored M K T)) <|
      wf_seq (wr_field hv) <| wf_seq (wr_field ho) <|
      wf_seq (wr_field (rt_list (header_good l) esz sv dv [] (by simp) (by simp) (by simp))) <|
      wf_seq hsz hlast
    obtain ⟨enc, a, b⟩ := wf_finish (w := fun _ : Stored M K T => _) (x := ⟨org, ⟨invOf org, v, o, [], s, true⟩⟩) key
    exact ⟨enc, a, b⟩


/-! ### Non-vacuity -/

/-- Integer arithmetic on 64-bit words, as an arithmetic with a finite representation. -/
def wordArith : Arith UInt64 where
  sub a b := a - b
  mul a b := a * b
  div a b := a / b
  add a b := a + b
  one := 1
  half := 0
  ofInt i := UInt64.ofNat i.toNat
  floor a := a.toNat
  ceil a := a.toNat
  pos a := decide (0 < a)

/-- Sizes of a 2 x 3 x 4 grid of cells of size 1. -/
def wordSizes : Sizes UInt64 := ⟨1, 1, 1, 1, 1, 1, ⟨2, 3, 4⟩, 2, 3, 4, 12, 4, true⟩

theorem mk_wordSizes : mkSizes wordArith 1 1 1 ⟨2, 3, 4⟩ = .ok wordSizes := by rfl

example (ops : List (Op UInt64 UInt8)) : ∃ g : Grid UInt64 UInt8, initGrid id wordSizes 7 9 = .ok g ∧
    ∀ org : UInt8, (runAll wordArith allowAll ((), g) ops).1.2.inv = id →
      RoundTrips (serGrid true byteRepr (Rrt.word true) (serMem byteRepr))
        (deGrid wordArith true byteRepr (Rrt.word true) (fun _ => id) 1 (deMem byteRepr)) ⟨org, (runAll wordArith allowAll ((), g) ops).1.2⟩ :=
  C83_history_round_trip wordArith true byteRepr (Rrt.word true) (fun _ => id) 1 _ _ (rt_mem byteRepr) mk_wordSizes
    (by decide) (by decide) id 7 9 allowAll () ops

example : wordArith.pos 1 = true ∧ SafeDeserializer (deMem byteRepr) := ⟨rfl, safe_deMem _⟩

/-- Sizes 1 x 2 x 2 with cells of size 2: no cells along x in this arithmetic. -/
example : ∃ s, mkSizesD wordArith 2 2 2 1 2 2 = .ok s ∧ s.n.x = 0 ∧ InI64 s.n.y ∧ InI64 s.n.z :=
  ⟨⟨2, 2, 2, 0, 0, 0, ⟨0, 1, 1⟩, 0, 2, 2, 1, 1, true⟩, by rfl, by decide, by decide, by decide⟩

/-- With IEEE double precision: cells of size 2^600 and a length of 2^-600 give zero cells, although all six arguments are positive
and finite. -/
theorem C83_zero_cells_binary64 :
    (roundedArith (Fl.nearestEven 53 (-1074))).ceil
      ((roundedArith (Fl.nearestEven 53 (-1074))).div ((1 : ℚ) / 2 ^ 600) (2 ^ 600)) = 0 := by
  have h : Fl.nearestEven 53 (-1074) ((1 : ℚ) / 2 ^ 600 / 2 ^ 600) = 0 := by decide +kernel
  show ⌈Fl.nearestEven 53 (-1074) ((1 : ℚ) / 2 ^ 600 / 2 ^ 600)⌉ = 0
  rw [h]; simp

end CRU.Voxel
