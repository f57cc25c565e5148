import Verif.Serialization.Lemmas2
/-
  Hand-written `SerializeSelf` / `DeserializeSelf` member functions: a sequence of field writes, and a sequence of field
  reads with `current_position += deserialized.BytesRead()` (e.g. simple_graph.hpp:63-104, voxel_grid.hpp, …).
-/
namespace CRU.Ser

variable {T A B : Type}

/-- Reading with an explicit current position: value and new position. -/
abbrev Cursor (T : Type) := Buf → Nat → Res (T × Nat)

/-- `const auto d = Deserialize…(buffer, current_position); x = d.Value(); current_position += d.BytesRead();`
(simple_graph.hpp:80-84). -/
def field (de : Deserializer T) : Cursor T := fun buf pos => do
  let d ← de buf pos
  let d ← getValue d
  pure (d.1, add64 pos d.2)

/-- Sequencing. -/
def Cursor.andThen (c : Cursor A) (f : A → Cursor B) : Cursor B := fun buf pos => do
  let r ← c buf pos
  f r.1 buf r.2

/-- Nothing more to read. -/
def Cursor.done (x : T) : Cursor T := fun _ pos => .ok (x, pos)

/-- A check that may throw (e.g. simple_graph.hpp:637-647). -/
def Cursor.check (ok : Bool) (e : Exc) (c : Cursor T) : Cursor T := fun buf pos => if ok then c buf pos else .throw e

/-- `bytes_read = current_position - starting_offset; return MakeDeserialized(temp, bytes_read);`
(simple_graph.hpp:101-103, 40-47). -/
def finish (c : Cursor T) : Deserializer T := fun buf off => do
  let r ← c buf off
  mkDeserialized r.1 (diff64 r.2 off)

/-- A field write: only the buffer effect matters, the returned count is ignored (simple_graph.hpp:66-69). -/
def put (ser : Serializer T) (x : T) : Buf → Res Buf := fun buf => do
  let r ← ser x buf
  pure r.1

/-- Sequencing of writes. -/
def seqW (a b : Buf → Res Buf) : Buf → Res Buf := fun buf => do
  let r ← a buf
  b r

/-- `bytes_written = end_buffer_size - start_buffer_size` (simple_graph.hpp:70-73). -/
def wrote (w : T → Buf → Res Buf) : Serializer T := fun x buf => do
  let r ← w x buf
  pure (r, r.length - buf.length)

/-! ### Round trips -/

/-- The write `w` is undone by the read `c`, which returns a value related to `x` and stands behind the written bytes. -/
def WritesReads (eqv : T → Prop) (w : Buf → Res Buf) (c : Cursor T) : Prop :=
  ∃ enc : Buf, (∀ buf : Buf, (buf ++ enc).length < TWO63 → w buf = .ok (buf ++ enc)) ∧
    ∀ pre post : Buf, (pre ++ enc ++ post).length < TWO63 →
      ∃ y, c (pre ++ enc ++ post) pre.length = .ok (y, (pre ++ enc).length) ∧ eqv y

theorem wr_field {eqv : T → T → Prop} {ser : Serializer T} {de : Deserializer T} {x : T}
    (h : RoundTripsUpTo eqv ser de x) : WritesReads (fun y => eqv y x) (put ser x) (field de) := by
  obtain ⟨enc, ne, s, d⟩ := h
  have hpos : 0 < enc.length := List.length_pos_iff.mpr ne
  refine ⟨enc, ?_, ?_⟩
  · intro buf hb
    unfold put
    rw [s buf hb, Res.ok_bind, Res.pure_eq]
  · intro pre post hl
    obtain ⟨y, hy, he⟩ := d pre post hl
    refine ⟨y, ?_, he⟩
    have hl2 : pre.length + enc.length + post.length < TWO63 := by simpa [Nat.add_assoc] using hl
    unfold field
    rw [hy, Res.ok_bind, getValue_ok (show (y, enc.length).2 ≠ 0 by dsimp only; omega), Res.ok_bind, Res.pure_eq]
    dsimp only
    rw [add64_eq (by omega), List.length_append]

theorem wr_seq {P : A → Prop} {Q : B → Prop} {wa wb : Buf → Res Buf} {ca : Cursor A} {f : A → Cursor B}
    (ha : WritesReads P wa ca) (hb : ∃ enc : Buf, (∀ buf : Buf, (buf ++ enc).length < TWO63 → wb buf = .ok (buf ++ enc)) ∧
      ∀ a, P a → ∀ pre post : Buf, (pre ++ enc ++ post).length < TWO63 →
        ∃ y, f a (pre ++ enc ++ post) pre.length = .ok (y, (pre ++ enc).length) ∧ Q y) :
    WritesReads Q (seqW wa wb) (ca.andThen f) := by
  obtain ⟨e1, s1, d1⟩ := ha
  obtain ⟨e2, s2, d2⟩ := hb
  refine ⟨e1 ++ e2, ?_, ?_⟩
  · intro buf hbuf
    have hl : buf.length + e1.length + e2.length < TWO63 := by simpa [Nat.add_assoc] using hbuf
    unfold seqW
    rw [s1 buf (by simp; omega), Res.ok_bind, s2 (buf ++ e1) (by simp; omega), List.append_assoc]
  · intro pre post hl
    have hl' : pre.length + e1.length + e2.length + post.length < TWO63 := by simpa [Nat.add_assoc] using hl
    have eq1 : pre ++ (e1 ++ e2) ++ post = pre ++ e1 ++ (e2 ++ post) := by simp
    have eq2 : pre ++ (e1 ++ e2) ++ post = (pre ++ e1) ++ e2 ++ post := by simp
    obtain ⟨y, hy, hey⟩ := d1 pre (e2 ++ post) (by rw [← eq1]; exact hl)
    obtain ⟨z, hz, hez⟩ := d2 y hey (pre ++ e1) post (by rw [← eq2]; exact hl)
    refine ⟨z, ?_, hez⟩
    unfold Cursor.andThen
    rw [eq1, hy, Res.ok_bind]
    dsimp only
    rw [← eq1, eq2, hz]
    simp

theorem wr_done (Q : B → Prop) (b : B) (h : Q b) : WritesReads Q (fun buf => .ok buf) (Cursor.done b) :=
  ⟨[], by simp, fun pre post _ => ⟨b, by simp [Cursor.done], h⟩⟩

/-- Sequencing when the continuation's write does not depend on what was read. -/
theorem wr_seq_eq {Q : B → Prop} {wa wb : Buf → Res Buf} {ca : Cursor A} {f : A → Cursor B} {x : A}
    (ha : WritesReads (fun y => y = x) wa ca) (hb : WritesReads Q wb (f x)) :
    WritesReads Q (seqW wa wb) (ca.andThen f) := by
  obtain ⟨e2, s2, d2⟩ := hb
  exact wr_seq ha ⟨e2, s2, fun a h => h ▸ d2⟩

theorem wr_finish {eqv : T → T → Prop} {w : T → Buf → Res Buf} {c : Cursor T} {x : T}
    (h : WritesReads (fun y => eqv y x) (w x) c) (hne : w x [] ≠ .ok []) :
    RoundTripsUpTo eqv (wrote w) (finish c) x := by
  obtain ⟨enc, s, d⟩ := h
  have hen : enc ≠ [] := by
    intro h0
    subst h0
    exact hne (s [] (by simp))
  have hpos : 0 < enc.length := List.length_pos_iff.mpr hen
  refine ⟨enc, hen, ?_, ?_⟩
  · intro buf hb
    unfold wrote
    rw [s buf hb, Res.ok_bind, Res.pure_eq]
    simp
  · intro pre post hl
    have hl2 : pre.length + enc.length + post.length < TWO63 := by simpa [Nat.add_assoc] using hl
    obtain ⟨y, hy, he⟩ := d pre post hl
    refine ⟨y, ?_, he⟩
    unfold finish
    rw [hy, Res.ok_bind]
    dsimp only
    rw [List.length_append, sub64 (by omega) (by omega), mkD_ok (by omega)]
    congr 2
    omega

/-- The last field of a record. -/
theorem wr_last {Q : B → Prop} {wa : Buf → Res Buf} {ca : Cursor A} {x : A} {g : A → B}
    (ha : WritesReads (fun y => y = x) wa ca) (hq : Q (g x)) :
    WritesReads Q wa (ca.andThen fun a => Cursor.done (g a)) := by
  obtain ⟨e, s, d⟩ := ha
  refine ⟨e, s, fun pre post hl => ?_⟩
  obtain ⟨y, hy, rfl⟩ := d pre post hl
  exact ⟨g y, by unfold Cursor.andThen; rw [hy, Res.ok_bind]; rfl, hq⟩

/-- A sequence of values that all round-trip. -/
theorem rt_list {hs hd} (hh : GoodHeader hs hd) (esz : Nat) (item : Serializer T) (di : Deserializer T)
    (xs : List T) (hsz : xs.length * esz < TWO63) (hn : xs.length < TWO64)
    (h : ∀ x ∈ xs, RoundTrips item di x) : RoundTrips (serSeq hs item) (deSeq hd esz di) xs := by
  obtain ⟨e, ne, s, d⟩ := rt_seq hh esz Eq item di xs hsz hn h
  refine ⟨e, ne, s, fun pre post hl => ?_⟩
  obtain ⟨y, hy, hf⟩ := d pre post hl
  exact ⟨y, hy, by rw [List.forall₂_eq_eq_eq] at hf; exact hf⟩

/-- A record whose first field round-trips and whose other fields are read back as written. -/
theorem rt_record {eqv : T → T → Prop} {w : T → Buf → Res Buf} {x : T} {x1 : A} {ser1 : Serializer A}
    {de1 : Deserializer A} {wb : Buf → Res Buf} {f : A → Cursor T} (h1 : RoundTrips ser1 de1 x1)
    (hb : WritesReads (fun y => eqv y x) wb (f x1)) (hw : w x = seqW (put ser1 x1) wb) :
    RoundTripsUpTo eqv (wrote w) (finish ((field de1).andThen f)) x := by
  obtain ⟨e1, ne1, s1, d1⟩ := h1
  obtain ⟨e2, s2, d2⟩ := hb
  have hpos : 0 < e1.length := List.length_pos_iff.mpr ne1
  refine ⟨e1 ++ e2, by simp [ne1], ?_, ?_⟩
  · intro buf hb
    have hl : buf.length + e1.length + e2.length < TWO63 := by simpa [Nat.add_assoc] using hb
    unfold wrote
    rw [hw]
    unfold seqW put
    rw [s1 buf (by simp; omega), Res.ok_bind, Res.pure_eq, Res.ok_bind, s2 (buf ++ e1) (by simp; omega), Res.ok_bind,
      Res.pure_eq]
    simp
  · intro pre post hl
    have hl' : pre.length + e1.length + e2.length + post.length < TWO63 := by simpa [Nat.add_assoc] using hl
    have eq1 : pre ++ (e1 ++ e2) ++ post = pre ++ e1 ++ (e2 ++ post) := by simp
    have eq2 : pre ++ (e1 ++ e2) ++ post = (pre ++ e1) ++ e2 ++ post := by simp
    obtain ⟨y, hy, rfl⟩ := d1 pre (e2 ++ post) (by rw [← eq1]; exact hl)
    obtain ⟨z, hz, hez⟩ := d2 (pre ++ e1) post (by rw [← eq2]; exact hl)
    refine ⟨z, ?_, hez⟩
    unfold finish Cursor.andThen field
    rw [eq1, hy, Res.ok_bind, getValue_ok (show (y, e1.length).2 ≠ 0 by dsimp only; omega), Res.ok_bind, Res.pure_eq,
      Res.ok_bind]
    dsimp only
    rw [add64_eq (by omega), ← eq1, eq2, ← List.length_append, hz, Res.ok_bind]
    dsimp only
    rw [List.length_append, List.length_append, sub64 (by omega) (by omega), mkD_ok (by omega)]
    congr 2
    simp; omega

/-! ### Safety -/

/-- From a position inside the buffer the read throws or ends at a later position inside, depending only on the bytes in
between; never undefined. -/
def SafeCursor (c : Cursor T) : Prop :=
  ∀ (buf : Buf) (pos : Nat), buf.length < TWO63 → pos < TWO64 →
    c buf pos ≠ .ub ∧
    ∀ v p, c buf pos = .ok (v, p) → pos ≤ p ∧ (pos < p → p ≤ buf.length) ∧
      ∀ buf' : Buf, buf'.length < TWO63 → (pos < p → p ≤ buf'.length) →
        (buf'.drop pos).take (p - pos) = (buf.drop pos).take (p - pos) → c buf' pos = .ok (v, p)

theorem safe_field {de : Deserializer T} (h : SafeDeserializer de) : SafeCursor (field de) := by
  intro buf pos hb hp
  obtain ⟨hu, hok⟩ := h buf pos hb hp
  cases hd : de buf pos with
  | ub => exact absurd hd hu
  | throw e =>
    have : field de buf pos = .throw e := by unfold field; rw [hd, Res.throw_bind]
    rw [this]; exact ⟨by simp, by simp⟩
  | ok d =>
    obtain ⟨v, n⟩ := d
    obtain ⟨h1, h2, h3⟩ := hok v n hd
    have common : ∀ b : Buf, de b pos = .ok (v, n) → field de b pos = .ok (v, pos + n) := by
      intro b hb
      unfold field
      rw [hb, Res.ok_bind, getValue_ok (show (v, n).2 ≠ 0 by dsimp only; omega), Res.ok_bind, Res.pure_eq]
      dsimp only
      rw [add64_eq (by omega)]
    rw [common buf hd]
    refine ⟨by simp, ?_⟩
    intro v' p' heq
    simp only [Res.ok.injEq, Prod.mk.injEq] at heq
    obtain ⟨rfl, rfl⟩ := heq
    refine ⟨by omega, fun _ => h2, ?_⟩
    intro buf' hb' hl hag
    exact common buf' (h3 buf' hb' (hl (by omega)) (drop_take_sub _ _ pos _ _ _ hag (by omega) (by omega)))

theorem safe_andThen {c : Cursor A} {f : A → Cursor B} (hc : SafeCursor c) (hf : ∀ a, SafeCursor (f a)) :
    SafeCursor (c.andThen f) := by
  intro buf pos hb hp
  obtain ⟨hu, hok⟩ := hc buf pos hb hp
  cases hd : c buf pos with
  | ub => exact absurd hd hu
  | throw e =>
    have : c.andThen f buf pos = .throw e := by unfold Cursor.andThen; rw [hd, Res.throw_bind]
    rw [this]; exact ⟨by simp, by simp⟩
  | ok d =>
    obtain ⟨a, p⟩ := d
    obtain ⟨h1, h2, h3⟩ := hok a p hd
    have hp' : p < TWO64 := by
      by_cases h : pos < p
      · have := h2 h; omega
      · omega
    obtain ⟨gu, gok⟩ := hf a buf p hb hp'
    have common : ∀ b : Buf, c b pos = .ok (a, p) → c.andThen f b pos = f a b p := by
      intro b hb; unfold Cursor.andThen; rw [hb, Res.ok_bind]
    rw [common buf hd]
    refine ⟨gu, ?_⟩
    intro v q hq
    obtain ⟨g1, g2, g3⟩ := gok v q hq
    refine ⟨by omega, ?_, ?_⟩
    · intro hlt
      by_cases hpq : p < q
      · exact g2 hpq
      · have : q = p := by omega
        subst this; exact h2 hlt
    · intro buf' hb' hl hag
      have hlp : pos < p → p ≤ buf'.length := fun h => by have := hl (by omega); omega
      rw [common buf' (h3 buf' hb' hlp (drop_take_sub _ _ pos _ _ _ hag (by omega) (by omega)))]
      exact g3 buf' hb' (fun h => hl (by omega)) (drop_take_sub _ _ pos _ _ _ hag (by omega) (by omega))

theorem safe_done (x : T) : SafeCursor (Cursor.done x) := by
  intro buf pos _ _
  refine ⟨by simp [Cursor.done], ?_⟩
  intro v p h
  simp only [Cursor.done, Res.ok.injEq, Prod.mk.injEq] at h
  obtain ⟨rfl, rfl⟩ := h
  exact ⟨le_refl _, by omega, fun _ _ _ _ => rfl⟩

theorem safe_check (b : Bool) (e : Exc) {c : Cursor T} (h : SafeCursor c) : SafeCursor (Cursor.check b e c) := by
  cases b
  · intro buf pos _ _
    exact ⟨by simp [Cursor.check], by simp [Cursor.check]⟩
  · exact h

theorem safe_finish {c : Cursor T} (h : SafeCursor c) (hne : ∀ buf pos v p, buf.length < TWO63 → pos < TWO64 → c buf pos = .ok (v, p) → p ≠ pos) :
    SafeDeserializer (finish c) := by
  intro buf off hb ho
  obtain ⟨hu, hok⟩ := h buf off hb ho
  cases hd : c buf off with
  | ub => exact absurd hd hu
  | throw e =>
    have : finish c buf off = .throw e := by unfold finish; rw [hd, Res.throw_bind]
    rw [this]; exact ⟨by simp, by simp⟩
  | ok d =>
    obtain ⟨v, p⟩ := d
    obtain ⟨h1, h2, h3⟩ := hok v p hd
    have hnp := hne buf off v p hb ho hd
    have hple := h2 (by omega)
    have common : ∀ b : Buf, c b off = .ok (v, p) → finish c b off = .ok (v, p - off) := by
      intro b hb'
      unfold finish
      rw [hb', Res.ok_bind]
      dsimp only
      rw [sub64 (by omega) (by omega), mkD_ok (by omega)]
    rw [common buf hd]
    refine ⟨by simp, ?_⟩
    intro v' n heq
    simp only [Res.ok.injEq, Prod.mk.injEq] at heq
    obtain ⟨rfl, rfl⟩ := heq
    refine ⟨by omega, by omega, ?_⟩
    intro buf' hb' hl hag
    exact common buf' (h3 buf' hb' (fun _ => by omega) hag)

/-- A read that starts with a field moves the position. -/
theorem field_andThen_moves {de : Deserializer A} (hd : SafeDeserializer de) {f : A → Cursor B} (hf : ∀ a, SafeCursor (f a))
    (buf : Buf) (pos : Nat) (v : B) (p : Nat) (hb : buf.length < TWO63) (hp : pos < TWO64)
    (h : (field de).andThen f buf pos = .ok (v, p)) : p ≠ pos := by
  unfold Cursor.andThen at h
  obtain ⟨⟨a, q⟩, h1, h2⟩ := Res.bind_eq_ok.mp h
  unfold field at h1
  obtain ⟨⟨a', n⟩, h3, h4⟩ := Res.bind_eq_ok.mp h1
  have hs := (hd buf pos hb hp).2 a' n h3
  rw [getValue_ok (show (a', n).2 ≠ 0 by dsimp only; omega), Res.ok_bind, Res.pure_eq] at h4
  simp only [Res.ok.injEq, Prod.mk.injEq] at h4
  rw [add64_eq (by omega)] at h4
  have := ((hf a buf q hb (by omega)).2 v p h2).1
  omega

/-! ### 64-bit signed integers -/

/-- `SerializeMemcpyable<int64_t>` (serialization.hpp:305-319): the two's complement 64-bit word. -/
def serI64 (little : Bool) : Serializer Int := fun v buf => serU64 little (v % (TWO64 : Int)).toNat buf

/-- `DeserializeMemcpyable<int64_t>` (serialization.hpp:321-337). -/
def deI64 (little : Bool) : Deserializer Int := fun buf off => do
  let d ← deU64 little buf off
  pure (if d.1 < TWO63 then (d.1 : Int) else (d.1 : Int) - (TWO64 : Int), d.2)

theorem rt_i64 (l : Bool) (v : Int) (h1 : -(TWO63 : Int) ≤ v) (h2 : v < (TWO63 : Int)) :
    RoundTrips (serI64 l) (deI64 l) v := by
  have hv : (v % (TWO64 : Int)).toNat < TWO64 := by omega
  obtain ⟨enc, ne, s, d⟩ := header_good l _ hv
  refine ⟨enc, ne, s, ?_⟩
  intro pre post hl
  obtain ⟨y, hy, he⟩ := d pre post hl
  refine ⟨v, ?_, rfl⟩
  unfold deI64
  rw [hy, Res.ok_bind, Res.pure_eq]
  subst he
  have : (if (v % (TWO64 : Int)).toNat < TWO63 then (((v % (TWO64 : Int)).toNat : Nat) : Int)
      else (((v % (TWO64 : Int)).toNat : Nat) : Int) - (TWO64 : Int)) = v := by
    split <;> omega
  dsimp only
  rw [this]

theorem safe_i64 (l : Bool) : SafeDeserializer (deI64 l) := by
  intro buf off hb ho
  obtain ⟨hu, hok⟩ := header_safe l buf off hb ho
  cases hd : deU64 l buf off with
  | ub => exact absurd hd hu
  | throw e =>
    have : deI64 l buf off = .throw e := by unfold deI64; rw [hd, Res.throw_bind]
    rw [this]; exact ⟨by simp, by simp⟩
  | ok d =>
    obtain ⟨v, n⟩ := d
    obtain ⟨h1, h2, h3⟩ := hok v n hd
    have common : ∀ b : Buf, deU64 l b off = .ok (v, n) →
        deI64 l b off = .ok (if v < TWO63 then (v : Int) else (v : Int) - (TWO64 : Int), n) := by
      intro b hb'; unfold deI64; rw [hb', Res.ok_bind, Res.pure_eq]
    rw [common buf hd]
    refine ⟨by simp, ?_⟩
    intro v' m heq
    simp only [Res.ok.injEq, Prod.mk.injEq] at heq
    obtain ⟨rfl, rfl⟩ := heq
    exact ⟨h1, h2, fun buf' a b c => common buf' (h3 buf' a b c)⟩

end CRU.Ser
