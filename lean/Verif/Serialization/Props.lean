import Verif.Serialization.Lemmas2
/-
  Properties C10-C13, C56, C57.
-/
namespace CRU.Ser

variable {T : Type}

attribute [local irreducible] add64 mul64 diff64 mkDeserialized getValue allocate memRead memWrite

/-- A two-byte type, to show that hypotheses can be met: little-endian uint16. -/
def repr16 : Repr UInt16 where
  size := 2
  pos := by decide
  small := by decide
  bytes x := [UInt8.ofNat (x.toNat % 256), UInt8.ofNat (x.toNat / 256)]
  ofBytes b := UInt16.ofNat ((b.getD 0 0).toNat + 256 * (b.getD 1 0).toNat)
  length_bytes := by intro x; rfl
  ofBytes_bytes := by
    intro x
    have hx : x.toNat < 65536 := x.toNat_lt
    apply UInt16.toNat_inj.mp
    simp only [List.getD_cons_zero, List.getD_cons_succ, UInt8.toNat_ofNat', UInt16.toNat_ofNat']
    omega

/-- C10: `SerializeMemcpyable` appends exactly `sizeof(T)` bytes to an otherwise unchanged buffer and returns that count. -/
theorem C10_memcpyable_appends (r : Repr T) (x : T) (buf : Buf) :
    ∃ enc : Buf, enc.length = r.size ∧ serMem r x buf = .ok (buf ++ enc, r.size) :=
  ⟨r.bytes x, r.length_bytes x, by simp [serMem, r.length_bytes]⟩

/-- C10: `DeserializeMemcpyable` gets the value and the count back at that offset, whatever surrounds it. -/
theorem C10_memcpyable_round_trip (r : Repr T) (x : T) : RoundTrips (serMem r) (deMem r) x := rt_mem r x

example : RoundTrips (serMem repr16) (deMem repr16) 4660 := C10_memcpyable_round_trip _ _
example : serMem repr16 4660 [1, 2, 3] = .ok ([1, 2, 3, 0x34, 0x12], 2) := by decide

/-- C11: vector-like containers and strings round-trip if their elements do (equality of elements up to `eqv`). -/
theorem C11_vector_round_trip (little : Bool) (esz : Nat) (item : Serializer T) (di : Deserializer T) (xs : List T)
    (hsz : xs.length * esz < TWO63) (hesz : 0 < esz) (h : ∀ x ∈ xs, RoundTrips item di x) :
    RoundTrips (serSeq (serU64 little) item) (deSeq (deU64 little) esz di) xs := by
  have hn : xs.length < TWO64 := by
    have := Nat.le_mul_of_pos_right xs.length hesz
    omega
  obtain ⟨enc, ne, s, d⟩ := rt_seq (header_good little) esz Eq item di xs hsz hn h
  exact ⟨enc, ne, s, fun pre post hl => by
    obtain ⟨y, hy, he⟩ := d pre post hl
    exact ⟨y, hy, forall₂_eq he⟩⟩

/-- C11: element equality may be weaker than `=` (e.g. nested hash sets). -/
theorem C11_vector_round_trip_upto (little : Bool) (esz : Nat) (eqv : T → T → Prop) (item : Serializer T)
    (di : Deserializer T) (xs : List T) (hsz : xs.length * esz < TWO63) (hesz : 0 < esz)
    (h : ∀ x ∈ xs, RoundTripsUpTo eqv item di x) :
    RoundTripsUpTo (List.Forall₂ eqv) (serSeq (serU64 little) item) (deSeq (deU64 little) esz di) xs := by
  have hn : xs.length < TWO64 := by
    have := Nat.le_mul_of_pos_right xs.length hesz
    omega
  exact rt_seq (header_good little) esz eqv item di xs hsz hn h

/-- C11: pairs. -/
theorem C11_pair_round_trip {A B : Type} (sa : Serializer A) (da : Deserializer A) (sb : Serializer B)
    (db : Deserializer B) (a : A) (b : B) (ha : RoundTrips sa da a) (hb : RoundTrips sb db b) :
    RoundTrips (serPair sa sb) (dePair da db) (a, b) := by
  obtain ⟨enc, ne, s, d⟩ := rt_pair Eq Eq sa da sb db (a, b) ha hb
  refine ⟨enc, ne, s, fun pre post hl => ?_⟩
  obtain ⟨y, hy, h1, h2⟩ := d pre post hl
  exact ⟨y, hy, Prod.ext h1 h2⟩

/-- C11: ordered maps and sets (contents in strictly increasing key order, larger new keys inserted at the end). -/
theorem C11_ordered_container_round_trip (little : Bool) (lt : T → T → Prop) (ins : T → List T → List T)
    (hins : ∀ x c, (∀ y ∈ c, lt y x) → ins x c = c ++ [x]) (item : Serializer T) (di : Deserializer T) (xs : List T)
    (hs : xs.Pairwise lt) (hn : xs.length < TWO64) (h : ∀ x ∈ xs, RoundTrips item di x) :
    RoundTrips (serSeq (serU64 little) item) (deContainer (deU64 little) di ins) xs :=
  rt_container (header_good little) item di ins Eq xs hn (insertAll_sorted lt ins hins xs hs) h

/-- C11: hash maps and sets: the same elements come back, in some order. -/
theorem C11_hash_container_round_trip {K : Type} (little : Bool) (key : T → K) (ins : T → List T → List T)
    (hins : ∀ x c, (∀ y ∈ c, key y ≠ key x) → (ins x c).Perm (x :: c)) (item : Serializer T) (di : Deserializer T)
    (xs : List T) (hnd : (xs.map key).Nodup) (hn : xs.length < TWO64) (h : ∀ x ∈ xs, RoundTrips item di x) :
    RoundTripsUpTo List.Perm (serSeq (serU64 little) item) (deContainer (deU64 little) di ins) xs :=
  rt_container (header_good little) item di ins List.Perm xs hn (insertAll_perm key ins hins xs hnd) h

/-- C11: vectors of trivially copyable elements (including `Eigen::VectorXd`), copied in one block. -/
theorem C11_memcpyable_vector_round_trip (little : Bool) (r : Repr T) (xs : List T) (hsz : xs.length * r.size < TWO63) :
    RoundTrips (serMemVec (serU64 little) r) (deMemVec (deU64 little) r) xs :=
  rt_memVec (header_good little) r xs hsz

-- nesting: vector of (vector of uint16, uint16) pairs
example : RoundTrips (serSeq (serU64 true) (serPair (serMemVec (serU64 true) repr16) (serMem repr16)))
    (deSeq (deU64 true) 32 (dePair (deMemVec (deU64 true) repr16) (deMem repr16)))
    [([1, 2, 3], 4), ([], 5)] :=
  C11_vector_round_trip true 32 _ _ _ (by decide) (by decide) (fun x _ =>
    match x with
    | (a, b) => by
      rename_i h
      refine C11_pair_round_trip _ _ _ _ a b (C11_memcpyable_vector_round_trip true repr16 a ?_) (C10_memcpyable_round_trip _ b)
      simp only [List.mem_cons, Prod.mk.injEq, List.not_mem_nil, or_false] at h
      rcases h with ⟨rfl, _⟩ | ⟨rfl, _⟩ <;> decide)

-- an ordered set of uint16
example : RoundTrips (serSeq (serU64 true) (serMem repr16))
    (deContainer (deU64 true) (deMem repr16) (fun x c => c.filter (· < x) ++ [x] ++ c.filter (x < ·))) [3, 7, 9] :=
  C11_ordered_container_round_trip true (· < ·) _
    (fun x c h => by
      have h1 : c.filter (· < x) = c := List.filter_eq_self.mpr (fun y hy => by simpa using h y hy)
      have h2 : c.filter (x < ·) = [] := List.filter_eq_nil_iff.mpr (fun y hy => by
        have := h y hy
        rw [UInt16.lt_iff_toNat_lt] at this
        simp only [decide_eq_true_eq, UInt16.lt_iff_toNat_lt]; omega)
      rw [h1, h2, List.append_nil]) _ _ _ (by decide) (by decide) (fun x _ => C10_memcpyable_round_trip _ x)

/-- C12: no deserializer reads outside the buffer; a successful read consumes at least one byte, stays inside, and depends
only on the bytes it consumed. -/
theorem C12_memcpyable_safe (r : Repr T) : SafeDeserializer (deMem r) := safe_deMem r
theorem C12_network_memcpyable_safe (little : Bool) (r : Repr T) : SafeDeserializer (deNet little r) := safe_deNet little r
theorem C12_size_header_safe (little : Bool) : SafeDeserializer (deU64 little) ∧ SafeDeserializer (deNetU64 little) :=
  ⟨header_safe little, safe_deNetU64 little⟩
theorem C12_vector_safe (hd : Deserializer Nat) (hh : SafeDeserializer hd) (esz : Nat) (di : Deserializer T)
    (h : SafeDeserializer di) : SafeDeserializer (deSeq hd esz di) := safe_seq hh esz h
theorem C12_container_safe (hd : Deserializer Nat) (hh : SafeDeserializer hd) (di : Deserializer T)
    (h : SafeDeserializer di) (ins : T → List T → List T) : SafeDeserializer (deContainer hd di ins) :=
  safe_container hh h ins
theorem C12_pair_safe {A B : Type} (da : Deserializer A) (db : Deserializer B) (ha : SafeDeserializer da)
    (hb : SafeDeserializer db) : SafeDeserializer (dePair da db) := safe_pair ha hb
theorem C12_memcpyable_vector_safe (hd : Deserializer Nat) (hh : SafeDeserializer hd) (r : Repr T) :
    SafeDeserializer (deMemVec hd r) := safe_memVec hh r

-- vector of vectors of uint16, network or host headers
example : SafeDeserializer (deSeq (deU64 true) 24 (deMemVec (deNetU64 true) repr16)) :=
  C12_vector_safe _ (C12_size_header_safe true).1 _ _ (C12_memcpyable_vector_safe _ (C12_size_header_safe true).2 _)
example : deMem repr16 [1, 2, 3] 1 = .ok (770, 2) := by decide +kernel
example : deMem repr16 [1, 2, 3] 18446744073709551615 = .throw .invalidArgument := by decide +kernel
example : deMemVec (deU64 true) repr16 [255, 255, 255, 255, 255, 255, 255, 127, 9, 9] 0 = .throw .lengthError := by
  decide +kernel

/-- C13: the bytes that `SerializeNetworkMemcpyable` appends are the big-endian bytes of the integer held in the value's
memory, on little- and big-endian hosts. -/
theorem C13_network_bytes_big_endian (little : Bool) (r : Repr T)
    (hw : r.size = 1 ∨ r.size = 2 ∨ r.size = 4 ∨ r.size = 8) (v : Nat) (hv : v < 256 ^ r.size) (x : T)
    (hx : r.bytes x = hostBytes little r.size v) (buf : Buf) :
    serNet little r x buf = .ok (buf ++ beBytes r.size v, r.size) := by
  have hb := length_netBytes little r hw x
  have := netBytes_beBytes little r hw x
  rw [hx, hostValue_hostBytes little _ v hv] at this
  unfold serNet
  rw [← this]
  simp [hb]

theorem C13_network_round_trip (little : Bool) (r : Repr T)
    (hw : r.size = 1 ∨ r.size = 2 ∨ r.size = 4 ∨ r.size = 8) (x : T) : RoundTrips (serNet little r) (deNet little r) x :=
  rt_net little r hw x

/-- C13: the network size header is the big-endian `uint64_t` and round-trips. -/
theorem C13_network_header (little : Bool) (v : Nat) (hv : v < TWO64) :
    RoundTrips (serNetU64 little) (deNetU64 little) v ∧
    ∀ buf, serNetU64 little v buf = .ok (buf ++ beBytes 8 v, 8) := by
  refine ⟨netHeader_good little v hv, fun buf => ?_⟩
  have h : hostBytes little 8 (hton little 8 v) = beBytes 8 v := by
    rw [beBytes_eq]
    have h0 := hostBytes_hton little (hostBytes little 8 v)
    rw [length_hostBytes, hostValue_hostBytes little 8 v (by rw [pow256_8]; exact hv)] at h0
    rw [h0]
    cases little <;> simp [hostBytes]
  unfold serNetU64
  dsimp only
  rw [h]
  simp [beBytes]

/-- C13: network containers round-trip. -/
theorem C13_network_vector_round_trip (little : Bool) (esz : Nat) (item : Serializer T) (di : Deserializer T) (xs : List T)
    (hsz : xs.length * esz < TWO63) (hesz : 0 < esz) (h : ∀ x ∈ xs, RoundTrips item di x) :
    RoundTrips (serSeq (serNetU64 little) item) (deSeq (deNetU64 little) esz di) xs := by
  have hn : xs.length < TWO64 := by
    have := Nat.le_mul_of_pos_right xs.length hesz
    omega
  obtain ⟨enc, ne, s, d⟩ := rt_seq (netHeader_good little) esz Eq item di xs hsz hn h
  exact ⟨enc, ne, s, fun pre post hl => by
    obtain ⟨y, hy, he⟩ := d pre post hl
    exact ⟨y, hy, forall₂_eq he⟩⟩

theorem C13_network_memcpyable_vector_round_trip (little : Bool) (r : Repr T)
    (hw : r.size = 1 ∨ r.size = 2 ∨ r.size = 4 ∨ r.size = 8) (xs : List T) (hsz : xs.length * r.size < TWO63) :
    RoundTrips (serNetMemVec little (serNetU64 little) r) (deSeq (deNetU64 little) r.size (deNet little r)) xs :=
  rt_netMemVec little r hw xs hsz

example : serNet true repr16 4660 [7] = .ok ([7, 0x12, 0x34], 2) := by decide +kernel
example : serNet true repr16 4660 [7] = .ok ([7] ++ beBytes 2 4660, 2) :=
  C13_network_bytes_big_endian true repr16 (by decide) 4660 (by decide) 4660 (by decide +kernel) [7]
example : RoundTrips (serNetMemVec true (serNetU64 true) repr16) (deSeq (deNetU64 true) 2 (deNet true repr16)) [1, 2, 3] :=
  C13_network_memcpyable_vector_round_trip true repr16 (by decide) _ (by decide)

/-! ### C56 matrices -/

/-- C56 is false of the code: serializing an empty matrix evaluates `&buffer[buffer.size()]`, and so does deserializing. -/
theorem C56_empty_matrix_false :
    serMatrix true repr16 ⟨0, 3, []⟩ [] = .ub ∧ ∃ buf, deMatrix true repr16 buf 0 = .ub := by
  refine ⟨by decide +kernel, List.replicate 16 0, by decide +kernel⟩

theorem memVec_step (r : Repr T) (xs : List T) (hne : xs ≠ []) (b : Buf) :
    memWrite (b ++ List.replicate (xs.length * r.size) 0) b.length (xs.flatMap r.bytes) = .ok (b ++ xs.flatMap r.bytes) := by
  have h := length_flatMap_bytes r xs
  rw [← h]
  apply memWrite_end
  intro h0
  rw [h0] at h
  have : 0 < xs.length * r.size := Nat.mul_pos (List.length_pos_iff.mpr hne) r.pos
  simp at h
  rcases h with h | h
  · exact hne h
  · have := r.pos; omega

/-- C56 (partial: non-empty matrices only). -/
theorem C56_matrix_round_trip_partial (little : Bool) (r : Repr T) (m : Matrix T) (hd : m.data.length = m.rows * m.cols)
    (hne : 0 < m.rows * m.cols) (hsz : m.rows * m.cols * r.size < TWO63) :
    RoundTrips (serMatrix little r) (deMatrix little r) m := by
  obtain ⟨rows, cols, data⟩ := m
  dsimp only at hd hne hsz
  have hrp := r.pos
  have hr0 : 0 < rows := Nat.pos_of_mul_pos_right hne
  have hc0 : 0 < cols := Nat.pos_of_mul_pos_left hne
  have hcount : rows * cols < TWO63 := lt_of_le_of_lt (Nat.le_mul_of_pos_right _ hrp) hsz
  have hr : rows < TWO63 := lt_of_le_of_lt (Nat.le_mul_of_pos_right _ hc0) hcount
  have hc : cols < TWO63 := lt_of_le_of_lt (Nat.le_mul_of_pos_left _ hr0) hcount
  have hrs : r.size * rows < TWO64 := by
    have h1 : r.size * rows ≤ rows * cols * r.size := by
      calc r.size * rows = rows * 1 * r.size := by ring
        _ ≤ rows * cols * r.size := Nat.mul_le_mul_right _ (Nat.mul_le_mul_left _ hc0)
    omega
  have hlen : mul64 (mul64 r.size rows) cols = rows * cols * r.size := by
    rw [mul64_eq hrs]
    have : r.size * rows * cols = rows * cols * r.size := by ring
    rw [mul64_eq (by omega), this]
  have hdne : data ≠ [] := by intro h; rw [h] at hd; simp at hd; omega
  have hle : (data.flatMap r.bytes).length = rows * cols * r.size := by rw [length_flatMap_bytes, hd]
  obtain ⟨e1, ne1, s1, d1⟩ := header_good little rows (by omega)
  obtain ⟨e2, ne2, s2, d2⟩ := header_good little cols (by omega)
  have hp1 : 0 < e1.length := List.length_pos_iff.mpr ne1
  have hp2 : 0 < e2.length := List.length_pos_iff.mpr ne2
  refine ⟨e1 ++ e2 ++ data.flatMap r.bytes, by simp [ne1], ?_, ?_⟩
  · intro buf hbuf
    rw [List.length_append, List.length_append, List.length_append, hle] at hbuf
    unfold serMatrix
    dsimp only
    rw [Nat.mod_eq_of_lt (show rows < TWO64 by omega), Nat.mod_eq_of_lt (show cols < TWO64 by omega),
      s1 buf (by simp; omega), Res.ok_bind]
    dsimp only
    rw [s2 (buf ++ e1) (by simp; omega), Res.ok_bind]
    dsimp only
    rw [hlen, ← hd, memVec_step r data hdne, Res.ok_bind, Res.pure_eq]
    simp
  · intro pre post hl
    have hl2 : pre.length + e1.length + e2.length + rows * cols * r.size + post.length < TWO63 := by
      simp only [List.length_append, hle] at hl; omega
    have eqa : pre ++ (e1 ++ e2 ++ data.flatMap r.bytes) ++ post = pre ++ e1 ++ (e2 ++ data.flatMap r.bytes ++ post) := by simp
    have eqb : pre ++ e1 ++ (e2 ++ data.flatMap r.bytes ++ post) = (pre ++ e1) ++ e2 ++ (data.flatMap r.bytes ++ post) := by simp
    obtain ⟨y, hy, hey⟩ := d1 pre (e2 ++ data.flatMap r.bytes ++ post) (by rw [← eqa]; exact hl)
    subst hey
    obtain ⟨z, hz, hez⟩ := d2 (pre ++ e1) (data.flatMap r.bytes ++ post) (by rw [← eqb, ← eqa]; exact hl)
    subst hez
    refine ⟨⟨y, z, data⟩, ?_, rfl⟩
    have hL : (pre ++ e1 ++ (e2 ++ data.flatMap r.bytes ++ post)).length
        = pre.length + e1.length + e2.length + y * z * r.size + post.length := by
      simp only [List.length_append, hle]; omega
    rw [eqa]
    unfold deMatrix
    rw [hy, Res.ok_bind, getValue_ok (show (y, e1.length).2 ≠ 0 by dsimp only; omega), Res.ok_bind]
    dsimp only
    rw [add64_eq (show pre.length + e1.length < TWO64 by omega)]
    rw [List.length_append, ← eqb] at hz
    rw [hz, Res.ok_bind, getValue_ok (show (z, e2.length).2 ≠ 0 by dsimp only; omega), Res.ok_bind]
    dsimp only
    rw [add64_eq (show pre.length + e1.length + e2.length < TWO64 by omega), hlen,
      add64_eq (show pre.length + e1.length + e2.length + y * z * r.size < TWO64 by omega),
      hL, if_neg (by omega), alloc_ok hsz, Res.ok_bind]
    have hpos : 0 < y * z * r.size := Nat.mul_pos hne hrp
    rw [memRead_ok (by rw [hL]; omega) (by rw [hL]; omega), Res.ok_bind, sub64 (by omega) (by omega), mkD_ok (by omega)]
    have hdrop : (pre ++ e1 ++ (e2 ++ data.flatMap r.bytes ++ post)).drop (pre.length + e1.length + e2.length)
        = data.flatMap r.bytes ++ post := by
      have : pre ++ e1 ++ (e2 ++ data.flatMap r.bytes ++ post) = (pre ++ e1 ++ e2) ++ (data.flatMap r.bytes ++ post) := by simp
      rw [this]
      exact List.drop_left' (by simp; omega)
    rw [hdrop, List.take_left' hle, ← hd, chunks_flatMap, hd]
    simp only [List.length_append, hle]
    congr 2
    omega

example : RoundTrips (serMatrix true repr16) (deMatrix true repr16) ⟨2, 3, [1, 2, 3, 4, 5, 6]⟩ :=
  C56_matrix_round_trip_partial true repr16 _ (by decide) (by decide) (by decide)

/-! ### C57 in-place writes -/

/-- C57 (partial: positions for which `buffer_position + sizeof(T)` does not wrap): either the value is written inside the
buffer, changing exactly the addressed bytes, or an exception is thrown. -/
theorem C57_in_place_write_partial (little : Bool) (r : Repr T)
    (hw : r.size = 1 ∨ r.size = 2 ∨ r.size = 4 ∨ r.size = 8) (x : T) (buf : Buf) (pos : Nat)
    (hpos : pos + r.size < TWO64) :
    (pos + r.size ≤ buf.length → ∃ enc : Buf, enc.length = r.size ∧ deNet little r enc 0 = .ok (x, r.size) ∧
      serNetInPlace little r x buf pos = .ok (buf.take pos ++ enc ++ buf.drop (pos + r.size), r.size)) ∧
    (buf.length < pos + r.size → serNetInPlace little r x buf pos = .throw .runtimeError) := by
  have hsz := r.pos
  have hsm := r.small
  have hb := length_netBytes little r hw x
  constructor
  · intro h
    refine ⟨netBytes little r x, hb, ?_, ?_⟩
    · have := read_rt (f := netDecode little r) r.pos r.small _ hb x (netDecode_netBytes little r hw x) [] []
        (by simp [hb]; omega)
      rw [deNet_eq]
      simpa using this
    · unfold serNetInPlace
      rw [add64_eq hpos, if_pos h]
      have : memWrite buf pos (netBytes little r x)
          = .ok (buf.take pos ++ netBytes little r x ++ buf.drop (pos + r.size)) := by
        unfold memWrite; rw [if_pos ⟨by omega, by rw [hb]; exact h⟩, hb]
      rw [this, Res.ok_bind, Res.pure_eq]
  · intro h
    unfold serNetInPlace
    rw [add64_eq hpos, if_neg (by omega)]

/-- C57 is false of the code: at positions just below 2^64 the sum wraps to a small number and the write is out of bounds. -/
theorem C57_in_place_wrap_false :
    serNetInPlace true repr16 4660 [1, 2, 3] 18446744073709551615 = .ub := by decide +kernel

example : serNetInPlace true repr16 4660 [1, 2, 3] 1 = .ok ([1, 0x12, 0x34], 2) := by decide +kernel

end CRU.Ser
