import Verif.Serialization.Props
/-
  The fixed-size Eigen types (C100), the network maps and sets (C13) and safety of the matrix deserializer (C56).
  `d : Repr T` with `d.size = 8` stands for `double`.
-/
namespace CRU.Ser

variable {T : Type}

attribute [local irreducible] add64 mul64 diff64 mkDeserialized getValue allocate memRead memWrite

/-- `Eigen::Vector2d`. -/
structure Vector2 (T : Type) where
  x : T
  y : T
deriving DecidableEq

/-- `Eigen::Vector3d`. -/
structure Vector3 (T : Type) where
  x : T
  y : T
  z : T
deriving DecidableEq

/-- `Eigen::Vector4d`. -/
structure Vector4 (T : Type) where
  x : T
  y : T
  z : T
  w : T
deriving DecidableEq

/-- `Eigen::Quaterniond`, in the order of its constructor `(w, x, y, z)`. -/
structure Quat (T : Type) where
  w : T
  x : T
  y : T
  z : T
deriving DecidableEq

/-- `Eigen::Isometry3d`: its 4 by 4 matrix, `m row column`. -/
structure Iso (T : Type) where
  m : Fin 4 → Fin 4 → T

/-- serialization.cpp:66-75 `value.data()` of a `Vector2d`. -/
def Vector2.coeffs (v : Vector2 T) : List T := [v.x, v.y]
/-- serialization.cpp:77-86 `value.data()` of a `Vector3d`. -/
def Vector3.coeffs (v : Vector3 T) : List T := [v.x, v.y, v.z]
/-- serialization.cpp:88-97 `value.data()` of a `Vector4d`. -/
def Vector4.coeffs (v : Vector4 T) : List T := [v.x, v.y, v.z, v.w]
/-- serialization.cpp:99-110 `value.coeffs().data()` of a `Quaterniond`: Eigen stores `x, y, z, w`. -/
def Quat.coeffs (q : Quat T) : List T := [q.x, q.y, q.z, q.w]
/-- serialization.cpp:112-123 `value.matrix().data()` of an `Isometry3d`: column-major. -/
def Iso.coeffs (t : Iso T) : List T :=
  (List.finRange 4).flatMap fun c => (List.finRange 4).map fun r => t.m r c

/-- serialization.cpp:14-17 `SerializedSizeVector2d`. -/
def sizeVector2d (d : Repr T) : Nat := d.size * 2
/-- serialization.cpp:19-22 `SerializedSizeVector3d`. -/
def sizeVector3d (d : Repr T) : Nat := d.size * 3
/-- serialization.cpp:24-27 `SerializedSizeVector4d`. -/
def sizeVector4d (d : Repr T) : Nat := d.size * 4
/-- serialization.cpp:29-32 `SerializedSizeQuaterniond`. -/
def sizeQuaterniond (d : Repr T) : Nat := d.size * 4
/-- serialization.cpp:34-37 `SerializedSizeIsometry3d`. -/
def sizeIsometry3d (d : Repr T) : Nat := d.size * 16

/-- serialization.cpp:66-123, the common body: a zeroed temporary of `len` bytes is overwritten with the `len` bytes at the
coefficients and appended; `len` is returned. Copying more bytes than the coefficients have is undefined. -/
def serFixed (d : Repr T) (len : Nat) (coeffs : List T) (buf : Buf) : Res (Buf × Nat) := do
  let temp ← memRead (coeffs.flatMap d.bytes) 0 len
  pure (buf ++ temp, len)

/-- serialization.cpp:160-257, the common body: two checks, then `memcpy` of `len` bytes into a default-constructed value of
`n` coefficients, handed to `mk`. A copy that does not fill exactly those coefficients is undefined (overrun, or reading
uninitialised coefficients later). -/
def deFixed (d : Repr T) (len n : Nat) {V : Type} (mk : (Nat → T) → V) : Deserializer V := fun buf off =>
  if off ≥ buf.length then .throw .invalidArgument
  else if add64 off len > buf.length then .throw .invalidArgument
  else if len ≠ n * d.size then .ub
  else do
    let b ← memRead buf off len
    mkDeserialized (mk fun i => d.ofBytes ((b.drop (i * d.size)).take d.size)) len

/-- serialization.cpp:66-75 `SerializeVector2d`. -/
def serVector2d (d : Repr T) : Serializer (Vector2 T) := fun v => serFixed d (sizeVector2d d) v.coeffs
/-- serialization.cpp:77-86 `SerializeVector3d`. -/
def serVector3d (d : Repr T) : Serializer (Vector3 T) := fun v => serFixed d (sizeVector3d d) v.coeffs
/-- serialization.cpp:88-97 `SerializeVector4d`. -/
def serVector4d (d : Repr T) : Serializer (Vector4 T) := fun v => serFixed d (sizeVector4d d) v.coeffs
/-- serialization.cpp:99-110 `SerializeQuaterniond`. -/
def serQuaterniond (d : Repr T) : Serializer (Quat T) := fun v => serFixed d (sizeQuaterniond d) v.coeffs
/-- serialization.cpp:112-123 `SerializeIsometry3d`. -/
def serIsometry3d (d : Repr T) : Serializer (Iso T) := fun v => serFixed d (sizeIsometry3d d) v.coeffs

/-- serialization.cpp:160-177 `DeserializeVector2d`. -/
def deVector2d (d : Repr T) : Deserializer (Vector2 T) := deFixed d (sizeVector2d d) 2 fun c => ⟨c 0, c 1⟩
/-- serialization.cpp:179-196 `DeserializeVector3d`. -/
def deVector3d (d : Repr T) : Deserializer (Vector3 T) := deFixed d (sizeVector3d d) 3 fun c => ⟨c 0, c 1, c 2⟩
/-- serialization.cpp:198-215 `DeserializeVector4d`. -/
def deVector4d (d : Repr T) : Deserializer (Vector4 T) := deFixed d (sizeVector4d d) 4 fun c => ⟨c 0, c 1, c 2, c 3⟩
/-- serialization.cpp:217-236 `DeserializeQuaterniond`: `coeffs()` are `x, y, z, w`. -/
def deQuaterniond (d : Repr T) : Deserializer (Quat T) :=
  deFixed d (sizeQuaterniond d) 4 fun c => { w := c 3, x := c 0, y := c 1, z := c 2 }
/-- serialization.cpp:238-257 `DeserializeIsometry3d`: coefficient `(r, k)` of a column-major 4 by 4 matrix is number `4 k + r`. -/
def deIsometry3d (d : Repr T) : Deserializer (Iso T) :=
  deFixed d (sizeIsometry3d d) 16 fun c => ⟨fun r k => c (4 * k.val + r.val)⟩

/-! ### proofs -/

theorem serFixed_eq (d : Repr T) (len : Nat) (cs : List T) (hne : cs ≠ []) (hl : len = cs.length * d.size) (buf : Buf) :
    serFixed d len cs buf = .ok (buf ++ cs.flatMap d.bytes, len) := by
  have h := length_flatMap_bytes d cs
  have hp : 0 < cs.length * d.size := Nat.mul_pos (List.length_pos_iff.mpr hne) d.pos
  unfold serFixed
  rw [memRead_ok (by omega) (by omega), Res.ok_bind, Res.pure_eq]
  simp only [List.drop_zero]
  rw [List.take_of_length_le (by omega)]

theorem coeff_at (d : Repr T) (cs : List T) (i : Nat) (h : i < cs.length) :
    ((cs.flatMap d.bytes).drop (i * d.size)).take d.size = d.bytes cs[i] := by
  induction cs generalizing i with
  | nil => simp at h
  | cons x xs ih =>
    have hb := d.length_bytes x
    rw [List.flatMap_cons]
    cases i with
    | zero => simp only [Nat.zero_mul, List.drop_zero, List.getElem_cons_zero]; exact List.take_left' hb
    | succ i =>
      rw [show (i + 1) * d.size = (d.bytes x).length + i * d.size by rw [hb]; ring, List.drop_append]
      simp only [List.getElem_cons_succ]
      rw [List.drop_of_length_le (by omega), List.nil_append, Nat.add_sub_cancel_left]
      exact ih i (by simpa using h)

theorem rt_fixed (d : Repr T) (hd : d.size = 8) {V : Type} (cf : V → List T) (mk : (Nat → T) → V) (n len : Nat) (hn : 0 < n)
    (hn2 : n ≤ 1000) (hlen : len = n * d.size) (hcf : ∀ v, (cf v).length = n)
    (hmk : ∀ v c, (∀ i (h : i < (cf v).length), c i = (cf v)[i]) → mk c = v) (v : V) :
    RoundTrips (fun v => serFixed d len (cf v)) (deFixed d len n mk) v := by
  have hne : cf v ≠ [] := by intro h; have := hcf v; rw [h] at this; simp at this; omega
  have hL := length_flatMap_bytes d (cf v)
  rw [hcf v] at hL
  have hpos : 0 < n * d.size := Nat.mul_pos hn d.pos
  refine ⟨(cf v).flatMap d.bytes, ?_, fun buf _ => ?_, fun pre post hlt => ⟨v, ?_, rfl⟩⟩
  · intro h; rw [h] at hL; simp at hL; omega
  · dsimp only
    rw [serFixed_eq d len (cf v) hne (by rw [hcf, hlen]), hL, hlen]
  · have := read_rt (f := fun b => mk fun i => d.ofBytes ((b.drop (i * d.size)).take d.size)) (sz := len)
      (by omega) (by rw [hlen, hd]; omega) ((cf v).flatMap d.bytes) (by omega) v (by
        apply hmk
        intro i h
        rw [coeff_at d (cf v) i h, d.ofBytes_bytes]) pre post hlt
    rw [hL, ← hlen, ← this]
    unfold deFixed
    rw [if_neg (show ¬ len ≠ n * d.size by simp [hlen])]

theorem safe_fixed (d : Repr T) (hd : d.size = 8) {V : Type} (mk : (Nat → T) → V) (n len : Nat) (hn : 0 < n)
    (hn2 : n ≤ 1000) (hlen : len = n * d.size) : SafeDeserializer (deFixed d len n mk) := by
  have := safe_read len (by rw [hlen, hd]; omega) (by rw [hlen, hd]; omega)
    (fun b => mk fun i => d.ofBytes ((b.drop (i * d.size)).take d.size))
  unfold deFixed
  simp only [if_neg (show ¬ len ≠ n * d.size by simp [hlen])]
  exact this

theorem length_isoCoeffs (t : Iso T) : t.coeffs.length = 16 := rfl

theorem isoCoeffs_get (t : Iso T) (r k : Fin 4) (h : 4 * k.val + r.val < t.coeffs.length) :
    t.coeffs[4 * k.val + r.val] = t.m r k := by
  match r, k with
  | 0, 0 | 0, 1 | 0, 2 | 0, 3 | 1, 0 | 1, 1 | 1, 2 | 1, 3 | 2, 0 | 2, 1 | 2, 2 | 2, 3 | 3, 0 | 3, 1 | 3, 2 | 3, 3 => rfl

/-- C100: the fixed-size Eigen types round-trip bit for bit in every buffer context. `d` is `double` (8 bytes). -/
theorem C100_round_trip (d : Repr T) (hd : d.size = 8) :
    (∀ v, RoundTrips (serVector2d d) (deVector2d d) v) ∧ (∀ v, RoundTrips (serVector3d d) (deVector3d d) v) ∧
    (∀ v, RoundTrips (serVector4d d) (deVector4d d) v) ∧ (∀ q, RoundTrips (serQuaterniond d) (deQuaterniond d) q) ∧
    ∀ t, RoundTrips (serIsometry3d d) (deIsometry3d d) t := by
  refine ⟨fun v => ?_, fun v => ?_, fun v => ?_, fun v => ?_, fun v => ?_⟩
  · exact rt_fixed d hd Vector2.coeffs _ 2 _ (by omega) (by omega) (Nat.mul_comm _ _) (fun _ => rfl)
      (fun v c h => by rw [h 0 (by simp [Vector2.coeffs, Vector3.coeffs, Vector4.coeffs, Quat.coeffs]), h 1 (by simp [Vector2.coeffs, Vector3.coeffs, Vector4.coeffs, Quat.coeffs])]; rfl) v
  · exact rt_fixed d hd Vector3.coeffs _ 3 _ (by omega) (by omega) (Nat.mul_comm _ _) (fun _ => rfl)
      (fun v c h => by rw [h 0 (by simp [Vector2.coeffs, Vector3.coeffs, Vector4.coeffs, Quat.coeffs]), h 1 (by simp [Vector2.coeffs, Vector3.coeffs, Vector4.coeffs, Quat.coeffs]), h 2 (by simp [Vector2.coeffs, Vector3.coeffs, Vector4.coeffs, Quat.coeffs])]; rfl) v
  · exact rt_fixed d hd Vector4.coeffs _ 4 _ (by omega) (by omega) (Nat.mul_comm _ _) (fun _ => rfl)
      (fun v c h => by rw [h 0 (by simp [Vector2.coeffs, Vector3.coeffs, Vector4.coeffs, Quat.coeffs]), h 1 (by simp [Vector2.coeffs, Vector3.coeffs, Vector4.coeffs, Quat.coeffs]), h 2 (by simp [Vector2.coeffs, Vector3.coeffs, Vector4.coeffs, Quat.coeffs]), h 3 (by simp [Vector2.coeffs, Vector3.coeffs, Vector4.coeffs, Quat.coeffs])]; rfl) v
  · exact rt_fixed d hd Quat.coeffs _ 4 _ (by omega) (by omega) (Nat.mul_comm _ _) (fun _ => rfl)
      (fun v c h => by rw [h 0 (by simp [Vector2.coeffs, Vector3.coeffs, Vector4.coeffs, Quat.coeffs]), h 1 (by simp [Vector2.coeffs, Vector3.coeffs, Vector4.coeffs, Quat.coeffs]), h 2 (by simp [Vector2.coeffs, Vector3.coeffs, Vector4.coeffs, Quat.coeffs]), h 3 (by simp [Vector2.coeffs, Vector3.coeffs, Vector4.coeffs, Quat.coeffs])]; rfl) v
  · refine rt_fixed d hd Iso.coeffs _ 16 _ (by omega) (by omega) (Nat.mul_comm _ _) (fun _ => rfl) (fun v c h => ?_) v
    have : (fun r k : Fin 4 => c (4 * k.val + r.val)) = v.m := by
      funext r k
      have hlt : 4 * k.val + r.val < v.coeffs.length := by rw [length_isoCoeffs]; omega
      rw [h _ hlt, isoCoeffs_get]
    rw [this]

/-- C100: what is appended: the coefficients in the order `x, y, z, w` (the quaternion's `w` last), and for an isometry the
coefficient in row `r` and column `k` of its matrix at bytes `[8 (4 k + r), 8 (4 k + r) + 8)` of 128. -/
theorem C100_layout (d : Repr T) (hd : d.size = 8) (buf : Buf) :
    (∀ v : Vector2 T, serVector2d d v buf = .ok (buf ++ (d.bytes v.x ++ d.bytes v.y), 16)) ∧
    (∀ v : Vector3 T, serVector3d d v buf = .ok (buf ++ (d.bytes v.x ++ d.bytes v.y ++ d.bytes v.z), 24)) ∧
    (∀ v : Vector4 T, serVector4d d v buf = .ok (buf ++ (d.bytes v.x ++ d.bytes v.y ++ d.bytes v.z ++ d.bytes v.w), 32)) ∧
    (∀ q : Quat T, serQuaterniond d q buf = .ok (buf ++ (d.bytes q.x ++ d.bytes q.y ++ d.bytes q.z ++ d.bytes q.w), 32)) ∧
    ∀ t : Iso T, ∃ enc : Buf, enc.length = 128 ∧ serIsometry3d d t buf = .ok (buf ++ enc, 128) ∧
      ∀ r k : Fin 4, (enc.drop (8 * (4 * k.val + r.val))).take 8 = d.bytes (t.m r k) := by
  refine ⟨fun v => ?_, fun v => ?_, fun v => ?_, fun v => ?_, fun t => ⟨t.coeffs.flatMap d.bytes, ?_, ?_, fun r k => ?_⟩⟩
  · unfold serVector2d sizeVector2d
    rw [serFixed_eq d _ _ (by simp [Vector2.coeffs]) (by simp [Vector2.coeffs]; ring), hd]
    simp [Vector2.coeffs]
  · unfold serVector3d sizeVector3d
    rw [serFixed_eq d _ _ (by simp [Vector3.coeffs]) (by simp [Vector3.coeffs]; ring), hd]
    simp [Vector3.coeffs]
  · unfold serVector4d sizeVector4d
    rw [serFixed_eq d _ _ (by simp [Vector4.coeffs]) (by simp [Vector4.coeffs]; ring), hd]
    simp [Vector4.coeffs]
  · unfold serQuaterniond sizeQuaterniond
    rw [serFixed_eq d _ _ (by simp [Quat.coeffs]) (by simp [Quat.coeffs]; ring), hd]
    simp [Quat.coeffs]
  · rw [length_flatMap_bytes, length_isoCoeffs, hd]
  · unfold serIsometry3d sizeIsometry3d
    rw [serFixed_eq d _ _ (by intro h; have := length_isoCoeffs t; rw [h] at this; simp at this)
      (by rw [length_isoCoeffs, Nat.mul_comm]), hd]
  · have hlt : 4 * k.val + r.val < t.coeffs.length := by rw [length_isoCoeffs]; omega
    have := coeff_at d t.coeffs (4 * k.val + r.val) hlt
    rw [hd, Nat.mul_comm, isoCoeffs_get] at this
    exact this

/-- C100: reading one of these types never touches a byte outside the buffer, for any buffer and any 64-bit offset. -/
theorem C100_safe (d : Repr T) (hd : d.size = 8) :
    SafeDeserializer (deVector2d d) ∧ SafeDeserializer (deVector3d d) ∧ SafeDeserializer (deVector4d d) ∧
    SafeDeserializer (deQuaterniond d) ∧ SafeDeserializer (deIsometry3d d) :=
  ⟨safe_fixed d hd _ 2 _ (by omega) (by omega) (Nat.mul_comm _ _), safe_fixed d hd _ 3 _ (by omega) (by omega) (Nat.mul_comm _ _),
    safe_fixed d hd _ 4 _ (by omega) (by omega) (Nat.mul_comm _ _), safe_fixed d hd _ 4 _ (by omega) (by omega) (Nat.mul_comm _ _),
    safe_fixed d hd _ 16 _ (by omega) (by omega) (Nat.mul_comm _ _)⟩

/-- C100: a buffer with fewer bytes than the type needs from the offset on is refused with `std::invalid_argument`. -/
theorem C100_short_buffer_throws (d : Repr T) (hd : d.size = 8) (buf : Buf) (off : Nat) (hb : buf.length < TWO63)
    (ho : off < TWO64) :
    (buf.length < off + 16 → deVector2d d buf off = .throw .invalidArgument) ∧
    (buf.length < off + 24 → deVector3d d buf off = .throw .invalidArgument) ∧
    (buf.length < off + 32 → deVector4d d buf off = .throw .invalidArgument ∧
      deQuaterniond d buf off = .throw .invalidArgument) ∧
    (buf.length < off + 128 → deIsometry3d d buf off = .throw .invalidArgument) := by
  have key : ∀ (len n : Nat) {V : Type} (mk : (Nat → T) → V), len ≤ 1000 → buf.length < off + len →
      deFixed d len n mk buf off = .throw .invalidArgument := by
    intro len n V mk hl h
    unfold deFixed
    by_cases h1 : off ≥ buf.length
    · rw [if_pos h1]
    · rw [if_neg h1, add64_eq (by omega), if_pos (by omega)]
  refine ⟨fun h => ?_, fun h => ?_, fun h => ⟨?_, ?_⟩, fun h => ?_⟩
  · exact key _ _ _ (by rw [sizeVector2d, hd]; omega) (by rw [sizeVector2d, hd]; exact h)
  · exact key _ _ _ (by rw [sizeVector3d, hd]; omega) (by rw [sizeVector3d, hd]; exact h)
  · exact key _ _ _ (by rw [sizeVector4d, hd]; omega) (by rw [sizeVector4d, hd]; exact h)
  · exact key _ _ _ (by rw [sizeQuaterniond, hd]; omega) (by rw [sizeQuaterniond, hd]; exact h)
  · exact key _ _ _ (by rw [sizeIsometry3d, hd]; omega) (by rw [sizeIsometry3d, hd]; exact h)

/-- An eight-byte scalar: little-endian 64-bit word (a `double` is such a word). -/
def repr64 : Repr (Fin TWO64) where
  size := 8
  pos := by decide
  small := by decide
  bytes x := leBytes 8 x.val
  ofBytes b := ⟨ofLe b % TWO64, Nat.mod_lt _ (by decide)⟩
  length_bytes x := length_leBytes 8 x.val
  ofBytes_bytes x := by
    apply Fin.ext
    have h := hostValue_hostBytes true 8 x.val (by rw [pow256_8]; exact x.isLt)
    simp only [hostValue, hostBytes, if_true] at h
    dsimp only
    rw [h, Nat.mod_eq_of_lt x.isLt]

example : RoundTrips (serQuaterniond repr64) (deQuaterniond repr64) ⟨1, 2, 3, 4⟩ := (C100_round_trip repr64 rfl).2.2.2.1 _
example : serVector2d repr64 ⟨258, 3⟩ [9] = .ok ([9, 2, 1, 0, 0, 0, 0, 0, 0, 3, 0, 0, 0, 0, 0, 0, 0], 16) := by decide +kernel
example : deVector2d repr64 (List.replicate 15 1) 0 = .throw .invalidArgument :=
  (C100_short_buffer_throws repr64 rfl _ 0 (by decide) (by decide)).1 (by decide)

/-! ### C13 maps and sets with the network header -/

/-- C13: ordered maps and sets with the network header (serialization.hpp:985-1121). -/
theorem C13_network_ordered_container_round_trip (little : Bool) (lt : T → T → Prop) (ins : T → List T → List T)
    (hins : ∀ x c, (∀ y ∈ c, lt y x) → ins x c = c ++ [x]) (item : Serializer T) (di : Deserializer T) (xs : List T)
    (hs : xs.Pairwise lt) (hn : xs.length < TWO64) (h : ∀ x ∈ xs, RoundTrips item di x) :
    RoundTrips (serSeq (serNetU64 little) item) (deContainer (deNetU64 little) di ins) xs :=
  rt_container (netHeader_good little) item di ins Eq xs hn (insertAll_sorted lt ins hins xs hs) h

/-- C13: hash maps and sets with the network header: the same elements come back, in some order. -/
theorem C13_network_hash_container_round_trip {K : Type} (little : Bool) (key : T → K) (ins : T → List T → List T)
    (hins : ∀ x c, (∀ y ∈ c, key y ≠ key x) → (ins x c).Perm (x :: c)) (item : Serializer T) (di : Deserializer T)
    (xs : List T) (hnd : (xs.map key).Nodup) (hn : xs.length < TWO64) (h : ∀ x ∈ xs, RoundTrips item di x) :
    RoundTripsUpTo List.Perm (serSeq (serNetU64 little) item) (deContainer (deNetU64 little) di ins) xs :=
  rt_container (netHeader_good little) item di ins List.Perm xs hn (insertAll_perm key ins hins xs hnd) h

-- a hash map from uint16 to uint16, entries in network order
example : RoundTripsUpTo List.Perm
    (serSeq (serNetU64 true) (serPair (serNet true repr16) (serNet true repr16)))
    (deContainer (deNetU64 true) (dePair (deNet true repr16) (deNet true repr16)) (fun x c => x :: c))
    [(7, 1), (3, 2), (9, 2)] :=
  C13_network_hash_container_round_trip true Prod.fst _ (fun _ _ _ => List.Perm.refl _) _ _ _ (by decide) (by decide)
    (fun x _ => C11_pair_round_trip _ _ _ _ x.1 x.2 (C13_network_round_trip true repr16 (by decide) _)
      (C13_network_round_trip true repr16 (by decide) _))

/-! ### C56 safety of the matrix deserializer -/

theorem deU64_ok {little : Bool} {buf : Buf} {off : Nat} {v n : Nat} (hb : buf.length < TWO63)
    (h : deU64 little buf off = .ok (v, n)) : n = 8 ∧ off + 8 ≤ buf.length := by
  unfold deU64 at h
  split_ifs at h with h1 h2
  have h3 : off < buf.length := by omega
  rw [add64_eq (by omega)] at h2
  rw [memRead_ok h3 (by omega), Res.ok_bind, mkD_ok (by omega)] at h
  simp only [Res.ok.injEq, Prod.mk.injEq] at h
  omega

/-- C56 (partial; with `C56_empty_matrix_false`, the exact condition): on every buffer below 2^63 bytes and every offset,
deserializing a matrix is undefined only if the two dimensions are read completely, one of them is zero, and nothing follows
them in the buffer. In every other case it throws or returns normally. -/
theorem C56_matrix_safe_partial (little : Bool) (r : Repr T) (buf : Buf) (off : Nat) (hb : buf.length < TWO63)
    (ho : off < TWO64) :
    deMatrix little r buf off = .ub ↔
      off + 16 = buf.length ∧ ∃ rows cols, deU64 little buf off = .ok (rows, 8) ∧ deU64 little buf (off + 8) = .ok (cols, 8) ∧
        rows * cols = 0 := by
  have hs1 := (header_safe little buf off hb ho).1
  unfold deMatrix
  rcases h1 : deU64 little buf off with ⟨v1, n1⟩ | e | _
  · obtain ⟨rfl, hle1⟩ := deU64_ok hb h1
    rw [Res.ok_bind, getValue_ok (show (v1, 8).2 ≠ 0 by simp), Res.ok_bind]
    dsimp only
    rw [add64_eq (show off + 8 < TWO64 by omega)]
    have hs2 := (header_safe little buf (off + 8) hb (by omega)).1
    rcases h2 : deU64 little buf (off + 8) with ⟨v2, n2⟩ | e | _
    · obtain ⟨rfl, hle2⟩ := deU64_ok hb h2
      rw [Res.ok_bind, getValue_ok (show (v2, 8).2 ≠ 0 by simp), Res.ok_bind]
      dsimp only
      rw [add64_eq (show off + 8 + 8 < TWO64 by omega)]
      have hex : (∃ rows cols, (Res.ok (v1, 8) : Res (Nat × Nat)) = .ok (rows, 8) ∧
          (Res.ok (v2, 8) : Res (Nat × Nat)) = .ok (cols, 8) ∧ rows * cols = 0) ↔ v1 * v2 = 0 := by
        constructor
        · rintro ⟨a, b, ha, hb', hab⟩
          simp only [Res.ok.injEq, Prod.mk.injEq, and_true] at ha hb'
          rw [ha, hb']; exact hab
        · intro h; exact ⟨v1, v2, rfl, rfl, h⟩
      rw [hex]
      by_cases hsz : v1 * v2 * r.size < TWO63
      · by_cases hz : v1 * v2 = 0
        · have hlen : mul64 (mul64 r.size v1) v2 = 0 := by
            rcases Nat.mul_eq_zero.mp hz with h | h
            · subst h; unfold mul64; simp
            · subst h; unfold mul64; simp
          rw [hlen, add64_eq (by omega), if_neg (by omega), hz, alloc_ok (by omega), Res.ok_bind]
          by_cases he : off + 16 = buf.length
          · have : memRead buf (off + 8 + 8) 0 = .ub := by unfold memRead; rw [if_neg (by omega)]
            rw [this]
            simp [he]
          · rw [memRead_ok (by omega) (by omega), Res.ok_bind, sub64 (by omega) (by omega), mkD_ok (by omega)]
            simp [he]
        · have hr0 : 0 < v1 := Nat.pos_of_ne_zero (fun h => hz (by rw [h]; simp))
          have hc0 : 0 < v2 := Nat.pos_of_ne_zero (fun h => hz (by rw [h]; simp))
          have hrs : r.size * v1 ≤ v1 * v2 * r.size := by
            calc r.size * v1 = v1 * 1 * r.size := by ring
              _ ≤ v1 * v2 * r.size := Nat.mul_le_mul_right _ (Nat.mul_le_mul_left _ hc0)
          have hlen : mul64 (mul64 r.size v1) v2 = v1 * v2 * r.size := by
            have : r.size * v1 * v2 = v1 * v2 * r.size := by ring
            rw [mul64_eq (show r.size * v1 < TWO64 by omega), mul64_eq (by rw [this]; omega), this]
          have hp : 0 < v1 * v2 * r.size := Nat.mul_pos (Nat.mul_pos hr0 hc0) r.pos
          rw [hlen, add64_eq (by omega)]
          by_cases hfit : off + 8 + 8 + v1 * v2 * r.size > buf.length
          · rw [if_pos hfit]; simp [hz]
          · rw [if_neg hfit, alloc_ok hsz, Res.ok_bind, memRead_ok (by omega) (by omega), Res.ok_bind,
              sub64 (by omega) (by omega), mkD_ok (by omega)]
            simp [hz]
      · have hz : v1 * v2 ≠ 0 := by intro h; rw [h] at hsz; simp at hsz
        have halloc : allocate (v1 * v2) r.size = .throw .lengthError := by unfold allocate; rw [if_neg hsz]
        rw [halloc]
        split_ifs <;> simp [hz]
    · simp
    · exact absurd h2 hs2
  · simp
  · exact absurd h1 hs1

example : deMatrix true repr16 (List.replicate 17 0) 0 ≠ .ub := by
  rw [Ne, C56_matrix_safe_partial _ _ _ _ (by decide) (by decide)]
  rintro ⟨h, _⟩
  revert h; decide

end CRU.Ser
