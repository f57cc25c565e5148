import Verif.Rrt.Tree
import Verif.Serialization.Cursor
/-
  C65: serialization of planner trees (simple_rrt_planner.hpp:40-87, 164-206).
-/
namespace CRU.Rrt
open CRU.Ser

variable {V : Type}

attribute [local irreducible] add64 mul64 diff64 mkDeserialized getValue allocate memRead memWrite

/-- Object representation of a 64-bit word (`int64_t` and `uint64_t` are copied as such, serialization.hpp:436-492). -/
def word (little : Bool) : Ser.Repr UInt64 where
  size := 8
  pos := by decide
  small := by decide
  bytes x := u64Bytes little x.toNat
  ofBytes b := UInt64.ofNat (hostValue little b)
  length_bytes x := length_hostBytes little 8 x.toNat
  ofBytes_bytes x := by
    rw [u64Bytes, hostValue_hostBytes little 8 x.toNat x.toNat_lt]; exact UInt64.ofNat_toNat

/-- The two's complement word of an integer. -/
def toWord (v : Int) : UInt64 := UInt64.ofNat (v % (TWO64 : Int)).toNat
/-- The signed value of a word. -/
def ofWord (w : UInt64) : Int := if w.toNat < TWO63 then (w.toNat : Int) else (w.toNat : Int) - (TWO64 : Int)

theorem ofWord_toWord {v : Int} (h : InI64 v) : ofWord (toWord v) = v := by
  unfold InI64 at h
  have : (toWord v).toNat = (v % (TWO64 : Int)).toNat := by
    unfold toWord
    rw [UInt64.toNat_ofNat']
    omega
  unfold ofWord
  rw [this]
  split <;> omega

/-- serialization.hpp:436-461 `SerializeMemcpyableVectorLike<int64_t>`. -/
def serI64Vec (little : Bool) : Serializer (List Int) := fun xs buf => serMemVec (serU64 little) (word little) (xs.map toWord) buf

/-- serialization.hpp:463-492 `DeserializeMemcpyableVectorLike<int64_t>`. -/
def deI64Vec (little : Bool) : Deserializer (List Int) := fun buf off => do
  let d ← deMemVec (deU64 little) (word little) buf off
  pure (d.1.map ofWord, d.2)

/-- simple_rrt_planner.hpp:40-58 `SimpleRRTPlannerState::Serialize`. -/
def serNode (little : Bool) (sv : Serializer V) : Serializer (Node V) :=
  wrote fun n => seqW (put sv n.value) (seqW (put (serI64Vec little) n.children) (put (serI64 little) n.parent))

/-- simple_rrt_planner.hpp:60-87 `SimpleRRTPlannerState::Deserialize`. -/
def deNode (little : Bool) (dv : Deserializer V) : Deserializer (Node V) :=
  finish <| (field dv).andThen fun v => (field (deI64Vec little)).andThen fun c => (field (deI64 little)).andThen fun p =>
    Cursor.done ⟨v, p, c⟩

/-- simple_rrt_planner.hpp:164-180 `SimpleRRTPlannerTree::Serialize`. -/
def serTree (little : Bool) (sv : Serializer V) : Serializer (Tree V) := serSeq (serU64 little) (serNode little sv)

/-- simple_rrt_planner.hpp:182-206 `SimpleRRTPlannerTree::Deserialize`; `nsz` is the size of a node in memory. -/
def deTree (little : Bool) (nsz : Nat) (dv : Deserializer V) : Deserializer (Tree V) := fun buf off => do
  let d ← deSeq (deU64 little) nsz (deNode little dv) buf off
  let d ← getValue d
  let t ← ofNodes d.1
  mkDeserialized t d.2

theorem rt_i64Vec (l : Bool) (xs : List Int) (h : ∀ x ∈ xs, InI64 x) (hsz : xs.length * 8 < TWO63) :
    RoundTrips (serI64Vec l) (deI64Vec l) xs := by
  obtain ⟨enc, ne, s, d⟩ := rt_memVec (header_good l) (word l) (xs.map toWord) (by simpa [word] using hsz)
  refine ⟨enc, ne, s, fun pre post hl => ?_⟩
  obtain ⟨y, hy, rfl⟩ := d pre post hl
  refine ⟨xs, ?_, rfl⟩
  unfold deI64Vec
  rw [hy, Res.ok_bind, Res.pure_eq]
  have : (xs.map toWord).map ofWord = xs := by
    rw [List.map_map]
    conv => rhs; rw [← List.map_id xs]
    exact List.map_congr_left fun x hx => ofWord_toWord (h x hx)
  dsimp only
  rw [this]

theorem safe_i64Vec (l : Bool) : SafeDeserializer (deI64Vec l) := by
  intro buf off hb ho
  obtain ⟨hu, hok⟩ := safe_memVec (header_safe l) (word l) buf off hb ho
  cases hd : deMemVec (deU64 l) (word l) buf off with
  | ub => exact absurd hd hu
  | throw e =>
    have : deI64Vec l buf off = .throw e := by unfold deI64Vec; rw [hd, Res.throw_bind]
    rw [this]; exact ⟨by simp, by simp⟩
  | ok d =>
    obtain ⟨v, n⟩ := d
    obtain ⟨h1, h2, h3⟩ := hok v n hd
    have common : ∀ b : Buf, deMemVec (deU64 l) (word l) b off = .ok (v, n) → deI64Vec l b off = .ok (v.map ofWord, n) := by
      intro b hb'; unfold deI64Vec; rw [hb', Res.ok_bind, Res.pure_eq]
    rw [common buf hd]
    refine ⟨by simp, ?_⟩
    intro v' m heq
    simp only [Res.ok.injEq, Prod.mk.injEq] at heq
    obtain ⟨rfl, rfl⟩ := heq
    exact ⟨h1, h2, fun buf' a b c => common buf' (h3 buf' a b c)⟩

/-- A node that fits its in-memory representation. -/
def NodeFits (sv : Serializer V) (dv : Deserializer V) (n : Node V) : Prop :=
  RoundTrips sv dv n.value ∧ InI64 n.parent ∧ (∀ c ∈ n.children, InI64 c) ∧ n.children.length * 8 < TWO63

theorem rt_node (l : Bool) {sv : Serializer V} {dv : Deserializer V} {n : Node V} (h : NodeFits sv dv n) :
    RoundTrips (serNode l sv) (deNode l dv) n := by
  obtain ⟨h1, h2, h3, h4⟩ := h
  unfold InI64 at h2
  refine rt_record (x1 := n.value) h1 ?_ rfl
  refine wr_seq_eq (wr_field (rt_i64Vec l n.children h3 h4)) ?_
  exact wr_last (wr_field (rt_i64 l n.parent (by omega) (by omega))) rfl

theorem safe_node (l : Bool) {dv : Deserializer V} (hv : SafeDeserializer dv) : SafeDeserializer (deNode l dv) := by
  have hs : ∀ v, SafeCursor ((field (deI64Vec l)).andThen fun c => (field (deI64 l)).andThen fun p =>
    Cursor.done (⟨v, p, c⟩ : Node V)) := fun v =>
    safe_andThen (safe_field (safe_i64Vec l)) fun _ => safe_andThen (safe_field (safe_i64 l)) fun _ => safe_done _
  exact safe_finish (safe_andThen (safe_field hv) hs) (field_andThen_moves hv hs)

theorem deTree_of {l : Bool} {nsz : Nat} {dv : Deserializer V} {buf : Buf} {off : Nat} {t : Tree V} {n : Nat} (hn : n ≠ 0)
    (h : deSeq (deU64 l) nsz (deNode l dv) buf off = .ok (t, n)) :
    (Linked t → deTree l nsz dv buf off = .ok (t, n)) ∧
    (¬ Linked t → deTree l nsz dv buf off = .throw .invalidArgument) := by
  obtain ⟨b, hb, hq⟩ := C36_check t
  unfold deTree
  rw [h, Res.ok_bind, getValue_ok hn, Res.ok_bind]
  dsimp only
  cases b with
  | true =>
    have : ofNodes t = .ok t := by unfold ofNodes setNodes; rw [hb]
    rw [this, Res.ok_bind]
    exact ⟨fun _ => mkD_ok hn, fun hc => absurd (hq.mp rfl) hc⟩
  | false =>
    have : ofNodes t = .throw .invalidArgument := by unfold ofNodes setNodes; rw [hb]
    rw [this, Res.throw_bind]
    exact ⟨fun hc => by simpa using hq.mpr hc, fun _ => rfl⟩

theorem rt_nodes (l : Bool) (nsz : Nat) {sv : Serializer V} {dv : Deserializer V} {t : Tree V} (hg : t.length * nsz < TWO63)
    (hl : t.length < TWO63) (h : ∀ n ∈ t, NodeFits sv dv n) :
    RoundTrips (serTree l sv) (deSeq (deU64 l) nsz (deNode l dv)) t :=
  rt_list (header_good l) nsz _ _ t hg (by omega) fun n hn => rt_node l (h n hn)

/-- **C65** A tree with valid linkage round-trips, given a (de)serializer that round-trips its states and sizes that fit in
memory. -/
theorem C65_round_trip (l : Bool) (nsz : Nat) (sv : Serializer V) (dv : Deserializer V) (t : Tree V) (hv : Linked t)
    (hl : t.length < TWO63) (hg : t.length * nsz < TWO63) (hvals : ∀ n ∈ t, RoundTrips sv dv n.value)
    (hc : ∀ n ∈ t, n.children.length * 8 < TWO63) (hr : ∀ n ∈ t, -(TWO63 : Int) ≤ n.parent) :
    RoundTrips (serTree l sv) (deTree l nsz dv) t := by
  obtain ⟨enc, ne, s, d⟩ := rt_nodes l nsz hg hl (sv := sv) (dv := dv) (t := t) (fun n hn => by
    obtain ⟨i, hi⟩ := List.mem_iff_getElem?.mp hn
    obtain ⟨hil, _⟩ := List.getElem?_eq_some_iff.mp hi
    obtain ⟨h1, _, h3⟩ := hv i n hi
    have := hr n hn
    refine ⟨hvals n hn, by unfold InI64; omega, fun c hcm => ?_, hc n hn⟩
    obtain ⟨h4, m, h5, _⟩ := h3 c hcm
    obtain ⟨hjl, _⟩ := List.getElem?_eq_some_iff.mp h5
    unfold InI64; omega)
  refine ⟨enc, ne, s, fun pre post hlen => ?_⟩
  obtain ⟨y, hy, rfl⟩ := d pre post hlen
  exact ⟨y, (deTree_of (by simpa using ne) hy).1 hv, rfl⟩

/-- **C65** Bytes written for nodes without valid linkage are refused. -/
theorem C65_invalid_throws (l : Bool) (nsz : Nat) (sv : Serializer V) (dv : Deserializer V) (t : Tree V) (hv : ¬ Linked t)
    (hl : t.length < TWO63) (hg : t.length * nsz < TWO63) (hvals : ∀ n ∈ t, RoundTrips sv dv n.value)
    (hc : ∀ n ∈ t, n.children.length * 8 < TWO63) (hr : ∀ n ∈ t, InI64 n.parent ∧ ∀ c ∈ n.children, InI64 c) :
    ∃ enc : Buf, (∀ buf : Buf, (buf ++ enc).length < TWO63 → serTree l sv t buf = .ok (buf ++ enc, enc.length)) ∧
      ∀ pre post : Buf, (pre ++ enc ++ post).length < TWO63 →
        deTree l nsz dv (pre ++ enc ++ post) pre.length = .throw .invalidArgument := by
  obtain ⟨enc, ne, s, d⟩ := rt_nodes l nsz hg hl (fun n hn => ⟨hvals n hn, (hr n hn).1, (hr n hn).2, hc n hn⟩)
  refine ⟨enc, s, fun pre post hlen => ?_⟩
  obtain ⟨y, hy, rfl⟩ := d pre post hlen
  exact (deTree_of (by simpa using ne) hy).2 hv

/-- **C65** Whatever the bytes, deserialization throws or returns a tree with valid linkage. -/
theorem C65_result_linked (l : Bool) (nsz : Nat) (dv : Deserializer V) (buf : Buf) (off : Nat)
    (t : Tree V) (n : Nat) (h : deTree l nsz dv buf off = .ok (t, n)) : Linked t := by
  unfold deTree at h
  obtain ⟨d, h1, h⟩ := Res.bind_eq_ok.mp h
  obtain ⟨d', h2, h⟩ := Res.bind_eq_ok.mp h
  obtain ⟨t', h3, h⟩ := Res.bind_eq_ok.mp h
  obtain ⟨b, hb, hq⟩ := C36_check d'.1
  unfold ofNodes setNodes at h3
  rw [hb] at h3
  cases b with
  | false => cases h3
  | true =>
    cases h3
    unfold mkDeserialized at h
    split at h
    · cases h
    · cases h; exact hq.mp rfl

/-- **C65** On every buffer and offset it throws or stays inside the buffer, reporting the bytes it read. -/
theorem C65_safe (l : Bool) (nsz : Nat) (dv : Deserializer V) (hv : SafeDeserializer dv) :
    SafeDeserializer (deTree l nsz dv) := by
  have hs := safe_seq (header_safe l) nsz (safe_node l hv)
  intro buf off hb ho
  obtain ⟨hu, hok⟩ := hs buf off hb ho
  cases hd : deSeq (deU64 l) nsz (deNode l dv) buf off with
  | ub => exact absurd hd hu
  | throw e =>
    have : deTree l nsz dv buf off = .throw e := by unfold deTree; rw [hd, Res.throw_bind]
    rw [this]; exact ⟨by simp, by simp⟩
  | ok d =>
    obtain ⟨g, n⟩ := d
    obtain ⟨h1, h2, h3⟩ := hok g n hd
    by_cases hlk : Linked g
    · rw [(deTree_of (by omega) hd).1 hlk]
      refine ⟨by simp, ?_⟩
      intro v m heq
      simp only [Res.ok.injEq, Prod.mk.injEq] at heq
      obtain ⟨rfl, rfl⟩ := heq
      exact ⟨h1, h2, fun buf' a b c => (deTree_of (by omega) (h3 buf' a b c)).1 hlk⟩
    · rw [(deTree_of (by omega) hd).2 hlk]; exact ⟨by simp, by simp⟩

/-- A tree of two roots and two further nodes, with 64-bit words as states. -/
def exTree : Tree Nat := [⟨7, -1, [1, 2]⟩, ⟨8, 0, []⟩, ⟨9, 0, []⟩, ⟨10, -1, []⟩]

theorem exTree_linked : Linked exTree := by
  obtain ⟨b, hb, hP⟩ := C36_check exTree
  have : checkNodeLinkage exTree = .ok true := by decide
  rw [this] at hb; cases hb
  exact hP.1 rfl

example : RoundTrips (serTree true (serU64 true)) (deTree true 48 (deU64 true)) exTree := by
  refine C65_round_trip true 48 _ _ _ exTree_linked (by decide) (by decide) (fun n hn => ?_) (by decide) (by decide)
  exact header_good true _ (by revert n; decide)

example : ¬ Linked ([⟨7, 0, [0]⟩] : Tree Nat) := by
  intro h
  have := (h 0 ⟨7, 0, [0]⟩ rfl).1
  simp at this

example : SafeDeserializer (deTree true 48 (deU64 true)) := C65_safe true 48 _ (header_safe true)

end CRU.Rrt
