import Verif.Serialization.Lemmas
namespace CRU.Ser

variable {T : Type}

attribute [local irreducible] add64 mul64 diff64 mkDeserialized getValue allocate memRead memWrite

/-! ### network byte order -/

theorem netBytes_eq (l : Bool) (r : Repr T) (hw : r.size = 1 ∨ r.size = 2 ∨ r.size = 4 ∨ r.size = 8) (x : T) :
    netBytes l r x = if l then (r.bytes x).reverse else r.bytes x := by
  unfold netBytes
  by_cases h1 : r.size = 1
  · rw [if_pos h1]
    have hb := r.length_bytes x
    rw [h1] at hb
    obtain ⟨a, ha⟩ := List.length_eq_one_iff.mp hb
    cases l <;> simp [ha]
  · rw [if_neg h1, if_pos (by omega)]
    have := hostBytes_hton l (r.bytes x)
    rw [r.length_bytes] at this
    exact this

theorem length_netBytes (l : Bool) (r : Repr T) (hw : r.size = 1 ∨ r.size = 2 ∨ r.size = 4 ∨ r.size = 8) (x : T) :
    (netBytes l r x).length = r.size := by
  rw [netBytes_eq l r hw]; cases l <;> simp [r.length_bytes]

theorem netBytes_beBytes (l : Bool) (r : Repr T) (hw : r.size = 1 ∨ r.size = 2 ∨ r.size = 4 ∨ r.size = 8) (x : T) :
    netBytes l r x = beBytes r.size (hostValue l (r.bytes x)) := by
  rw [netBytes_eq l r hw, beBytes_eq]
  have hb := r.length_bytes x
  cases l
  · have := leBytes_ofLe (r.bytes x).reverse
    rw [List.length_reverse, hb] at this
    simp [hostValue, this]
  · have := leBytes_ofLe (r.bytes x)
    rw [hb] at this
    simp [hostValue, this]

/-- What `deNet` makes of the bytes it read. -/
def netDecode (l : Bool) (r : Repr T) (b : Buf) : T :=
  if r.size = 1 then r.ofBytes b else r.ofBytes (hostBytes l r.size (hton l r.size (hostValue l b)))

theorem netDecode_netBytes (l : Bool) (r : Repr T) (hw : r.size = 1 ∨ r.size = 2 ∨ r.size = 4 ∨ r.size = 8) (x : T) :
    netDecode l r (netBytes l r x) = x := by
  unfold netDecode
  by_cases h1 : r.size = 1
  · rw [if_pos h1]
    unfold netBytes
    rw [if_pos h1, r.ofBytes_bytes]
  · rw [if_neg h1]
    have := hostBytes_hton l (netBytes l r x)
    rw [length_netBytes l r hw] at this
    rw [this, netBytes_eq l r hw]
    cases l <;> simp [r.ofBytes_bytes]

theorem deNet_eq (l : Bool) (r : Repr T) : deNet l r = (fun buf off =>
      if off ≥ buf.length then .throw .invalidArgument
      else if add64 off r.size > buf.length then .throw .invalidArgument
      else do
        let b ← memRead buf off r.size
        mkDeserialized (netDecode l r b) r.size) := rfl

theorem safe_deNet (l : Bool) (r : Repr T) : SafeDeserializer (deNet l r) := by
  rw [deNet_eq]; exact safe_read r.size r.pos r.small _

theorem safe_deMem (r : Repr T) : SafeDeserializer (deMem r) := safe_read r.size r.pos r.small _

theorem safe_deNetU64 (l : Bool) : SafeDeserializer (deNetU64 l) := safe_read 8 (by omega) (by omega) _

theorem read_rt {f : Buf → T} {sz : Nat} (hsz : 0 < sz) (hs : sz < 4294967296) (enc : Buf) (hb : enc.length = sz) (x : T)
    (hf : f enc = x) (pre post : Buf) (hlen : (pre ++ enc ++ post).length < TWO63) :
    (if pre.length ≥ (pre ++ enc ++ post).length then .throw .invalidArgument
      else if add64 pre.length sz > (pre ++ enc ++ post).length then .throw .invalidArgument
      else do
        let b ← memRead (pre ++ enc ++ post) pre.length sz
        mkDeserialized (f b) sz) = .ok (x, sz) := by
  have hne : enc ≠ [] := by intro h; rw [h] at hb; simp at hb; omega
  have hL : (pre ++ enc ++ post).length = pre.length + sz + post.length := by simp [hb, add_assoc]
  rw [hL] at hlen
  have := read_ctx pre enc post hne
  rw [hb] at this
  rw [hL, if_neg (by omega), add64_eq (by omega), if_neg (by omega), this, Res.ok_bind, hf, mkD_ok (by omega)]

theorem rt_net (l : Bool) (r : Repr T) (hw : r.size = 1 ∨ r.size = 2 ∨ r.size = 4 ∨ r.size = 8) (x : T) :
    RoundTrips (serNet l r) (deNet l r) x := by
  have hpos := r.pos
  have hb := length_netBytes l r hw x
  refine ⟨netBytes l r x, by intro h; rw [h] at hb; simp at hb; omega, ?_, ?_⟩
  · intro buf _; simp [serNet]
  · intro pre post hlen
    refine ⟨x, ?_, rfl⟩
    rw [deNet_eq, hb]
    exact read_rt r.pos r.small _ hb x (netDecode_netBytes l r hw x) pre post hlen

theorem hton_hton (l : Bool) (n v : Nat) (hv : v < 256 ^ n) :
    hton l n (hostValue l (hostBytes l n (hton l n v))) = v := by
  cases l
  · simp only [hton, if_neg Bool.false_ne_true]
    rw [hostValue_hostBytes false n v hv]
  · simp only [hton, hostValue, hostBytes, if_true]
    have hl : (leBytes n v).reverse.length = n := by simp [length_leBytes]
    have e1 : leBytes n (byteSwap n v) = (leBytes n v).reverse := by
      unfold byteSwap
      have := leBytes_ofLe (leBytes n v).reverse
      rw [hl] at this; exact this
    rw [e1]
    unfold byteSwap
    have := leBytes_ofLe (leBytes n v).reverse
    rw [hl] at this
    rw [this, List.reverse_reverse, ofLe_leBytes n v hv]

theorem pow256_8 : (256 : Nat) ^ 8 = TWO64 := by norm_num

theorem netHeader_good (l : Bool) : GoodHeader (serNetU64 l) (deNetU64 l) := by
  intro v hv
  have hb : (hostBytes l 8 (hton l 8 v)).length = 8 := length_hostBytes _ _ _
  refine ⟨hostBytes l 8 (hton l 8 v), by intro h; rw [h] at hb; simp at hb, ?_, ?_⟩
  · intro buf _; simp [serNetU64]
  · intro pre post hlen
    refine ⟨v, ?_, rfl⟩
    rw [hb]
    exact read_rt (f := fun b => hton l 8 (hostValue l b)) (by omega) (by omega) _ hb v (hton_hton l 8 v (by rw [pow256_8]; exact hv)) pre post hlen

/-! ### vectors of memcpyable elements -/

theorem length_flatMap_bytes (r : Repr T) (xs : List T) : (xs.flatMap r.bytes).length = xs.length * r.size := by
  induction xs with
  | nil => simp
  | cons x xs ih => simp [ih, r.length_bytes, Nat.add_mul]; omega

theorem chunks_flatMap (r : Repr T) (xs : List T) : chunks r xs.length (xs.flatMap r.bytes) = xs := by
  induction xs with
  | nil => rfl
  | cons x xs ih =>
    have hb := r.length_bytes x
    simp only [List.length_cons, List.flatMap_cons, chunks]
    rw [List.take_left' hb, List.drop_left' hb, r.ofBytes_bytes, ih]

theorem memWrite_end (a src : Buf) (h : src ≠ []) :
    memWrite (a ++ List.replicate src.length 0) a.length src = .ok (a ++ src) := by
  have : 0 < src.length := List.length_pos_iff.mpr h
  unfold memWrite
  rw [if_pos (by simp; omega)]
  simp

theorem rt_memVec {hs hd} (hh : GoodHeader hs hd) (r : Repr T) (xs : List T) (hsz : xs.length * r.size < TWO63) :
    RoundTrips (serMemVec hs r) (deMemVec hd r) xs := by
  have hrp := r.pos
  have hn : xs.length < TWO63 := lt_of_le_of_lt (Nat.le_mul_of_pos_right _ hrp) hsz
  obtain ⟨e1, ne1, s1, d1⟩ := hh xs.length (by omega)
  have hpos : 0 < e1.length := List.length_pos_iff.mpr ne1
  have hle := length_flatMap_bytes r xs
  refine ⟨e1 ++ xs.flatMap r.bytes, by simp [ne1], ?_, ?_⟩
  · intro buf hbuf
    have hbl : buf.length + e1.length + xs.length * r.size < TWO63 := by
      rw [← hle]; simpa [add_assoc] using hbuf
    unfold serMemVec
    rw [Nat.mod_eq_of_lt (show xs.length < TWO64 by omega), s1 buf (by simp; omega), Res.ok_bind]
    dsimp only
    rw [mul64_eq (by rw [Nat.mul_comm]; omega), Nat.mul_comm r.size]
    by_cases h0 : xs.length > 0
    · rw [if_pos h0, ← hle, memWrite_end _ _ (by
        intro h; rw [h] at hle; simp at hle
        rcases hle with h | h
        · rw [h] at h0; simp at h0
        · omega), Res.ok_bind, Res.pure_eq]
      simp
    · have : xs = [] := List.length_eq_zero_iff.mp (by omega)
      subst this
      rw [if_neg h0, Res.pure_eq, Res.ok_bind, Res.pure_eq]
      simp
  · intro pre post hlen
    have hl : pre.length + e1.length + xs.length * r.size + post.length < TWO63 := by
      rw [← hle]; simpa [add_assoc] using hlen
    obtain ⟨y, hy, hey⟩ := d1 pre (xs.flatMap r.bytes ++ post) (by
      simpa [add_assoc, -List.length_flatMap, hle] using hl)
    subst hey
    refine ⟨xs, ?_, rfl⟩
    have eq1 : pre ++ (e1 ++ xs.flatMap r.bytes) ++ post = pre ++ e1 ++ (xs.flatMap r.bytes ++ post) := by simp
    rw [eq1]
    have hL : (pre ++ e1 ++ (xs.flatMap r.bytes ++ post)).length
        = pre.length + e1.length + xs.length * r.size + post.length := by
      rw [List.length_append, List.length_append, List.length_append, hle]; omega
    rw [deMemVec_ok r hpos (by rw [hL]; exact hl) hy (by rw [hL]; omega)]
    rw [List.drop_left' (by simp), List.take_left' hle, chunks_flatMap, List.length_append, hle]

theorem netItems (l : Bool) (r : Repr T) (hw : r.size = 1 ∨ r.size = 2 ∨ r.size = 4 ∨ r.size = 8) (xs : List T) (a : Buf)
    (hl : a.length + xs.length * r.size < TWO63) :
    serNetItemsInPlace l r xs (a ++ List.replicate (xs.length * r.size) 0) a.length
      = .ok (a ++ xs.flatMap (netBytes l r)) := by
  induction xs generalizing a with
  | nil => simp [serNetItemsInPlace]
  | cons x xs ih =>
    have hb := length_netBytes l r hw x
    have hpos := r.pos
    have hsm := r.small
    rw [List.length_cons, Nat.add_mul] at hl ⊢
    unfold serNetItemsInPlace serNetInPlace
    rw [add64_eq (by omega), if_pos (by simp)]
    have hw1 : memWrite (a ++ List.replicate (xs.length * r.size + 1 * r.size) 0) a.length (netBytes l r x)
        = .ok (a ++ netBytes l r x ++ List.replicate (xs.length * r.size) 0) := by
      unfold memWrite
      rw [if_pos (by simp [hb]; omega)]
      simp [hb, List.drop_append]
    rw [hw1, Res.ok_bind, Res.pure_eq, Res.ok_bind]
    dsimp only
    have h2 := ih (a ++ netBytes l r x) (by simp [hb]; omega)
    rw [List.length_append, hb] at h2
    rw [add64_eq (by omega), h2]
    simp

theorem rt_netMemVec (l : Bool) (r : Repr T) (hw : r.size = 1 ∨ r.size = 2 ∨ r.size = 4 ∨ r.size = 8) (xs : List T)
    (hsz : xs.length * r.size < TWO63) :
    RoundTrips (serNetMemVec l (serNetU64 l) r) (deSeq (deNetU64 l) r.size (deNet l r)) xs := by
  have hrp := r.pos
  have hn : xs.length < TWO63 := lt_of_le_of_lt (Nat.le_mul_of_pos_right _ hrp) hsz
  have key : ∀ buf : Buf, buf.length + 8 + xs.length * r.size < TWO63 →
      serNetMemVec l (serNetU64 l) r xs buf = serSeq (serNetU64 l) (serNet l r) xs buf := by
    intro buf hbuf
    have hb8 : (hostBytes l 8 (hton l 8 xs.length)).length = 8 := length_hostBytes _ _ _
    have hser : ∀ (ys : List T) (b : Buf), serItems (serNet l r) ys b = .ok (b ++ ys.flatMap (netBytes l r)) := by
      intro ys
      induction ys with
      | nil => intro b; simp [serItems]
      | cons y ys ih => intro b; unfold serItems; simp only [serNet]; rw [Res.ok_bind, ih]; simp
    unfold serNetMemVec serSeq
    rw [Nat.mod_eq_of_lt (show xs.length < TWO64 by omega)]
    unfold serNetU64
    dsimp only
    rw [Res.ok_bind, Res.ok_bind]
    dsimp only
    rw [hser, mul64_eq (by rw [Nat.mul_comm]; omega), Nat.mul_comm r.size]
    rw [netItems l r hw xs _ (by simp [hb8]; omega)]
  obtain ⟨enc, ne, s, d⟩ := rt_seq (netHeader_good l) r.size Eq (serNet l r) (deNet l r) xs hsz (by omega)
    (fun x _ => rt_net l r hw x)
  refine ⟨enc, ne, ?_, ?_⟩
  · intro buf hbuf
    rw [← s buf hbuf]
    apply key
    -- the encoding has exactly this length
    have h0 := s [] (by simp at hbuf ⊢; omega)
    have hser : ∀ (ys : List T) (b : Buf), serItems (serNet l r) ys b = .ok (b ++ ys.flatMap (netBytes l r)) := by
      intro ys
      induction ys with
      | nil => intro b; simp [serItems]
      | cons y ys ih => intro b; unfold serItems; simp only [serNet]; rw [Res.ok_bind, ih]; simp
    have hfl : (xs.flatMap (netBytes l r)).length = xs.length * r.size := by
      clear hser h0 key s d hbuf hsz hn
      induction xs with
      | nil => simp
      | cons x xs ih => rw [List.flatMap_cons, List.length_append, ih, length_netBytes l r hw, List.length_cons, Nat.add_mul]; omega
    have hb8 : (hostBytes l 8 (hton l 8 xs.length)).length = 8 := length_hostBytes _ _ _
    unfold serSeq at h0
    rw [Nat.mod_eq_of_lt (show xs.length < TWO64 by omega)] at h0
    unfold serNetU64 at h0
    dsimp only at h0
    rw [Res.ok_bind, hser, Res.ok_bind, Res.pure_eq] at h0
    simp only [Res.ok.injEq, Prod.mk.injEq, List.nil_append] at h0
    have : enc.length = 8 + xs.length * r.size := by rw [← h0.1, List.length_append, hfl, hb8]
    rw [List.length_append, this] at hbuf
    omega
  · intro pre post hlen
    obtain ⟨y, hy, hey⟩ := d pre post hlen
    exact ⟨y, hy, forall₂_eq hey⟩

/-! ### set- and map-like containers -/

/-- Hash containers: inserting an element whose key is new adds it somewhere. -/
theorem insertAll_perm {K : Type} (key : T → K) (ins : T → List T → List T)
    (hins : ∀ x c, (∀ y ∈ c, key y ≠ key x) → (ins x c).Perm (x :: c)) (xs : List T)
    (hnd : (xs.map key).Nodup) : (insertAll ins xs []).Perm xs := by
  have gen : ∀ (xs c : List T), ((c ++ xs).map key).Nodup → (insertAll ins xs c).Perm (c ++ xs) := by
    intro xs
    induction xs with
    | nil => intro c _; simp [insertAll]
    | cons x xs ih =>
      intro c hnd
      have hx : ∀ y ∈ c, key y ≠ key x := by
        intro y hy
        rw [List.map_append, List.nodup_append] at hnd
        exact hnd.2.2 _ (List.mem_map_of_mem hy) _ (by simp)
      have hp := hins x c hx
      have hp2 : (ins x c ++ xs).Perm (c ++ x :: xs) :=
        (hp.append_right xs).trans (by simpa using List.perm_middle.symm)
      have h2 := ih (ins x c) (((hp2.map key).nodup_iff).mpr hnd)
      simp only [insertAll]
      exact h2.trans hp2
  simpa using gen xs [] (by simpa using hnd)

/-- Ordered containers keep their elements sorted: a larger new element goes to the end. -/
theorem insertAll_sorted (lt : T → T → Prop) (ins : T → List T → List T)
    (hins : ∀ x c, (∀ y ∈ c, lt y x) → ins x c = c ++ [x]) (xs : List T) (hs : xs.Pairwise lt) :
    insertAll ins xs [] = xs := by
  have gen : ∀ (xs c : List T), (c ++ xs).Pairwise lt → insertAll ins xs c = c ++ xs := by
    intro xs
    induction xs with
    | nil => intro c _; simp [insertAll]
    | cons x xs ih =>
      intro c h
      have hx : ∀ y ∈ c, lt y x := fun y hy => (List.pairwise_append.mp h).2.2 y hy x (by simp)
      simp only [insertAll]
      rw [hins x c hx, ih _ (by simpa using h)]
      simp
  simpa using gen xs [] hs

end CRU.Ser
