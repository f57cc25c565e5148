import Verif.Serialization.Model
import Mathlib.Data.List.Basic
import Mathlib.Data.List.Perm.Basic
import Mathlib.Tactic.Ring
import Mathlib.Tactic.Linarith
namespace CRU.Ser

variable {T : Type}

theorem add64_eq {a b : Nat} (h : a + b < TWO64) : add64 a b = a + b := Nat.mod_eq_of_lt h

theorem read_ctx (pre enc post : Buf) (h : enc ≠ []) :
    memRead (pre ++ enc ++ post) pre.length enc.length = .ok enc := by
  have : 0 < enc.length := List.length_pos_iff.mpr h
  unfold memRead
  rw [if_pos (by simp; omega)]
  simp

theorem sub64 {p off : Nat} (h : off ≤ p) (hp : p < TWO63) : diff64 p off = p - off := by
  unfold diff64
  have : p + TWO64 - off = (p - off) + TWO64 := by omega
  rw [this, Nat.add_mod_right]
  exact Nat.mod_eq_of_lt (by omega)



theorem mkD_ok {T : Type} {v : T} {n : Nat} (h : n ≠ 0) : mkDeserialized v n = .ok (v, n) := by
  unfold mkDeserialized; rw [if_neg h]

theorem getValue_ok {T : Type} {d : T × Nat} (h : d.2 ≠ 0) : getValue d = .ok d := by
  unfold getValue; rw [if_neg h]

theorem alloc_ok {n sz : Nat} (h : n * sz < TWO63) : allocate n sz = .ok () := by
  unfold allocate; rw [if_pos h]

theorem alloc_no {n sz : Nat} (h : ¬ n * sz < TWO63) : allocate n sz = .throw .lengthError := by
  unfold allocate; rw [if_neg h]

attribute [local irreducible] add64 mul64 diff64 mkDeserialized getValue allocate memRead

theorem rt_serItems (eqv : T → T → Prop) (item : Serializer T) (di : Deserializer T) (xs : List T)
    (h : ∀ x ∈ xs, RoundTripsUpTo eqv item di x) :
    ∃ enc : Buf, (∀ buf : Buf, (buf ++ enc).length < TWO63 → serItems item xs buf = .ok (buf ++ enc)) ∧ xs.length ≤ enc.length ∧
      ∀ pre post : Buf, (pre ++ enc ++ post).length < TWO63 →
        ∃ ys, deItems di (pre ++ enc ++ post) xs.length pre.length = .ok (ys, pre.length + enc.length) ∧
          List.Forall₂ eqv ys xs := by
  induction xs with
  | nil => exact ⟨[], by simp [serItems], by simp, fun pre post _ => ⟨[], by simp [deItems], .nil⟩⟩
  | cons x xs ih =>
    obtain ⟨e2, s2, l2, d2⟩ := ih (fun y hy => h y (by simp [hy]))
    obtain ⟨e1, ne1, s1, d1⟩ := h x (by simp)
    have hpos : 0 < e1.length := List.length_pos_iff.mpr ne1
    refine ⟨e1 ++ e2, ?_, ?_, ?_⟩
    · intro buf hbuf
      have hbl : buf.length + e1.length + e2.length < TWO63 := by simpa [add_assoc] using hbuf
      unfold serItems
      rw [s1 buf (by simp; omega), Res.ok_bind]
      dsimp only
      rw [s2 (buf ++ e1) (by simp; omega), List.append_assoc]
    · simp; omega
    · intro pre post hlen
      have hl : pre.length + e1.length + e2.length + post.length < TWO63 := by simpa [add_assoc] using hlen
      obtain ⟨y, hy, hey⟩ := d1 pre (e2 ++ post) (by simpa [add_assoc] using hlen)
      obtain ⟨ys, hys, heys⟩ := d2 (pre ++ e1) post (by simpa [add_assoc] using hlen)
      refine ⟨y :: ys, ?_, .cons hey heys⟩
      have eq1 : pre ++ (e1 ++ e2) ++ post = pre ++ e1 ++ (e2 ++ post) := by simp
      have eq2 : pre ++ (e1 ++ e2) ++ post = (pre ++ e1) ++ e2 ++ post := by simp
      rw [eq1] 
      simp only [deItems, List.length_cons, hy, Res.ok_bind]
      rw [getValue_ok (by dsimp only; omega)]
      simp only [Res.ok_bind]
      rw [add64_eq (by omega), ← eq1, eq2]
      rw [List.length_append] at hys
      rw [hys]
      simp [add_assoc]

theorem forall₂_eq {a b : List T} (h : List.Forall₂ Eq a b) : a = b := by
  induction h with
  | nil => rfl
  | cons h _ ih => rw [h, ih]

/-- Header hypotheses: the 64-bit size header round-trips. -/
def GoodHeader (hs : Serializer Nat) (hd : Deserializer Nat) : Prop :=
  ∀ v, v < TWO64 → RoundTrips hs hd v

theorem rt_seq {hs hd} (hh : GoodHeader hs hd) (esz : Nat) (eqv : T → T → Prop) (item : Serializer T) (di : Deserializer T)
    (xs : List T) (hsz : xs.length * esz < TWO63) (hn : xs.length < TWO64)
    (h : ∀ x ∈ xs, RoundTripsUpTo eqv item di x) :
    RoundTripsUpTo (List.Forall₂ eqv) (serSeq hs item) (deSeq hd esz di) xs := by
  obtain ⟨e2, s2, _, d2⟩ := rt_serItems eqv item di xs h
  obtain ⟨e1, ne1, s1, d1⟩ := hh xs.length hn
  have hpos : 0 < e1.length := List.length_pos_iff.mpr ne1
  refine ⟨e1 ++ e2, by simp [ne1], ?_, ?_⟩
  · intro buf hbuf
    have hbl : buf.length + e1.length + e2.length < TWO63 := by simpa [add_assoc] using hbuf
    unfold serSeq
    rw [Nat.mod_eq_of_lt hn, s1 buf (by simp; omega), Res.ok_bind]
    dsimp only
    rw [s2 (buf ++ e1) (by simp; omega), Res.ok_bind, Res.pure_eq, List.append_assoc]
    simp
  · intro pre post hlen
    have hl : pre.length + e1.length + e2.length + post.length < TWO63 := by simpa [add_assoc] using hlen
    obtain ⟨y, hy, hey⟩ := d1 pre (e2 ++ post) (by simpa [add_assoc] using hlen)
    obtain ⟨ys, hys, heys⟩ := d2 (pre ++ e1) post (by simpa [add_assoc] using hlen)
    subst hey
    refine ⟨ys, ?_, heys⟩
    have eq1 : pre ++ (e1 ++ e2) ++ post = pre ++ e1 ++ (e2 ++ post) := by simp
    have eq2 : pre ++ e1 ++ (e2 ++ post) = (pre ++ e1) ++ e2 ++ post := by simp
    rw [eq1]
    simp only [deSeq, hy, Res.ok_bind]
    rw [getValue_ok (by dsimp only; omega)]
    simp only [Res.ok_bind, allocate, if_pos hsz]
    rw [add64_eq (by omega), eq2]
    rw [List.length_append] at hys
    rw [hys]
    rw [Res.ok_bind]
    dsimp only
    rw [sub64 (by omega) (by omega), mkD_ok (by omega)]
    simp only [List.length_append]
    congr 2
    omega

theorem rt_container {hs hd} (hh : GoodHeader hs hd) (item : Serializer T) (di : Deserializer T)
    (ins : T → List T → List T) (eqv : List T → List T → Prop) (xs : List T) (hn : xs.length < TWO64)
    (hins : eqv (insertAll ins xs []) xs)
    (h : ∀ x ∈ xs, RoundTrips item di x) :
    RoundTripsUpTo eqv (serSeq hs item) (deContainer hd di ins) xs := by
  obtain ⟨e2, s2, _, d2⟩ := rt_serItems Eq item di xs h
  obtain ⟨e1, ne1, s1, d1⟩ := hh xs.length hn
  have hpos : 0 < e1.length := List.length_pos_iff.mpr ne1
  refine ⟨e1 ++ e2, by simp [ne1], ?_, ?_⟩
  · intro buf hbuf
    have hbl : buf.length + e1.length + e2.length < TWO63 := by simpa [add_assoc] using hbuf
    unfold serSeq
    rw [Nat.mod_eq_of_lt hn, s1 buf (by simp; omega), Res.ok_bind]
    dsimp only
    rw [s2 (buf ++ e1) (by simp; omega), Res.ok_bind, Res.pure_eq, List.append_assoc]
    simp
  · intro pre post hlen
    have hl : pre.length + e1.length + e2.length + post.length < TWO63 := by simpa [add_assoc] using hlen
    obtain ⟨y, hy, hey⟩ := d1 pre (e2 ++ post) (by simpa [add_assoc] using hlen)
    obtain ⟨ys, hys, heys⟩ := d2 (pre ++ e1) post (by simpa [add_assoc] using hlen)
    subst hey
    have := forall₂_eq heys
    subst this
    refine ⟨insertAll ins ys [], ?_, hins⟩
    have eq1 : pre ++ (e1 ++ e2) ++ post = pre ++ e1 ++ (e2 ++ post) := by simp
    have eq2 : pre ++ e1 ++ (e2 ++ post) = (pre ++ e1) ++ e2 ++ post := by simp
    rw [eq1]
    simp only [deContainer, hy, Res.ok_bind]
    rw [getValue_ok (by dsimp only; omega)]
    simp only [Res.ok_bind]
    rw [add64_eq (by omega), eq2]
    rw [List.length_append] at hys
    rw [hys]
    rw [Res.ok_bind]
    dsimp only
    rw [sub64 (by omega) (by omega), mkD_ok (by omega)]
    simp only [List.length_append]
    congr 2
    omega

theorem rt_pair {A B : Type} (ea : A → A → Prop) (eb : B → B → Prop) (sa : Serializer A) (da : Deserializer A)
    (sb : Serializer B) (db : Deserializer B) (p : A × B)
    (ha : RoundTripsUpTo ea sa da p.1) (hb : RoundTripsUpTo eb sb db p.2) :
    RoundTripsUpTo (fun x y => ea x.1 y.1 ∧ eb x.2 y.2) (serPair sa sb) (dePair da db) p := by
  obtain ⟨e1, ne1, s1, d1⟩ := ha
  obtain ⟨e2, ne2, s2, d2⟩ := hb
  have hpos : 0 < e1.length := List.length_pos_iff.mpr ne1
  have hpos2 : 0 < e2.length := List.length_pos_iff.mpr ne2
  refine ⟨e1 ++ e2, by simp [ne1], ?_, ?_⟩
  · intro buf hbuf
    have hbl : buf.length + e1.length + e2.length < TWO63 := by simpa [add_assoc] using hbuf
    unfold serPair
    rw [s1 buf (by simp; omega), Res.ok_bind]
    dsimp only
    rw [s2 (buf ++ e1) (by simp; omega), Res.ok_bind, Res.pure_eq, List.append_assoc]
    simp
  · intro pre post hlen
    have hl : pre.length + e1.length + e2.length + post.length < TWO63 := by simpa [add_assoc] using hlen
    obtain ⟨y, hy, hey⟩ := d1 pre (e2 ++ post) (by simpa [add_assoc] using hlen)
    obtain ⟨z, hz, hez⟩ := d2 (pre ++ e1) post (by simpa [add_assoc] using hlen)
    refine ⟨(y, z), ?_, hey, hez⟩
    have eq1 : pre ++ (e1 ++ e2) ++ post = pre ++ e1 ++ (e2 ++ post) := by simp
    have eq2 : pre ++ e1 ++ (e2 ++ post) = (pre ++ e1) ++ e2 ++ post := by simp
    rw [eq1]
    unfold dePair
    rw [hy, Res.ok_bind, getValue_ok (show (y, e1.length).2 ≠ 0 by dsimp only; omega), Res.ok_bind]
    dsimp only
    rw [add64_eq (show pre.length + e1.length < TWO64 by omega), eq2]
    rw [List.length_append] at hz
    rw [hz, Res.ok_bind, getValue_ok (show (z, e2.length).2 ≠ 0 by dsimp only; omega), Res.ok_bind]
    dsimp only
    rw [add64_eq (show pre.length + e1.length + e2.length < TWO64 by omega), sub64 (by omega) (by omega), mkD_ok (by omega)]
    rw [List.length_append]
    congr 2
    omega

theorem rt_mem (r : Repr T) (x : T) : RoundTrips (serMem r) (deMem r) x := by
  have hpos := r.pos
  have hb := r.length_bytes x
  refine ⟨r.bytes x, by intro h; rw [h] at hb; simp at hb; omega, ?_, ?_⟩
  · intro buf _; simp [serMem]
  · intro pre post hlen
    have hs := r.small
    have hl : pre.length + r.size + post.length < TWO63 := by simpa [hb, add_assoc] using hlen
    refine ⟨x, ?_, rfl⟩
    unfold deMem
    have hL : (pre ++ r.bytes x ++ post).length = pre.length + r.size + post.length := by simp [hb, add_assoc]
    rw [hL, if_neg (by omega), add64_eq (by omega), if_neg (by omega)]
    have := read_ctx pre (r.bytes x) post (by intro h; rw [h] at hb; simp at hb; omega)
    rw [hb] at this
    rw [this]
    simp only [Res.ok_bind, r.ofBytes_bytes]
    rw [mkD_ok (by omega), hb]

/-! ### safety -/

theorem drop_take_sub (a b : Buf) (off n p m : Nat) (h : (a.drop off).take n = (b.drop off).take n)
    (h1 : off ≤ p) (h2 : p + m ≤ off + n) : (a.drop p).take m = (b.drop p).take m := by
  have key : ∀ c : Buf, (c.drop p).take m = (((c.drop off).take n).drop (p - off)).take m := by
    intro c
    rw [List.drop_take, List.drop_drop, List.take_take, show off + (p - off) = p by omega,
      show min m (n - (p - off)) = m by omega]
  rw [key a, key b, h]

theorem safe_read {R : Type} (sz : Nat) (hsz : 0 < sz) (hs : sz < 4294967296) (f : Buf → R) :
    SafeDeserializer (fun buf off =>
      if off ≥ buf.length then .throw .invalidArgument
      else if add64 off sz > buf.length then .throw .invalidArgument
      else do
        let b ← memRead buf off sz
        mkDeserialized (f b) sz) := by
  intro buf off hb ho
  dsimp only
  split
  · simp
  rename_i h1
  rw [add64_eq (by omega)]
  split
  · simp
  rename_i h2
  have hread : ∀ b : Buf, off < b.length → off + sz ≤ b.length → memRead b off sz = .ok ((b.drop off).take sz) := by
    intro b h h'; unfold memRead; rw [if_pos ⟨h, h'⟩]
  rw [hread buf (by omega) (by omega)]
  simp only [Res.ok_bind]
  rw [mkD_ok (by omega)]
  refine ⟨by simp, ?_⟩
  intro v n hv
  simp only [Res.ok.injEq, Prod.mk.injEq] at hv
  obtain ⟨rfl, rfl⟩ := hv
  refine ⟨by omega, by omega, ?_⟩
  intro buf' hb' hn' heq
  rw [if_neg (by omega), if_neg (by omega), hread buf' (by omega) (by omega), heq]
  simp only [Res.ok_bind]
  rw [mkD_ok (by omega)]

theorem safe_deItems {di : Deserializer T} (h : SafeDeserializer di) (buf : Buf) (hb : buf.length < TWO63) (n pos : Nat)
    (hp : pos ≤ buf.length) :
    deItems di buf n pos ≠ .ub ∧
    ∀ ys p, deItems di buf n pos = .ok (ys, p) → pos ≤ p ∧ p ≤ buf.length ∧
      ∀ buf' : Buf, buf'.length < TWO63 → p ≤ buf'.length →
        (buf'.drop pos).take (p - pos) = (buf.drop pos).take (p - pos) → deItems di buf' n pos = .ok (ys, p) := by
  induction n generalizing pos with
  | zero =>
    refine ⟨by simp [deItems], ?_⟩
    intro ys p heq
    simp only [deItems, Res.ok.injEq, Prod.mk.injEq] at heq
    obtain ⟨rfl, rfl⟩ := heq
    exact ⟨le_refl _, hp, fun _ _ _ _ => rfl⟩
  | succ n ih =>
    obtain ⟨hu, hok⟩ := h buf pos hb (by omega)
    cases hd : di buf pos with
    | ub => exact absurd hd hu
    | throw e => exact ⟨by simp [deItems, hd], by intro ys p hh; simp [deItems, hd] at hh⟩
    | ok d =>
      obtain ⟨v, m⟩ := d
      obtain ⟨hm, hle, hloc⟩ := hok v m hd
      obtain ⟨ihu, ihok⟩ := ih (pos + m) hle
      simp only [deItems, hd, Res.ok_bind]
      rw [getValue_ok (by dsimp only; omega)]
      simp only [Res.ok_bind]
      rw [add64_eq (by omega)]
      cases hr : deItems di buf n (pos + m) with
      | ub => exact absurd hr ihu
      | throw e => exact ⟨by simp, by simp⟩
      | ok r =>
        obtain ⟨ys, p⟩ := r
        obtain ⟨h1, h2, h3⟩ := ihok ys p hr
        refine ⟨by simp, ?_⟩
        intro ys' p' heq
        simp only [Res.ok_bind, Res.pure_eq, Res.ok.injEq, Prod.mk.injEq] at heq
        obtain ⟨rfl, rfl⟩ := heq
        refine ⟨by omega, h2, ?_⟩
        intro buf' hb' hl' hag
        rw [hloc buf' hb' (by omega) (drop_take_sub _ _ pos _ _ _ hag (by omega) (by omega))]
        simp only [Res.ok_bind]
        rw [getValue_ok (by dsimp only; omega)]
        simp only [Res.ok_bind]
        rw [add64_eq (by omega)]
        rw [h3 buf' hb' hl' (drop_take_sub _ _ pos _ _ _ hag (by omega) (by omega))]
        simp only [Res.ok_bind, Res.pure_eq]

theorem safe_seq {hd : Deserializer Nat} (hh : SafeDeserializer hd) (esz : Nat) {di : Deserializer T}
    (h : SafeDeserializer di) : SafeDeserializer (deSeq hd esz di) := by
  intro buf off hb ho
  obtain ⟨hu, hok⟩ := hh buf off hb ho
  cases hd1 : hd buf off with
  | ub => exact absurd hd1 hu
  | throw e => exact ⟨by simp [deSeq, hd1], by intro v n hv; simp [deSeq, hd1] at hv⟩
  | ok d =>
    obtain ⟨c, m⟩ := d
    obtain ⟨hm, hle, hloc⟩ := hok c m hd1
    simp only [deSeq, hd1, Res.ok_bind]
    rw [getValue_ok (by dsimp only; omega)]
    simp only [Res.ok_bind]
    rw [add64_eq (by omega)]
    by_cases ha : c * esz < TWO63
    · rw [alloc_ok ha, Res.ok_bind]
      obtain ⟨iu, iok⟩ := safe_deItems h buf hb c (off + m) hle
      cases hr : deItems di buf c (off + m) with
      | ub => exact absurd hr iu
      | throw e => exact ⟨by simp, by simp⟩
      | ok r =>
        obtain ⟨ys, p⟩ := r
        obtain ⟨h1, h2, h3⟩ := iok ys p hr
        rw [Res.ok_bind]
        dsimp only
        rw [sub64 (by omega) (by omega), mkD_ok (by omega)]
        refine ⟨by simp, ?_⟩
        intro v n hv
        simp only [Res.ok.injEq, Prod.mk.injEq] at hv
        obtain ⟨rfl, rfl⟩ := hv
        refine ⟨by omega, by omega, ?_⟩
        intro buf' hb' hl' hag
        rw [hloc buf' hb' (by omega) (drop_take_sub _ _ off _ _ _ hag (by omega) (by omega))]
        simp only [Res.ok_bind]
        rw [getValue_ok (by dsimp only; omega)]
        simp only [Res.ok_bind]
        rw [add64_eq (by omega)]
        rw [alloc_ok ha, Res.ok_bind]
        rw [h3 buf' hb' (by omega) (drop_take_sub _ _ off _ _ _ hag (by omega) (by omega))]
        rw [Res.ok_bind]
        dsimp only
        rw [sub64 (by omega) (by omega), mkD_ok (by omega)]
    · rw [alloc_no ha, Res.throw_bind]
      exact ⟨by simp, by simp⟩

theorem safe_container {hd : Deserializer Nat} (hh : SafeDeserializer hd) {di : Deserializer T}
    (h : SafeDeserializer di) (ins : T → List T → List T) : SafeDeserializer (deContainer hd di ins) := by
  intro buf off hb ho
  obtain ⟨hu, hok⟩ := hh buf off hb ho
  cases hd1 : hd buf off with
  | ub => exact absurd hd1 hu
  | throw e => exact ⟨by simp [deContainer, hd1], by intro v n hv; simp [deContainer, hd1] at hv⟩
  | ok d =>
    obtain ⟨c, m⟩ := d
    obtain ⟨hm, hle, hloc⟩ := hok c m hd1
    simp only [deContainer, hd1, Res.ok_bind]
    rw [getValue_ok (by dsimp only; omega)]
    simp only [Res.ok_bind]
    rw [add64_eq (by omega)]
    obtain ⟨iu, iok⟩ := safe_deItems h buf hb c (off + m) hle
    cases hr : deItems di buf c (off + m) with
    | ub => exact absurd hr iu
    | throw e => exact ⟨by simp, by simp⟩
    | ok r =>
      obtain ⟨ys, p⟩ := r
      obtain ⟨h1, h2, h3⟩ := iok ys p hr
      rw [Res.ok_bind]
      dsimp only
      rw [sub64 (by omega) (by omega), mkD_ok (by omega)]
      refine ⟨by simp, ?_⟩
      intro v n hv
      simp only [Res.ok.injEq, Prod.mk.injEq] at hv
      obtain ⟨rfl, rfl⟩ := hv
      refine ⟨by omega, by omega, ?_⟩
      intro buf' hb' hl' hag
      rw [hloc buf' hb' (by omega) (drop_take_sub _ _ off _ _ _ hag (by omega) (by omega))]
      simp only [Res.ok_bind]
      rw [getValue_ok (by dsimp only; omega)]
      simp only [Res.ok_bind]
      rw [add64_eq (by omega)]
      rw [h3 buf' hb' (by omega) (drop_take_sub _ _ off _ _ _ hag (by omega) (by omega))]
      rw [Res.ok_bind]
      dsimp only
      rw [sub64 (by omega) (by omega), mkD_ok (by omega)]

theorem safe_pair {A B : Type} {da : Deserializer A} {db : Deserializer B} (ha : SafeDeserializer da)
    (hb' : SafeDeserializer db) : SafeDeserializer (dePair da db) := by
  intro buf off hb ho
  obtain ⟨hu, hok⟩ := ha buf off hb ho
  cases hd1 : da buf off with
  | ub => exact absurd hd1 hu
  | throw e => exact ⟨by simp [dePair, hd1], by intro v n hv; simp [dePair, hd1] at hv⟩
  | ok d =>
    obtain ⟨c, m⟩ := d
    obtain ⟨hm, hle, hloc⟩ := hok c m hd1
    obtain ⟨hu2, hok2⟩ := hb' buf (off + m) hb (by omega)
    have common : ∀ b : Buf, da b off = .ok (c, m) → dePair da db b off = (db b (off + m)).bind fun b' =>
        (getValue b').bind fun b' => mkDeserialized (c, b'.1) (diff64 (add64 (off + m) b'.2) off) := by
      intro b hb'
      unfold dePair
      rw [hb', Res.ok_bind, getValue_ok (show (c, m).2 ≠ 0 by dsimp only; omega), Res.ok_bind]
      dsimp only
      rw [add64_eq (show off + m < TWO64 by omega)]
      rfl
    rw [common buf hd1]
    cases hr : db buf (off + m) with
    | ub => exact absurd hr hu2
    | throw e => exact ⟨by simp [Res.bind], by simp [Res.bind]⟩
    | ok r =>
      obtain ⟨y, k⟩ := r
      obtain ⟨h1, h2, h3⟩ := hok2 y k hr
      have fin : ((Res.ok (y, k)).bind fun b' =>
        (getValue b').bind fun b' => mkDeserialized (c, b'.1) (diff64 (add64 (off + m) b'.2) off))
          = .ok ((c, y), m + k) := by
        unfold Res.bind
        dsimp only
        rw [getValue_ok (show (y, k).2 ≠ 0 by dsimp only; omega)]
        dsimp only
        rw [add64_eq (show off + m + k < TWO64 by omega), sub64 (by omega) (by omega), mkD_ok (by omega)]
        congr 2; omega
      rw [fin]
      refine ⟨by simp, ?_⟩
      intro v n hv
      simp only [Res.ok.injEq, Prod.mk.injEq] at hv
      obtain ⟨rfl, rfl⟩ := hv
      refine ⟨by omega, by omega, ?_⟩
      intro buf' hb'' hl' hag
      rw [common buf' (hloc buf' hb'' (by omega) (drop_take_sub _ _ off _ _ _ hag (by omega) (by omega))),
        h3 buf' hb'' (by omega) (drop_take_sub _ _ off _ _ _ hag (by omega) (by omega)), fin]

theorem mul64_eq {a b : Nat} (h : a * b < TWO64) : mul64 a b = a * b := by
  unfold mul64; exact Nat.mod_eq_of_lt h

theorem memRead_ok {buf : Buf} {p n : Nat} (h : p < buf.length) (h' : p + n ≤ buf.length) :
    memRead buf p n = .ok ((buf.drop p).take n) := by
  unfold memRead; rw [if_pos ⟨h, h'⟩]

theorem deMemVec_ok {hd : Deserializer Nat} (r : Repr T) {b : Buf} {off c m : Nat} (hm : 0 < m)
    (hb : b.length < TWO63) (hd1 : hd b off = .ok (c, m)) (hroom : off + m + c * r.size ≤ b.length) :
    deMemVec hd r b off = .ok (chunks r c ((b.drop (off + m)).take (c * r.size)), m + c * r.size) := by
  have hsz := r.pos
  unfold deMemVec
  rw [hd1, Res.ok_bind, getValue_ok (show (c, m).2 ≠ 0 by dsimp only; omega), Res.ok_bind]
  dsimp only
  rw [add64_eq (show off + m < TWO64 by omega), Nat.mul_comm] 
  rw [Nat.mul_comm] at hroom
  rw [mul64_eq (show r.size * c < TWO64 by omega), add64_eq (show off + m + r.size * c < TWO64 by omega),
    if_neg (show ¬ off + m + r.size * c > b.length by omega), alloc_ok (by rw [Nat.mul_comm]; omega), Res.ok_bind,
    sub64 (by omega) (by omega)]
  by_cases hc : c > 0
  · have hcs : 0 < r.size * c := Nat.mul_pos hsz hc
    rw [if_pos hc, memRead_ok (by omega) (by omega), Res.ok_bind, Res.pure_eq, Res.ok_bind, mkD_ok (by omega)]
    congr 2; omega
  · have hc0 : c = 0 := by omega
    subst hc0
    rw [if_neg hc, Res.pure_eq, Res.ok_bind, mkD_ok (by omega)]
    congr 2; omega

theorem deMemVec_no {hd : Deserializer Nat} (r : Repr T) {b : Buf} {off c m : Nat} (hm : 0 < m) (hle : off + m ≤ b.length)
    (hb : b.length < TWO63) (hd1 : hd b off = .ok (c, m)) (hroom : ¬ off + m + c * r.size ≤ b.length) :
    ∃ e, deMemVec hd r b off = .throw e := by
  have hsz := r.pos
  unfold deMemVec
  rw [hd1, Res.ok_bind, getValue_ok (show (c, m).2 ≠ 0 by dsimp only; omega), Res.ok_bind]
  dsimp only
  rw [add64_eq (show off + m < TWO64 by omega)] 
  by_cases ha : c * r.size < TWO63
  · rw [mul64_eq (show r.size * c < TWO64 by rw [Nat.mul_comm]; omega), Nat.mul_comm r.size c,
      add64_eq (show off + m + c * r.size < TWO64 by omega),
      if_pos (show off + m + c * r.size > b.length by omega)]
    exact ⟨_, rfl⟩
  · rw [alloc_no ha, Res.throw_bind]
    split
    · exact ⟨_, rfl⟩
    · exact ⟨_, rfl⟩

theorem safe_memVec {hd : Deserializer Nat} (hh : SafeDeserializer hd) (r : Repr T) : SafeDeserializer (deMemVec hd r) := by
  intro buf off hb ho
  obtain ⟨hu, hok⟩ := hh buf off hb ho
  cases hd1 : hd buf off with
  | ub => exact absurd hd1 hu
  | throw e =>
    have : deMemVec hd r buf off = .throw e := by unfold deMemVec; rw [hd1, Res.throw_bind]
    rw [this]
    exact ⟨by simp, by simp⟩
  | ok d =>
    obtain ⟨c, m⟩ := d
    obtain ⟨hm, hle, hloc⟩ := hok c m hd1
    by_cases hroom : off + m + c * r.size ≤ buf.length
    · rw [deMemVec_ok r hm hb hd1 hroom]
      refine ⟨by simp, ?_⟩
      intro v n hv
      simp only [Res.ok.injEq, Prod.mk.injEq] at hv
      obtain ⟨rfl, rfl⟩ := hv
      refine ⟨by omega, by omega, ?_⟩
      intro buf' hb' hl' hag
      rw [deMemVec_ok r hm hb' (hloc buf' hb' (by omega) (drop_take_sub _ _ off _ _ _ hag (by omega) (by omega)))
        (by omega), drop_take_sub _ _ off _ _ _ hag (by omega) (by omega)]
    · obtain ⟨e, he⟩ := deMemVec_no r hm hle hb hd1 hroom
      rw [he]
      exact ⟨by simp, by simp⟩

/-! ### bytes -/

theorem length_leBytes (n v : Nat) : (leBytes n v).length = n := by
  induction n generalizing v with
  | zero => rfl
  | succ n ih => simp [leBytes, ih]

theorem ofLe_leBytes (n v : Nat) (h : v < 256 ^ n) : ofLe (leBytes n v) = v := by
  induction n generalizing v with
  | zero => simp [leBytes, ofLe]; omega
  | succ n ih =>
    simp only [leBytes, ofLe]
    rw [ih (v / 256) (by rw [Nat.div_lt_iff_lt_mul (by decide)]; rw [pow_succ] at h; exact h)]
    have : (UInt8.ofNat (v % 256)).toNat = v % 256 := by
      rw [UInt8.toNat_ofNat']; omega
    rw [this]; omega

theorem leBytes_ofLe (b : Buf) : leBytes b.length (ofLe b) = b := by
  induction b with
  | nil => rfl
  | cons x xs ih =>
    have hx : x.toNat < 256 := x.toNat_lt
    have e1 : (x.toNat + 256 * ofLe xs) % 256 = x.toNat := by omega
    have e2 : (x.toNat + 256 * ofLe xs) / 256 = ofLe xs := by omega
    simp only [List.length_cons, leBytes, ofLe, e1, e2, ih]
    simp

theorem ofLe_lt (b : Buf) : ofLe b < 256 ^ b.length := by
  induction b with
  | nil => simp [ofLe]
  | cons x xs ih =>
    have hx : x.toNat < 256 := x.toNat_lt
    simp only [ofLe, List.length_cons, pow_succ]
    omega

theorem hostValue_hostBytes (l : Bool) (n v : Nat) (h : v < 256 ^ n) : hostValue l (hostBytes l n v) = v := by
  cases l <;> simp [hostValue, hostBytes, ofLe_leBytes n v h]

theorem hostBytes_hostValue (l : Bool) (b : Buf) : hostBytes l b.length (hostValue l b) = b := by
  cases l
  · have := leBytes_ofLe b.reverse
    simp only [List.length_reverse] at this
    simp [hostValue, hostBytes, this]
  · simpa [hostValue, hostBytes] using leBytes_ofLe b

theorem length_hostBytes (l : Bool) (n v : Nat) : (hostBytes l n v).length = n := by
  cases l <;> simp [hostBytes, length_leBytes]

/-- Bytes that go over the wire: the host memory, reversed on a little-endian host. -/
theorem hostBytes_hton (l : Bool) (b : Buf) : hostBytes l b.length (hton l b.length (hostValue l b))
    = if l then b.reverse else b := by
  cases l
  · simpa [hton] using hostBytes_hostValue false b
  · simp only [hton, if_true, hostBytes, hostValue, byteSwap, leBytes_ofLe]
    have := leBytes_ofLe b.reverse
    simpa using this

theorem beBytes_eq (n v : Nat) : beBytes n v = (leBytes n v).reverse := by
  apply List.ext_getElem
  · simp [beBytes, length_leBytes]
  · intro i h1 h2
    simp only [List.getElem_reverse, length_leBytes, beBytes, List.getElem_map, List.getElem_range]
    have key : ∀ (n v k : Nat) (hk : k < (leBytes n v).length), (leBytes n v)[k] = UInt8.ofNat (v / 256 ^ k % 256) := by
      intro n
      induction n with
      | zero => intro v k hk; simp [leBytes] at hk
      | succ n ih =>
        intro v k hk
        cases k with
        | zero => simp [leBytes]
        | succ k =>
          simp only [leBytes, List.getElem_cons_succ]
          rw [ih, Nat.div_div_eq_div_mul, pow_succ, Nat.mul_comm]
    rw [key]

theorem header_good (l : Bool) : GoodHeader (serU64 l) (deU64 l) := by
  intro v hv
  have hb : (u64Bytes l v).length = 8 := length_hostBytes l 8 v
  have hne : u64Bytes l v ≠ [] := by intro h; rw [h] at hb; simp at hb
  refine ⟨u64Bytes l v, hne, by intro buf _; simp [serU64], ?_⟩
  intro pre post hlen
  have hl : pre.length + 8 + post.length < TWO63 := by simpa [hb, add_assoc] using hlen
  refine ⟨v, ?_, rfl⟩
  unfold deU64
  have hL : (pre ++ u64Bytes l v ++ post).length = pre.length + 8 + post.length := by simp [hb, add_assoc]
  rw [hL, if_neg (by omega), add64_eq (by omega), if_neg (by omega)]
  have := read_ctx pre (u64Bytes l v) post hne
  rw [hb] at this
  rw [this]
  simp only [Res.ok_bind]
  rw [mkD_ok (by omega), hb, u64Bytes, hostValue_hostBytes l 8 v (by norm_num; omega)]

theorem header_safe (l : Bool) : SafeDeserializer (deU64 l) :=
  safe_read 8 (by omega) (by omega) (hostValue l)

end CRU.Ser
