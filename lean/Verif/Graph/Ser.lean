import Verif.Graph.Lemmas
namespace CRU.Graph
open CRU.Ser CRU.Parallel

variable {V W : Type}

attribute [local irreducible] add64 mul64 diff64 mkDeserialized getValue allocate memRead memWrite

/-- An edge that fits its in-memory representation. -/
def EdgeFits (sw : Serializer W) (dw : Deserializer W) (e : Edge W) : Prop :=
  InI64 e.src ∧ InI64 e.dst ∧ e.scratch < TWO64 ∧ RoundTrips sw dw e.weight

theorem rt_edge (l : Bool) {sw : Serializer W} {dw : Deserializer W} {e : Edge W} (h : EdgeFits sw dw e) :
    RoundTrips (serEdge l sw) (deEdge l dw) e := by
  obtain ⟨h1, h2, h3, h4⟩ := h
  unfold InI64 at h1 h2
  refine rt_record (x1 := e.src) (rt_i64 l e.src (by omega) (by omega)) ?_ rfl
  refine wr_seq_eq (wr_field (rt_i64 l e.dst (by omega) (by omega))) ?_
  refine wr_seq_eq (wr_field h4) ?_
  exact wr_last (wr_field (header_good l e.scratch h3)) rfl

theorem safe_edge (l : Bool) {dw : Deserializer W} (h : SafeDeserializer dw) : SafeDeserializer (deEdge l dw) := by
  have hs : ∀ s, SafeCursor ((field (deI64 l)).andThen fun d => (field dw).andThen fun w =>
    (field (deU64 l)).andThen fun k => Cursor.done (⟨s, d, w, k⟩ : Edge W)) := fun s =>
    safe_andThen (safe_field (safe_i64 l)) fun _ => safe_andThen (safe_field h) fun _ =>
      safe_andThen (safe_field (header_safe l)) fun _ => safe_done _
  exact safe_finish (safe_andThen (safe_field (safe_i64 l)) hs) (field_andThen_moves (safe_i64 l) hs)

/-- A node that fits its in-memory representation. -/
def NodeFits (sv : Serializer V) (dv : Deserializer V) (sw : Serializer W) (dw : Deserializer W) (n : Node V W) : Prop :=
  RoundTrips sv dv n.value ∧ n.ins.length * 32 < TWO63 ∧ n.outs.length * 32 < TWO63 ∧
    (∀ e ∈ n.ins, EdgeFits sw dw e) ∧ (∀ e ∈ n.outs, EdgeFits sw dw e)

theorem rt_node (l : Bool) {sv : Serializer V} {dv : Deserializer V} {sw : Serializer W} {dw : Deserializer W}
    {n : Node V W} (h : NodeFits sv dv sw dw n) : RoundTrips (serNode l sv sw) (deNode l dv dw) n := by
  obtain ⟨h1, h2, h3, h4, h5⟩ := h
  refine rt_record (x1 := n.value) h1 ?_ rfl
  refine wr_seq_eq (wr_field (rt_list (header_good l) 32 _ _ n.ins h2 (by omega) fun e he => rt_edge l (h4 e he))) ?_
  exact wr_last (wr_field (rt_list (header_good l) 32 _ _ n.outs h3 (by omega) fun e he => rt_edge l (h5 e he))) rfl

theorem safe_node (l : Bool) {dv : Deserializer V} {dw : Deserializer W} (hv : SafeDeserializer dv)
    (hw : SafeDeserializer dw) : SafeDeserializer (deNode l dv dw) := by
  have he := safe_seq (header_safe l) 32 (safe_edge l hw)
  have hs : ∀ v, SafeCursor ((field (deSeq (deU64 l) 32 (deEdge l dw))).andThen fun i =>
    (field (deSeq (deU64 l) 32 (deEdge l dw))).andThen fun o => Cursor.done (⟨v, i, o⟩ : Node V W)) := fun v =>
    safe_andThen (safe_field he) fun _ => safe_andThen (safe_field he) fun _ => safe_done _
  exact safe_finish (safe_andThen (safe_field hv) hs) (field_andThen_moves hv hs)

theorem rt_nodes (l : Bool) (nsz : Nat) {sv : Serializer V} {dv : Deserializer V} {sw : Serializer W} {dw : Deserializer W}
    {g : Graph V W} (hg : g.length * nsz < TWO63) (hl : g.length < TWO63) (h : ∀ n ∈ g, NodeFits sv dv sw dw n) :
    RoundTrips (serSeq (serU64 l) (serNode l sv sw)) (deSeq (deU64 l) nsz (deNode l dv dw)) g :=
  rt_list (header_good l) nsz _ _ g hg (by omega) fun n hn => rt_node l (h n hn)

theorem serGraph_eq (l : Bool) (sv : Serializer V) (sw : Serializer W) (g : Graph V W) (buf enc : Buf)
    (h : serSeq (serU64 l) (serNode l sv sw) g buf = .ok (buf ++ enc, enc.length)) :
    serGraph l sv sw g buf = .ok (buf ++ enc, enc.length) := by
  unfold serGraph wrote put
  dsimp only
  rw [h, Res.ok_bind, Res.pure_eq, Res.ok_bind, Res.pure_eq]
  simp

theorem deGraph_of {l : Bool} {nsz : Nat} {dv : Deserializer V} {dw : Deserializer W} {buf : Buf} {off : Nat}
    {g : Graph V W} {n : Nat} (hn : n ≠ 0) (h : deSeq (deU64 l) nsz (deNode l dv dw) buf off = .ok (g, n)) :
    (ValidLinkage g → deGraph l nsz dv dw buf off = .ok (g, n)) ∧
    (¬ ValidLinkage g → deGraph l nsz dv dw buf off = .throw .invalidArgument) := by
  obtain ⟨b, hb, hq⟩ := checkLinkage_ok g
  unfold deGraph
  rw [h, Res.ok_bind, getValue_ok hn, Res.ok_bind]
  dsimp only
  rw [hb, Res.ok_bind]
  cases b with
  | true => exact ⟨fun _ => by rw [if_pos rfl, mkD_ok hn], fun hc => absurd (hq.mp rfl) hc⟩
  | false => exact ⟨fun hc => by simpa using hq.mpr hc, fun _ => by rw [if_neg (by decide)]⟩

theorem rt_graph (l : Bool) (nsz : Nat) {sv : Serializer V} {dv : Deserializer V} {sw : Serializer W} {dw : Deserializer W}
    {g : Graph V W} (hg : g.length * nsz < TWO63) (hl : g.length < TWO63) (h : ∀ n ∈ g, NodeFits sv dv sw dw n)
    (hv : ValidLinkage g) : RoundTrips (serGraph l sv sw) (deGraph l nsz dv dw) g := by
  obtain ⟨enc, ne, s, d⟩ := rt_nodes l nsz hg hl h
  refine ⟨enc, ne, fun buf hb => serGraph_eq l sv sw g buf enc (s buf hb), fun pre post hlen => ?_⟩
  obtain ⟨y, hy, rfl⟩ := d pre post hlen
  exact ⟨y, (deGraph_of (by simpa using ne) hy).1 hv, rfl⟩

theorem safe_graph (l : Bool) (nsz : Nat) {dv : Deserializer V} {dw : Deserializer W} (hv : SafeDeserializer dv)
    (hw : SafeDeserializer dw) : SafeDeserializer (deGraph l nsz dv dw) := by
  have hs := safe_seq (header_safe l) nsz (safe_node l hv hw)
  intro buf off hb ho
  obtain ⟨hu, hok⟩ := hs buf off hb ho
  cases hd : deSeq (deU64 l) nsz (deNode l dv dw) buf off with
  | ub => exact absurd hd hu
  | throw e =>
    have : deGraph l nsz dv dw buf off = .throw e := by unfold deGraph; rw [hd, Res.throw_bind]
    rw [this]; exact ⟨by simp, by simp⟩
  | ok d =>
    obtain ⟨g, n⟩ := d
    obtain ⟨h1, h2, h3⟩ := hok g n hd
    by_cases hlk : ValidLinkage g
    · have hr : deGraph l nsz dv dw buf off = .ok (g, n) := (deGraph_of (by omega) hd).1 hlk
      rw [hr]
      refine ⟨by simp, ?_⟩
      intro v m heq
      simp only [Res.ok.injEq, Prod.mk.injEq] at heq
      obtain ⟨rfl, rfl⟩ := heq
      exact ⟨h1, h2, fun buf' a b c => (deGraph_of (by omega) (h3 buf' a b c)).1 hlk⟩
    · have hr : deGraph l nsz dv dw buf off = .throw .invalidArgument := (deGraph_of (by omega) hd).2 hlk
      rw [hr]; exact ⟨by simp, by simp⟩

end CRU.Graph
