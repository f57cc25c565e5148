import Verif.Prm.BuildMirror
import Verif.Prm.Grow
/-
  C41: building a roadmap.
-/
namespace CRU.Prm
open CRU.Graph CRU.Knn CRU.Parallel CRU.GraphSearch

variable {V C : Type} [LinearOrder C] [Zero C] [OrderTop C]

/-- A directed edge that may be recorded. -/
def okOf (e : Env V C) (vals : List V) (a b : Nat) : Prop :=
  ∃ va vb, vals[a]? = some va ∧ vals[b]? = some vb ∧ a ≠ b ∧ e.valid va vb = true

/-- Its weight. -/
def wtOf (e : Env V C) (vals : List V) (a b : Nat) : C :=
  match vals[a]?, vals[b]? with
  | some va, some vb => e.dist va vb
  | _, _ => 0

omit [OrderTop C] in
theorem okOf_range {e : Env V C} {vals : List V} (a b : Nat) (h : okOf e vals a b) : a < vals.length ∧ b < vals.length ∧ a ≠ b := by
  obtain ⟨va, vb, h1, h2, h3, _⟩ := h
  exact ⟨(List.getElem?_eq_some_iff.mp h1).1, (List.getElem?_eq_some_iff.mp h2).1, h3⟩

section
variable {e : Env V C} {vals : List V} {i : Nat} {v : V} (hi : vals[i]? = some v) {l : List (Entry C)}
  (hl : ∀ nb ∈ l, ∃ j : Nat, nb.index = j ∧ j < vals.length) (ht : ∀ nb ∈ l, nb.dist = valDist e.dist vals v nb.index)

include hi hl ht

omit [OrderTop C] in
theorem inOf_edges : ∀ x ∈ l.flatMap (inOf e vals i v), ∃ j, okOf e vals j i ∧ x = ⟨j, i, wtOf e vals j i, 0⟩ := by
  intro x hx
  obtain ⟨nb, hnb, hx⟩ := List.mem_flatMap.mp hx
  obtain ⟨j, hj, hjl⟩ := hl nb hnb
  have hd := ht nb hnb
  have hv := List.getElem?_eq_getElem hjl
  unfold valDist at hd
  rw [hj, Int.toNat_natCast, hv] at hd
  dsimp only at hd
  unfold inOf at hx
  rw [hj, Int.toNat_natCast, hv] at hx
  dsimp only at hx
  split at hx
  · rename_i hne
    split at hx
    · rename_i hva
      rw [List.mem_singleton] at hx
      refine ⟨j, ⟨_, _, hv, hi, by simpa using hne, hva⟩, ?_⟩
      unfold wtOf
      rw [hv, hi, hx, hd]
    · cases hx
  · cases hx

omit [OrderTop C] in
theorem outOf_edges (hsym : e.symmetric = true → SymmetricFns e.valid e.dist) :
    ∀ x ∈ l.flatMap (outOf e vals i v), ∃ j, okOf e vals i j ∧ x = ⟨i, j, wtOf e vals i j, 0⟩ := by
  intro x hx
  obtain ⟨nb, hnb, hx⟩ := List.mem_flatMap.mp hx
  obtain ⟨j, hj, hjl⟩ := hl nb hnb
  have hd := ht nb hnb
  have hv := List.getElem?_eq_getElem hjl
  unfold valDist at hd
  rw [hj, Int.toNat_natCast, hv] at hd
  dsimp only at hd
  unfold outOf at hx
  rw [hj, Int.toNat_natCast, hv] at hx
  dsimp only at hx
  split at hx
  · rename_i hne
    have hne' : i ≠ j := fun h => hne (by rw [h])
    split at hx
    · rename_i hs
      rw [Bool.and_eq_true] at hs
      obtain ⟨s1, s2⟩ := hsym hs.1 v vals[j]
      rw [List.mem_singleton] at hx
      refine ⟨j, ⟨_, _, hi, hv, hne', by rw [s1]; exact hs.2⟩, ?_⟩
      unfold wtOf
      rw [hv, hi, hx, hd]
      dsimp only
      rw [s2]
    · split at hx
      · rename_i hva
        rw [List.mem_singleton] at hx
        refine ⟨j, ⟨_, _, hi, hv, hne', hva⟩, ?_⟩
        unfold wtOf
        rw [hv, hi, hx]
      · cases hx
  · cases hx

omit [OrderTop C] ht in
theorem inOf_has (a : Nat) : (∃ x ∈ l.flatMap (inOf e vals i v), x.src = (a : Int)) ↔
    okOf e vals a i ∧ (a : Int) ∈ l.map (·.index) := by
  constructor
  · rintro ⟨x, hx, hxa⟩
    obtain ⟨nb, hnb, hx⟩ := List.mem_flatMap.mp hx
    obtain ⟨j, hj, hjl⟩ := hl nb hnb
    have hv := List.getElem?_eq_getElem hjl
    unfold inOf at hx
    rw [hj, Int.toNat_natCast, hv] at hx
    dsimp only at hx
    split at hx
    · rename_i hne
      split at hx
      · rename_i hva
        rw [List.mem_singleton] at hx
        subst hx
        simp only [Nat.cast_inj] at hxa
        subst hxa
        exact ⟨⟨_, _, hv, hi, by simpa using hne, hva⟩, List.mem_map.mpr ⟨nb, hnb, hj⟩⟩
      · cases hx
    · cases hx
  · rintro ⟨⟨va, vb, h1, h2, h3, h4⟩, hm⟩
    obtain ⟨nb, hnb, hj⟩ := List.mem_map.mp hm
    rw [hi] at h2
    cases h2
    refine ⟨⟨nb.index, i, nb.dist, 0⟩, List.mem_flatMap.mpr ⟨nb, hnb, ?_⟩, hj⟩
    unfold inOf
    rw [hj, Int.toNat_natCast, h1]
    dsimp only
    rw [if_pos (by simpa using h3), if_pos h4]
    simp

omit [OrderTop C] ht in
theorem outOf_has (hsym : e.symmetric = true → SymmetricFns e.valid e.dist) (b : Nat) :
    (∃ x ∈ l.flatMap (outOf e vals i v), x.dst = (b : Int)) ↔ okOf e vals i b ∧ (b : Int) ∈ l.map (·.index) := by
  constructor
  · rintro ⟨x, hx, hxa⟩
    obtain ⟨nb, hnb, hx⟩ := List.mem_flatMap.mp hx
    obtain ⟨j, hj, hjl⟩ := hl nb hnb
    have hv := List.getElem?_eq_getElem hjl
    unfold outOf at hx
    rw [hj, Int.toNat_natCast, hv] at hx
    dsimp only at hx
    split at hx
    · rename_i hne
      have hne' : i ≠ j := fun h => hne (by rw [h])
      split at hx
      · rename_i hs
        rw [Bool.and_eq_true] at hs
        rw [List.mem_singleton] at hx
        subst hx
        simp only [Nat.cast_inj] at hxa
        subst hxa
        exact ⟨⟨_, _, hi, hv, hne', by rw [(hsym hs.1 _ _).1]; exact hs.2⟩, List.mem_map.mpr ⟨nb, hnb, hj⟩⟩
      · split at hx
        · rename_i hva
          rw [List.mem_singleton] at hx
          subst hx
          simp only [Nat.cast_inj] at hxa
          subst hxa
          exact ⟨⟨_, _, hi, hv, hne', hva⟩, List.mem_map.mpr ⟨nb, hnb, hj⟩⟩
        · cases hx
    · cases hx
  · rintro ⟨⟨va, vb, h1, h2, h3, h4⟩, hm⟩
    obtain ⟨nb, hnb, hj⟩ := List.mem_map.mp hm
    rw [hi] at h1
    cases h1
    have hne : ((b : Nat) : Int) ≠ i := fun h => h3 (by omega)
    by_cases hs : (e.symmetric && e.valid vb v) = true
    · refine ⟨⟨i, nb.index, nb.dist, 0⟩, List.mem_flatMap.mpr ⟨nb, hnb, ?_⟩, hj⟩
      unfold outOf
      rw [hj, Int.toNat_natCast, h2]
      dsimp only
      rw [if_pos hne, if_pos hs]
      simp
    · refine ⟨⟨i, nb.index, e.dist v vb, 0⟩, List.mem_flatMap.mpr ⟨nb, hnb, ?_⟩, hj⟩
      unfold outOf
      rw [hj, Int.toNat_natCast, h2]
      dsimp only
      rw [if_pos hne, if_neg hs, if_pos h4]
      simp

omit [OrderTop C] hi hl ht in
theorem inOf_sublist : ((l.flatMap (inOf e vals i v)).map (·.src)).Sublist (l.map (·.index)) := by
  induction l with
  | nil => exact List.Sublist.refl _
  | cons nb l ih =>
    rw [List.flatMap_cons, List.map_append, List.map_cons]
    have : (inOf e vals i v nb).map (·.src) = [nb.index] ∨ inOf e vals i v nb = [] := by
      unfold inOf
      repeat' split
      all_goals simp
    rcases this with h | h
    · rw [h]; exact ih.cons_cons _
    · rw [h]; exact ih.cons _

omit [OrderTop C] hi hl ht in
theorem outOf_sublist : ((l.flatMap (outOf e vals i v)).map (·.dst)).Sublist (l.map (·.index)) := by
  induction l with
  | nil => exact List.Sublist.refl _
  | cons nb l ih =>
    rw [List.flatMap_cons, List.map_append, List.map_cons]
    have : (outOf e vals i v nb).map (·.dst) = [nb.index] ∨ outOf e vals i v nb = [] := by
      unfold outOf
      repeat' split
      all_goals simp
    rcases this with h | h
    · rw [h]; exact ih.cons_cons _
    · rw [h]; exact ih.cons _

end

/-- All runs of `BuildRoadMap`. -/
theorem build_core (e : Env V C) (be : BuildEnv V C) (hs : e.knn.Nearest e.dist) (hps : LawfulPartialSort be.ps)
    (hth : InI64 e.threads) (hb : GoodBackend e.backend e.threads) (size : Int) (hsize : InI64 size) (hK1 : InI64 (e.K + 1))
    (hsym : e.symmetric = true → SymmetricFns e.valid e.dist) (r : Res (Graph V C)) (hr : BuildRun e be size r) :
    (r = .throw .runtimeError ∧ ((size < 0 ∨ e.K < 1 ∨ be.maxTries < 1) ∨ ∃ (order : List Int) (states : List (Option V)),
        IndexRun e.backend (if be.parallelSampling && e.addDuplicates then e.threads else 1) 0 size order ∧
        SampleRun e be order (List.replicate size.toNat none) (.ok states) ∧ populate (C := C) states [] = .throw .runtimeError)) ∨ ∃ g, r = .ok g ∧ (g.length : Int) = size ∧
      (∀ (i : Nat) (n : Node V C), g[i]? = some n → be.sampled n.value ∧ be.stateValid n.value = true) ∧
      Mirrored g ∧ ValidLinkage g ∧
      (e.addDuplicates = false → NoZeroDistance e.dist g) ∧
      ∃ near : Nat → List (Entry C),
        (∀ (i : Nat) (n : Node V C), g[i]? = some n →
          IsKNearest (nodeDist e.dist .roadmapToNew g n.value) 0 g.length (e.K + 1).toNat (near i)) ∧
        ∀ u v w, OutEdge g u v w ↔ ∃ (i j : Nat) (a b : V), u = i ∧ v = j ∧ HasValue g u a ∧ HasValue g v b ∧ i ≠ j ∧
          Checked e.valid e.dist a b w ∧ (u ∈ (near j).map (·.index) ∨ v ∈ (near i).map (·.index)) := by
  have hrep : (List.replicate size.toNat (none : Option V)).length = size.toNat := by simp
  have hthr : InI64 (if be.parallelSampling && e.addDuplicates then e.threads else 1) := by
    split
    · exact hth
    · unfold InI64; omega
  have hrange : ∀ {order : List Int}, 0 ≤ size →
      IndexRun e.backend (if be.parallelSampling && e.addDuplicates then e.threads else 1) 0 size order →
      ∀ i ∈ order, 0 ≤ i ∧ i < (List.replicate size.toNat (none : Option V)).length := by
    intro order h0 ho i hi
    have hp := ho.perm (by unfold InI64; omega) hsize hthr (by simpa using hsize) h0
    have := mem_irange.mp (hp.subset hi)
    rw [hrep]
    omega
  have hI : 0 ≤ size → InI64 (List.replicate size.toNat (none : Option V)).length := by
    intro h0
    rw [hrep, Int.toNat_of_nonneg h0]
    exact hsize
  cases hr with
  | badArguments h => exact Or.inl ⟨rfl, Or.inl h⟩
  | @samplingThrows order x h ho hsr =>
    obtain ⟨s', h1, _⟩ := sampleRun_ok hps hth hb (hI h.1) (hrange h.1 ho) hsr
    cases h1
  | @samplingUb order h ho hsr =>
    obtain ⟨s', h1, _⟩ := sampleRun_ok hps hth hb (hI h.1) (hrange h.1 ho) hsr
    cases h1
  | @samplingFails order states h ho hsr hp => exact Or.inl ⟨rfl, Or.inr ⟨order, states, ho, hsr, hp⟩⟩
  | @connected order order2 states g0 r0 h ho hsr hp ho2 hc =>
    right
    obtain ⟨s', h1, hlen, hval⟩ := sampleRun_ok hps hth hb (hI h.1) (hrange h.1 ho) hsr
    cases h1
    obtain ⟨vals, rfl, hg0⟩ := populate_ok hp
    rw [List.nil_append] at hg0
    rw [hrep, List.length_map] at hlen
    have hh0 : Holds g0 vals := by rw [hg0]; unfold Holds; simp [Function.comp_def]
    have hvI : InI64 vals.length := by rw [hlen, Int.toNat_of_nonneg h.1]; exact hsize
    have hg0len : (g0.length : Int) = vals.length := by rw [hh0.length]
    have hperm := ho2.perm (by unfold InI64; omega) (by rw [hg0len]; exact hvI) hth (by rw [hg0len]; simpa using hvI) (by omega)
    have hmem : ∀ i : Int, i ∈ order2 ↔ 0 ≤ i ∧ i < vals.length := by
      intro i
      rw [hperm.mem_iff, mem_irange, hg0len]
    have hnd : order2.Nodup := by
      rw [hperm.nodup_iff]
      unfold irange
      refine List.Nodup.map ?_ List.nodup_range
      intro a b hab
      simpa using hab
    obtain ⟨g1, near, rfl, hh1, -, hat⟩ := connectAll_ok e hs (by omega) hK1 vals hvI order2 hnd (fun i hi => (hmem i).mp hi) g0 hh0 r0 hc
    -- the graph after the connection phase
    have hnode : ∀ (i : Nat) (v : V), vals[i]? = some v →
        IsKNearest (valDist e.dist vals v) 0 vals.length (e.K + 1).toNat (near i) ∧
        g1[i]? = some ⟨v, (near i).flatMap (inOf e vals i v), (near i).flatMap (outOf e vals i v)⟩ := by
      intro i v hv
      have hlt := (List.getElem?_eq_some_iff.mp hv).1
      have hn : g0[i]? = some ⟨v, [], []⟩ := by rw [hg0, List.getElem?_map, hv]; rfl
      have := hat i _ ((hmem i).mpr ⟨by omega, by omega⟩) hn
      simpa using this
    have hnear : ∀ (i : Nat) (v : V), vals[i]? = some v → (∀ nb ∈ near i, ∃ j : Nat, nb.index = j ∧ j < vals.length) ∧
        ∀ nb ∈ near i, nb.dist = valDist e.dist vals v nb.index := by
      intro i v hv
      have hk := (hnode i v hv).1
      refine ⟨fun nb hnb => ?_, hk.trueDist⟩
      obtain ⟨h1, h2⟩ := hk.inRange nb hnb
      exact ⟨nb.index.toNat, by omega, by omega⟩
    have hg1 : ∀ (i : Nat) (n : Node V C), g1[i]? = some n → ∃ v, vals[i]? = some v ∧
        n = ⟨v, (near i).flatMap (inOf e vals i v), (near i).flatMap (outOf e vals i v)⟩ := by
      intro i n hn
      have hlt : i < vals.length := by rw [← hh1.length]; exact (List.getElem?_eq_some_iff.mp hn).1
      have hv := List.getElem?_eq_getElem hlt
      refine ⟨_, hv, ?_⟩
      have := (hnode i _ hv).2
      rw [hn] at this
      simpa using this
    have hcanon : Canon (okOf e vals) (wtOf e vals) g1 := by
      intro i n hn
      obtain ⟨v, hv, rfl⟩ := hg1 i n hn
      obtain ⟨n1, n2⟩ := hnear i v hv
      have hd := (hnode i v hv).1.distinct
      exact ⟨inOf_edges hv n1 n2, inOf_sublist.nodup hd, outOf_edges hv n1 n2 hsym, outOf_sublist.nodup hd⟩
    have hin : ∀ a b, HasIn g1 a b ↔ okOf e vals a b ∧ (a : Int) ∈ (near b).map (·.index) := by
      intro a b
      constructor
      · rintro ⟨n, hn, hx⟩
        obtain ⟨v, hv, rfl⟩ := hg1 b n hn
        exact (inOf_has hv (hnear b v hv).1 a).mp hx
      · intro hab
        obtain ⟨va, vb, -, hv, -⟩ := hab.1
        exact ⟨_, (hnode b vb hv).2, (inOf_has hv (hnear b vb hv).1 a).mpr hab⟩
    have hout : ∀ a b, HasOut g1 a b ↔ okOf e vals a b ∧ (b : Int) ∈ (near a).map (·.index) := by
      intro a b
      constructor
      · rintro ⟨n, hn, hx⟩
        obtain ⟨v, hv, rfl⟩ := hg1 a n hn
        exact (outOf_has hv (hnear a v hv).1 hsym b).mp hx
      · intro hab
        obtain ⟨va, vb, hv, -⟩ := hab.1
        exact ⟨_, (hnode a va hv).2, (outOf_has hv (hnear a va hv).1 hsym b).mpr hab⟩
    have hmi : ∀ i : Int, i ∈ irange 0 (g1.length : Int) ↔ 0 ≤ i ∧ i < vals.length := by
      intro i
      rw [mem_irange, hh1.length]
    obtain ⟨g, m1, m2, m3, m4, m5⟩ := mirrorAll_ok vals okOf_range (irange 0 (g1.length : Int)) (fun i hi => (hmi i).mp hi) g1 hh1 hcanon
    have hrec : ∀ a b, HasOut g a b ↔ okOf e vals a b ∧ ((a : Int) ∈ (near b).map (·.index) ∨ (b : Int) ∈ (near a).map (·.index)) := by
      intro a b
      rw [m4, hout, hin, hmi]
      constructor
      · rintro (⟨h1, h2⟩ | ⟨-, h1, h2⟩)
        · exact ⟨h1, Or.inr h2⟩
        · exact ⟨h1, Or.inl h2⟩
      · rintro ⟨h1, h2 | h2⟩
        · exact Or.inr ⟨⟨by omega, by have := okOf_range a b h1; omega⟩, h1, h2⟩
        · exact Or.inl ⟨h1, h2⟩
    have hrec' : ∀ a b, HasOut g a b ↔ HasIn g a b := by
      intro a b
      rw [hrec, m5, hin, hout, hmi]
      constructor
      · rintro ⟨h1, h2 | h2⟩
        · exact Or.inl ⟨h1, h2⟩
        · exact Or.inr ⟨⟨by omega, by have := okOf_range a b h1; omega⟩, h1, h2⟩
      · rintro (⟨h1, h2⟩ | ⟨-, h1, h2⟩)
        · exact ⟨h1, Or.inl h2⟩
        · exact ⟨h1, Or.inr h2⟩
    have hmir := canon_mirrored okOf_range m2 m3 hrec'
    have hvalue : ∀ (i : Nat) (n : Node V C), g[i]? = some n → vals[i]? = some n.value := by
      intro i n hn
      rw [m2.get, hn]
      rfl
    refine ⟨g, by rw [Res.ok_bind]; exact m1, by rw [m2.length, hlen, Int.toNat_of_nonneg h.1], ?_, hmir, hmir.validLinkage, ?_, near, ?_, ?_⟩
    · intro i n hn
      have := hval i n.value (by rw [List.getElem?_map, hvalue i n hn]; rfl)
      rcases this with h | h
      · rw [List.getElem?_replicate] at h
        split at h <;> simp at h
      · exact h
    · intro hd i j n m hij hn hm
      have hser : order = irange 0 size := by
        refine IndexRun.serial (b := e.backend) ?_ h.1 hsize
        rw [hd, Bool.and_false, if_neg (by simp)] at ho
        exact ho
      have hsep := sampleRun_sep hps hth hb hd (hI h.1) (s' := vals.map some) (order := order) ?_ ?_ ?_ hsr
      · exact ne_of_gt (hsep i j n.value m.value hij (by rw [List.getElem?_map, hvalue i n hn]; rfl)
          (by rw [List.getElem?_map, hvalue j m hm]; rfl))
      · rw [hser]
        unfold irange
        rw [List.pairwise_map]
        refine List.pairwise_lt_range.imp ?_
        intro a b hab
        omega
      · intro a _ k _ x hx
        rw [List.getElem?_replicate] at hx
        split at hx <;> simp at hx
      · intro a b x y _ hx
        rw [List.getElem?_replicate] at hx
        split at hx <;> simp at hx
    · intro i n hn
      have := (hnode i n.value (hvalue i n hn)).1
      rw [nodeDist_eq m2, m2.length]
      exact this
    · intro u v w
      rw [canon_outEdge m3]
      constructor
      · rintro ⟨i, j, rfl, rfl, ho, rfl⟩
        obtain ⟨⟨va, vb, h1, h2, h3, h4⟩, h5⟩ := (hrec i j).mp ho
        obtain ⟨na, hna, -, rfl⟩ := m2.getNode h1
        obtain ⟨nb, hnb, -, rfl⟩ := m2.getNode h2
        refine ⟨i, j, _, _, rfl, rfl, ⟨i, na, rfl, hna, rfl⟩, ⟨j, nb, rfl, hnb, rfl⟩, h3, ⟨h4, ?_⟩, h5⟩
        unfold wtOf
        rw [h1, h2]
      · rintro ⟨i, j, a, b, rfl, rfl, ⟨i', na, hi', hna, rfl⟩, ⟨j', nb, hj', hnb, rfl⟩, hne, ⟨h4, rfl⟩, h5⟩
        obtain rfl : i = i' := by omega
        obtain rfl : j = j' := by omega
        refine ⟨i, j, rfl, rfl, (hrec i j).mpr ⟨⟨_, _, hvalue i na hna, hvalue j nb hnb, hne, h4⟩, h5⟩, ?_⟩
        unfold wtOf
        rw [hvalue i na hna, hvalue j nb hnb]

/-- **C41.** Every way `BuildRoadMap` can run, on any number of threads: it throws runtime_error or it returns a roadmap
* with the requested number of states, all returned by the sampler and accepted by the state check;
* whose edge lists mirror each other (in particular its linkage is valid);
* without duplicates (states at distance zero), if those were not allowed;
* with an edge from `u` to `v` exactly if the check accepts the motion from state `u` to state `v` and one of the two is among
  the K + 1 nearest neighbours (the node itself included) computed for the other; its weight is the distance from `u` to `v`. -/
theorem C41_build_roadmap (e : Env V C) (be : BuildEnv V C) (hs : e.knn.Nearest e.dist) (hps : LawfulPartialSort be.ps)
    (hth : InI64 e.threads) (hb : GoodBackend e.backend e.threads) (size : Int) (hsize : InI64 size) (hK1 : InI64 (e.K + 1))
    (hsym : e.symmetric = true → SymmetricFns e.valid e.dist) (r : Res (Graph V C)) (hr : BuildRun e be size r) :
    r = .throw .runtimeError ∨ ∃ g, r = .ok g ∧ (g.length : Int) = size ∧
      (∀ (i : Nat) (n : Node V C), g[i]? = some n → be.sampled n.value ∧ be.stateValid n.value = true) ∧
      Mirrored g ∧ ValidLinkage g ∧
      (e.addDuplicates = false → NoZeroDistance e.dist g) ∧
      ∃ near : Nat → List (Entry C),
        (∀ (i : Nat) (n : Node V C), g[i]? = some n →
          IsKNearest (nodeDist e.dist .roadmapToNew g n.value) 0 g.length (e.K + 1).toNat (near i)) ∧
        ∀ u v w, OutEdge g u v w ↔ ∃ (i j : Nat) (a b : V), u = i ∧ v = j ∧ HasValue g u a ∧ HasValue g v b ∧ i ≠ j ∧
          Checked e.valid e.dist a b w ∧ (u ∈ (near j).map (·.index) ∨ v ∈ (near i).map (·.index)) :=
  (build_core e be hs hps hth hb size hsize hK1 hsym r hr).imp_left And.left

/-- **C41.** Arguments out of range are refused with runtime_error. -/
theorem C41_build_bad_arguments (e : Env V C) (be : BuildEnv V C) (size : Int) (h : size < 0 ∨ e.K < 1 ∨ be.maxTries < 1)
    (r : Res (Graph V C)) (hr : BuildRun e be size r) : r = .throw .runtimeError := by
  cases hr with
  | badArguments => rfl
  | samplingThrows h' => omega
  | samplingUb h' => omega
  | samplingFails => rfl
  | connected h' => omega

omit [OrderTop C] in
theorem try_some [OrderTop C] {e : Env V C} {be : BuildEnv V C} (hd : e.addDuplicates = true) (hv : ∀ x, be.sampled x → be.stateValid x = true)
    {states : List (Option V)} {k : Nat} {r : Res (Option V)} (h : TryRun e be states k r) (hk : 0 < k) : ∃ x, r = .ok (some x) := by
  cases h with
  | gaveUp => omega
  | invalid hx hv' => rw [hv _ hx] at hv'; cases hv'
  | anyValid => exact ⟨_, rfl⟩
  | fresh _ _ hd' => rw [hd] at hd'; cases hd'
  | duplicate _ _ hd' => rw [hd] at hd'; cases hd'
  | none _ _ hd' => rw [hd] at hd'; cases hd'
  | throws _ _ hd' => rw [hd] at hd'; cases hd'
  | ub _ _ hd' => rw [hd] at hd'; cases hd'

omit [OrderTop C] in
theorem sample_full [OrderTop C] {e : Env V C} {be : BuildEnv V C} (hd : e.addDuplicates = true) (hv : ∀ x, be.sampled x → be.stateValid x = true)
    (ht : 1 ≤ be.maxTries) {order : List Int} {states s' : List (Option V)} (h : SampleRun e be order states (.ok s')) (i : Nat)
    (hi : (i : Int) ∈ order ∨ ∃ x, states[i]? = some (some x)) : ∃ x, s'[i]? = some (some x) := by
  generalize hr : (Res.ok s' : Res (List (Option V))) = r at h
  induction h with
  | done =>
    cases hr
    rcases hi with hi | hi
    · cases hi
    · exact hi
  | @next j order states o r hto hj rest ih =>
    obtain ⟨x, hx⟩ := try_some hd hv hto (by omega)
    cases hx
    apply ih _ hr
    by_cases hij : j.toNat = i
    · right
      exact ⟨x, by rw [List.getElem?_set, if_pos hij, if_pos hj.2]⟩
    · rcases hi with hi | ⟨y, hy⟩
      · rcases List.mem_cons.mp hi with hi | hi
        · omega
        · exact Or.inl hi
      · right
        exact ⟨y, by rw [List.getElem?_set, if_neg hij]; exact hy⟩
  | outOfRange => cases hr
  | throws => cases hr
  | ub => cases hr

/-- **C41.** `BuildRoadMap` cannot fail if the arguments are in range, duplicates are allowed and the sampler only returns
valid states. -/
theorem C41_build_succeeds (e : Env V C) (be : BuildEnv V C) (hs : e.knn.Nearest e.dist) (hps : LawfulPartialSort be.ps)
    (hth : InI64 e.threads) (hb : GoodBackend e.backend e.threads) (size : Int) (hsize : InI64 size) (hK1 : InI64 (e.K + 1))
    (hsym : e.symmetric = true → SymmetricFns e.valid e.dist) (h0 : 0 ≤ size) (hK : 1 ≤ e.K) (ht : 1 ≤ be.maxTries)
    (hd : e.addDuplicates = true) (hv : ∀ x, be.sampled x → be.stateValid x = true) (r : Res (Graph V C)) (hr : BuildRun e be size r) :
    ∃ g, r = .ok g ∧ (g.length : Int) = size := by
  rcases build_core e be hs hps hth hb size hsize hK1 hsym r hr with ⟨rfl, hbad | ⟨order, states, ho, hsr, hp⟩⟩ | ⟨g, h1, h2, _⟩
  · omega
  · exfalso
    have hrep : (List.replicate size.toNat (none : Option V)).length = size.toNat := by simp
    have hthr : InI64 (if be.parallelSampling && e.addDuplicates then e.threads else 1) := by
      split
      · exact hth
      · unfold InI64; omega
    have hfull : ∀ {order : List Int} {states : List (Option V)},
        IndexRun e.backend (if be.parallelSampling && e.addDuplicates then e.threads else 1) 0 size order →
        SampleRun e be order (List.replicate size.toNat none) (.ok states) → ∃ l : List V, states = l.map some := by
      intro order states ho hsr
      have hp := ho.perm (by unfold InI64; omega) hsize hthr (by simpa using hsize) h0
      obtain ⟨s', h1, hlen, -⟩ := sampleRun_ok hps hth hb (by rw [hrep, Int.toNat_of_nonneg h0]; exact hsize)
        (fun i hi => by have := mem_irange.mp (hp.subset hi); rw [hrep]; omega) hsr
      cases h1
      have hall : ∀ o ∈ states, ∃ x, o = some x := by
        intro o ho'
        obtain ⟨i, hi, rfl⟩ := List.mem_iff_getElem.mp ho'
        obtain ⟨x, hx⟩ := sample_full hd hv ht hsr i (Or.inl (hp.symm.subset (mem_irange.mpr ⟨by omega, by omega⟩)))
        rw [List.getElem?_eq_getElem hi] at hx
        exact ⟨x, by simpa using hx⟩
      clear hsr hlen
      induction states with
      | nil => exact ⟨[], rfl⟩
      | cons o states ih =>
        obtain ⟨x, rfl⟩ := hall o (by simp)
        obtain ⟨l, rfl⟩ := ih (fun o ho => hall o (by simp [ho]))
        exact ⟨x :: l, rfl⟩
    obtain ⟨l, rfl⟩ := hfull ho hsr
    rw [populate_some] at hp
    cases hp
  · exact ⟨g, h1, h2⟩

/-! ### A concrete run -/

/-- A sampler that returns 0 or 5, one-directional motions upwards. -/
def buildEnvExample : Env Int (WithTop Int) where
  knn := linearProvider psSort .async 1 (fun a b : Int => ((upDist a b : Int) : WithTop Int))
  dist a b := ((upDist a b : Int) : WithTop Int)
  valid a b := decide (a ≤ b)
  infeasible := ((-1 : Int) : WithTop Int)
  K := 1
  backend := .async
  threads := 1
  symmetric := false
  addDuplicates := true

def buildSamplerExample : BuildEnv Int (WithTop Int) where
  sampled x := x = 0 ∨ x = 5
  stateValid _ := true
  maxTries := 1
  parallelSampling := false
  ps := psSort

/-- The hypotheses of C41 hold: this run samples 0 and 5. -/
example : ∃ r, BuildRun buildEnvExample buildSamplerExample 2 r ∧ ∃ g, r = .ok g ∧ (g.length : Int) = 2 := by
  have ho : IndexRun .async 1 0 2 [0, 1] := ⟨[[⟨0, 0⟩, ⟨0, 1⟩]], [⟨0, 0⟩, ⟨0, 1⟩], rfl,
    .step 0 _ _ _ rfl (.step 0 _ _ _ rfl (.done (by simp))), rfl⟩
  have hn : buildEnvExample.knn.Nearest buildEnvExample.dist :=
    C40_linear_provider_nearest psSort psSort_lawful .async 1 (by unfold InI64; omega) (fun _ h => h) (fun _ _ _ _ h => h) _
  have hsr : SampleRun buildEnvExample buildSamplerExample [0, 1] (List.replicate 2 none) (.ok [some 0, some 5]) :=
    .next (o := some 0) (.anyValid (Or.inl rfl) rfl rfl) (by simp) (.next (o := some 5) (.anyValid (Or.inr rfl) rfl rfl) (by simp) .done)
  have hconn : ∃ r, ConnectAllRun buildEnvExample [0, 1] [⟨0, [], []⟩, ⟨5, [], []⟩] r := by
    have hq : ∀ (i : Int) (g : Graph Int (WithTop Int)), ∃ r, ConnectRun buildEnvExample i g r := by
      intro i g
      unfold ConnectRun
      cases getNode g i with
      | throw x => exact ⟨_, rfl⟩
      | ub => exact ⟨_, rfl⟩
      | ok n =>
        cases chk64 (buildEnvExample.K + 1) with
        | throw x => exact ⟨_, rfl⟩
        | ub => exact ⟨_, rfl⟩
        | ok K1 =>
          have : ∃ rk, KnnQuery buildEnvExample.knn g.length (getNode g) n.value K1 .roadmapToNew g.length rk := by
            have h2 : ∃ r, buildEnvExample.knn g.length (getNode g) n.value K1 .roadmapToNew g.length r := by
              show ∃ r, linearProvider psSort .async 1 _ g.length (getNode g) n.value K1 .roadmapToNew g.length r
              unfold linearProvider
              cases adapterItems (g.length : Int) (getNode g) (g.length : Int) with
              | throw x => exact ⟨_, rfl⟩
              | ub => exact ⟨_, rfl⟩
              | ok items =>
                dsimp only
                unfold KnnRun
                exact ⟨_, by rw [if_neg (by omega)]⟩
            obtain ⟨r, hr⟩ := h2
            exact ⟨_, r, hr, rfl⟩
          obtain ⟨rk, hk⟩ := this
          exact ⟨_, rk, hk, rfl⟩
    have hall : ∀ (l : List Int) (g : Graph Int (WithTop Int)), ∃ r, ConnectAllRun buildEnvExample l g r := by
      intro l
      induction l with
      | nil => exact fun g => ⟨_, .done⟩
      | cons i l ih =>
        intro g
        obtain ⟨r, hr⟩ := hq i g
        cases r with
        | ok g' => obtain ⟨r2, h2⟩ := ih g'; exact ⟨r2, .next hr h2⟩
        | throw x => exact ⟨_, .throws hr⟩
        | ub => exact ⟨_, .ub hr⟩
    exact hall _ _
  obtain ⟨r0, hr0⟩ := hconn
  have hrun : BuildRun buildEnvExample buildSamplerExample 2 _ :=
    .connected (g := [⟨0, [], []⟩, ⟨5, [], []⟩]) (by decide) ho hsr rfl ho hr0
  refine ⟨_, hrun, C41_build_succeeds buildEnvExample buildSamplerExample hn psSort_lawful (by unfold InI64; decide) ?_ 2
    (by unfold InI64; omega) (by unfold InI64; decide) (fun h => by cases h) (by omega) (by decide) (by decide) rfl (fun _ _ => rfl) _ hrun⟩
  exact ⟨fun _ h => h, fun _ _ _ _ h => h⟩

end CRU.Prm
