import Verif.Prm.Model
import Verif.Graph.Props
import Verif.Knn.Props
/-
  C40: what one call of `AddNodeToRoadmap` does to the roadmap.
-/
namespace CRU.Prm
open CRU.Graph CRU.Knn CRU.Parallel CRU.GraphSearch

variable {V C : Type} [LinearOrder C] [Zero C]

/-- The roadmap `g'` is `g` with one more node holding `state`; the nodes of `g` keep their values and their edges, new edges
come after them. -/
structure GrownBy (g g' : Graph V C) (state : V) : Prop where
  length : g'.length = g.length + 1
  old : ∀ (i : Nat) (n : Node V C), g[i]? = some n → ∃ n', g'[i]? = some n' ∧ n'.value = n.value ∧
    n.ins <+: n'.ins ∧ n.outs <+: n'.outs
  new : ∃ n, g'[g.length]? = some n ∧ n.value = state

/-- The two possible edges between a neighbour `i` with state `nb` and a new node `k` with state `state`: each there if the
validity check accepts it in its own direction, and then with the distance in its own direction (if not negative). -/
def Connects (valid : V → V → Bool) (dist : V → V → C) (state nb : V) (k i : Int) (u v : Int) (w : C) : Prop :=
  (u = i ∧ v = k ∧ valid nb state = true ∧ w = dist nb state ∧ 0 ≤ w) ∨
  (u = k ∧ v = i ∧ valid state nb = true ∧ w = dist state nb ∧ 0 ≤ w)

/-- What the code adds instead for `NEW_STATE_TO_ROADMAP` when the connection is not declared symmetric: each of the two
edges is there if the check accepts the *opposite* edge, and both carry the distance from the new state. -/
def ConnectsSwapped (valid : V → V → Bool) (dist : V → V → C) (state nb : V) (k i : Int) (u v : Int) (w : C) : Prop :=
  (u = i ∧ v = k ∧ valid state nb = true ∧ w = dist state nb ∧ 0 ≤ w) ∨
  (u = k ∧ v = i ∧ valid nb state = true ∧ w = dist state nb ∧ 0 ≤ w)

/-! ### Adding edges one by one -/

theorem outEdge_link (g : Graph V C) (s d : Nat) (w : C) (hs : s < g.length) (u v : Int) (x : C) :
    OutEdge (link g s d w) u v x ↔ OutEdge g u v x ∨ (u = s ∧ v = d ∧ x = w) := by
  unfold OutEdge
  constructor
  · rintro ⟨i, n, rfl, hn, e, he, h1, h2⟩
    rw [link_get] at hn
    obtain ⟨m, hm, rfl⟩ := Option.map_eq_some_iff.mp hn
    dsimp only at he
    split at he
    · rename_i his
      rcases List.mem_append.mp he with h | h
      · exact Or.inl ⟨i, m, rfl, hm, e, h, h1, h2⟩
      · rw [List.mem_singleton] at h
        subst h
        exact Or.inr ⟨by rw [his], h1.symm, h2.symm⟩
    · exact Or.inl ⟨i, m, rfl, hm, e, he, h1, h2⟩
  · rintro (⟨i, n, rfl, hn, e, he, h1, h2⟩ | ⟨rfl, rfl, rfl⟩)
    · refine ⟨i, _, rfl, by rw [link_get, hn]; rfl, e, ?_, h1, h2⟩
      dsimp only
      split
      · exact List.mem_append_left _ he
      · exact he
    · refine ⟨s, _, rfl, by rw [link_get, List.getElem?_eq_getElem hs]; rfl, ⟨s, d, x, 0⟩, ?_, rfl, rfl⟩
      simp

theorem link_old (g : Graph V C) (s d : Nat) (w : C) (i : Nat) (n : Node V C) (hn : g[i]? = some n) :
    ∃ n', (link g s d w)[i]? = some n' ∧ n'.value = n.value ∧ n.ins <+: n'.ins ∧ n.outs <+: n'.outs := by
  refine ⟨{ value := n.value, ins := if i = d then n.ins ++ [⟨s, d, w, 0⟩] else n.ins,
            outs := if i = s then n.outs ++ [⟨s, d, w, 0⟩] else n.outs }, by rw [link_get, hn]; rfl, rfl, ?_, ?_⟩
  · dsimp only; split
    · exact List.prefix_append _ _
    · exact List.prefix_rfl
  · dsimp only; split
    · exact List.prefix_append _ _
    · exact List.prefix_rfl

/-- Nodes keep values; edges are only appended. -/
def Keeps (g g' : Graph V C) : Prop :=
  g'.length = g.length ∧ ∀ (i : Nat) (n : Node V C), g[i]? = some n → ∃ n', g'[i]? = some n' ∧ n'.value = n.value ∧
    n.ins <+: n'.ins ∧ n.outs <+: n'.outs

theorem Keeps.refl (g : Graph V C) : Keeps g g := ⟨rfl, fun _ n h => ⟨n, h, rfl, List.prefix_rfl, List.prefix_rfl⟩⟩

theorem Keeps.trans {a b c : Graph V C} (h : Keeps a b) (h' : Keeps b c) : Keeps a c := by
  refine ⟨h'.1.trans h.1, fun i n hn => ?_⟩
  obtain ⟨n1, a1, a2, a3, a4⟩ := h.2 i n hn
  obtain ⟨n2, b1, b2, b3, b4⟩ := h'.2 i n1 a1
  exact ⟨n2, b1, b2.trans a2, a3.trans b3, a4.trans b4⟩

/-- One conditional `AddEdgeBetweenNodes` between distinct existing nodes. -/
theorem optEdge (g : Graph V C) (s d : Nat) (hs : s < g.length) (hd : d < g.length) (hne : s ≠ d) (w : C) :
    ∃ g', (if 0 ≤ w then CRU.Graph.addEdge g s d w else (g, .ok ())) = (g', .ok ()) ∧ Keeps g g' ∧
      (∀ u v x, OutEdge g' u v x ↔ OutEdge g u v x ∨ (u = s ∧ v = d ∧ x = w ∧ 0 ≤ w)) ∧
      (Mirrored g → Mirrored g') ∧ (ValidLinkage g → ValidLinkage g') := by
  by_cases h : 0 ≤ w
  · refine ⟨link g s d w, ?_, ⟨length_link g s d w, fun i n hn => link_old g s d w i n hn⟩, ?_,
      fun hm => link_mirrored hm s d w hs hd hne, fun hv => link_valid hv s d w hs hd hne⟩
    · rw [if_pos h, addEdge_eq, if_pos (by omega), if_neg (by omega)]
      simp
    · intro u v x
      rw [outEdge_link g s d w hs]
      simp [h]
  · refine ⟨g, by rw [if_neg h], Keeps.refl g, ?_, id, id⟩
    intro u v x
    constructor
    · exact Or.inl
    · rintro (h' | ⟨_, _, _, h'⟩)
      · exact h'
      · exact absurd h' h

theorem addEdgesLoop_ok (k : Nat) (l : List (Entry C × (C × C))) (g : Graph V C) (hk : k < g.length)
    (hl : ∀ p ∈ l, ∃ i : Nat, p.1.index = i ∧ i < k) :
    ∃ g', addEdgesLoop graphOps (k : Int) l g = (g', .ok ()) ∧ Keeps g g' ∧
      (∀ u v x, OutEdge g' u v x ↔ OutEdge g u v x ∨ ∃ p ∈ l,
        (u = p.1.index ∧ v = k ∧ x = p.2.1 ∧ 0 ≤ p.2.1) ∨ (u = k ∧ v = p.1.index ∧ x = p.2.2 ∧ 0 ≤ p.2.2)) ∧
      (Mirrored g → Mirrored g') ∧ (ValidLinkage g → ValidLinkage g') := by
  induction l generalizing g with
  | nil => exact ⟨g, rfl, Keeps.refl g, fun u v x => by simp, id, id⟩
  | cons p l ih =>
    obtain ⟨e, d⟩ := p
    obtain ⟨i, hi, hik⟩ := hl (e, d) (by simp)
    dsimp only at hi
    obtain ⟨g1, e1, k1, o1, m1, v1⟩ := optEdge g i k (by omega) hk (by omega) d.1
    obtain ⟨g2, e2, k2, o2, m2, v2⟩ := optEdge g1 k i (by have := k1.1; omega) (by have := k1.1; omega) (by omega) d.2
    obtain ⟨g3, e3, k3, o3, m3, v3⟩ := ih g2 (by have := k1.1; have := k2.1; omega) (fun p hp => hl p (by simp [hp]))
    refine ⟨g3, ?_, (k1.trans k2).trans k3, ?_, fun h => m3 (m2 (m1 h)), fun h => v3 (v2 (v1 h))⟩
    · unfold addEdgesLoop
      rw [hi]
      have e1' : (if 0 ≤ d.1 then graphOps.addEdge g i k d.1 else (g, .ok ())) = (g1, .ok ()) := e1
      have e2' : (if 0 ≤ d.2 then graphOps.addEdge g1 k i d.2 else (g1, .ok ())) = (g2, .ok ()) := e2
      rw [e1']
      dsimp only
      rw [e2']
      exact e3
    · intro u v x
      rw [o3, o2, o1]
      simp only [List.mem_cons, exists_eq_or_imp, hi, or_assoc]

/-! ### The distances of the neighbours -/

/-- What the provider's contract says about an answer. -/
def SoundAnswer (dist : V → V → C) (dir : Dir) (g : Graph V C) (state : V) (maxNode : Int) (l : List (Entry C)) : Prop :=
  ∀ e ∈ l, ∃ (i : Nat) (n : Node V C), e.index = i ∧ (i : Int) < maxNode ∧ g[i]? = some n ∧ e.dist = dirDist dist dir n.value state

theorem sound_query {e : Env V C} (hs : e.knn.Sound e.dist) {g : Graph V C} {size : Int} {get : Int → Res (Node V C)}
    (ha : Access g size get) (hsz : InI64 size) {state : V} {dir : Dir} {maxNode : Int} (hK : 0 ≤ e.K) (h0 : 0 ≤ maxNode) (h1 : maxNode ≤ size)
    {r : Res (List (Entry C))} (h : KnnQuery e.knn size get state e.K dir maxNode r) :
    ∃ l, r = .ok l ∧ SoundAnswer e.dist dir g state maxNode l ∧ e.knn size get state e.K dir maxNode (.ok l) ∧
      InI64 l.length := by
  obtain ⟨r0, hr, rfl⟩ := h
  obtain ⟨l, rfl, hI, hl⟩ := hs g size get state e.K dir maxNode r0 ha hsz hK h0 h1 hr
  refine ⟨l, ?_, hl, hr, hI⟩
  have : sanityCheck l size maxNode = .ok () := by
    unfold sanityCheck
    rw [if_neg]
    intro hc
    obtain ⟨x, hx, hb⟩ := List.any_eq_true.mp hc
    obtain ⟨i, n, h2, h3, h4, _⟩ := hl x hx
    simp only [Bool.or_eq_true, decide_eq_true_eq] at hb
    omega
  rw [Res.ok_bind, this, Res.ok_bind]
  rfl

theorem getNode_append (g : Graph V C) (n m : Node V C) (i : Nat) (h : g[i]? = some n) :
    getNode (g ++ [m]) (i : Int) = .ok n := by
  obtain ⟨hi, rfl⟩ := List.getElem?_eq_some_iff.mp h
  rw [getNode_ok (g ++ [m]) i (by simp; omega), List.getElem_append_left hi]

/-- The pair of distances the code computes for a neighbour. -/
def pairFor (e : Env V C) (dir : Dir) (state : V) (g : Graph V C) (nb : Entry C) : C × C :=
  match g[nb.index.toNat]? with
  | some n => itemDistances e dir state n.value nb.dist
  | none => (e.infeasible, e.infeasible)

theorem fill_distances (e : Env V C) (dir : Dir) (state : V) (g : Graph V C) (m : Node V C) (l : List (Entry C))
    (hl : ∀ nb ∈ l, ∃ (i : Nat) (n : Node V C), nb.index = i ∧ g[i]? = some n) (order : List Int) (init : List (C × C))
    (ho : order.Perm (irange 0 l.length)) (hi : init.length = l.length) :
    fillAll (fun i => do
      let nb ← atInt l i
      let n ← getNode (g ++ [m]) nb.index
      pure (itemDistances e dir state n.value nb.dist)) 0 order init = .ok (l.map (pairFor e dir state g)) := by
  have hne : ∀ i ∈ order, 0 ≤ i ∧ i.toNat < l.length := fun i h => by have := mem_irange.mp (ho.mem_iff.mp h); omega
  have hd : ∃ d : Int → C × C, ∀ i (h : 0 ≤ i ∧ i.toNat < l.length), d i = pairFor e dir state g (l[i.toNat]'h.2) :=
    ⟨fun i => if h : 0 ≤ i ∧ i.toNat < l.length then pairFor e dir state g (l[i.toNat]'h.2) else (e.infeasible, e.infeasible),
      fun i h => by dsimp only; rw [dif_pos h]⟩
  obtain ⟨d, hd⟩ := hd
  rw [fillAll_congr _ (fun i => .ok (d i)) 0 order init ?_]
  · rw [fillAll_irange d 0 l.length order init (by omega) ho]
    congr 1
    apply List.ext_getElem
    · simp [length_irange]
    · intro k h1 h2
      simp only [List.length_map] at h2
      rw [List.getElem_map, irange_get, List.getElem_map, hd (0 + (k : Int)) (by omega)]
      have : (0 + (k : Int)).toNat = k := by omega
      simp only [this]
  · intro i hio
    obtain ⟨h0, h1⟩ := hne i hio
    rw [atInt_ok l i h0 h1, Res.ok_bind, hd i ⟨h0, h1⟩]
    obtain ⟨j, n, hj, hn⟩ := hl (l[i.toNat]) (List.getElem_mem _)
    rw [hj, getNode_append g n m j hn, Res.ok_bind, Res.pure_eq]
    unfold pairFor
    rw [hj, Int.toNat_natCast, hn]

/-- The new edges of `insertState`. -/
theorem insertState_ok (e : Env V C) (state : V) (dir : Dir) (g : Graph V C) (l : List (Entry C)) (order : List Int)
    (init : List (C × C)) (hl : ∀ nb ∈ l, ∃ (i : Nat) (n : Node V C), nb.index = i ∧ g[i]? = some n)
    (ho : order.Perm (irange 0 l.length)) (hi : init.length = l.length) :
    ∃ g', insertState graphOps e state dir l order init g = (g', .ok (g.length : Int)) ∧ GrownBy g g' state ∧
      (∀ u v w, OutEdge g' u v w ↔ OutEdge g u v w ∨ ∃ nb ∈ l,
        (u = nb.index ∧ v = g.length ∧ w = (pairFor e dir state g nb).1 ∧ 0 ≤ w) ∨
        (u = g.length ∧ v = nb.index ∧ w = (pairFor e dir state g nb).2 ∧ 0 ≤ w)) ∧
      (Mirrored g → Mirrored g') ∧ (ValidLinkage g → ValidLinkage g') := by
  have hfill := fill_distances e dir state g ⟨state, [], []⟩ l hl order init ho hi
  have hA : (addNodeValue g state).1 = g ++ [⟨state, [], []⟩] ∧ (addNodeValue g state).2 = g.length :=
    (C14_effects g).1 state
  have hout : ∀ u v w, OutEdge (g ++ [(⟨state, [], []⟩ : Node V C)]) u v w ↔ OutEdge g u v w := by
    intro u v w
    unfold OutEdge
    constructor
    · rintro ⟨i, n, rfl, hn, ed, he, h⟩
      rw [List.getElem?_append] at hn
      split at hn
      · exact ⟨i, n, rfl, hn, ed, he, h⟩
      · obtain ⟨_, hn⟩ := List.getElem?_eq_some_iff.mp hn
        simp only [List.getElem_singleton] at hn
        subst hn
        cases he
    · rintro ⟨i, n, rfl, hn, ed, he, h⟩
      obtain ⟨hi', _⟩ := List.getElem?_eq_some_iff.mp hn
      exact ⟨i, n, rfl, by rw [List.getElem?_append_left hi', hn], ed, he, h⟩
  obtain ⟨g', h1, h2, h3, h4, h5⟩ := addEdgesLoop_ok g.length (l.zip (l.map (pairFor e dir state g)))
    (g ++ [⟨state, [], []⟩]) (by simp) (by
      intro p hp
      obtain ⟨i, n, h, hn⟩ := hl p.1 (List.of_mem_zip hp).1
      obtain ⟨hi', _⟩ := List.getElem?_eq_some_iff.mp hn
      exact ⟨i, h, hi'⟩)
  refine ⟨g', ?_, ?_, ?_, fun hm => h4 ?_, fun hv => h5 ?_⟩
  · unfold insertState
    have hA' : graphOps.addValue g state = (g ++ [⟨state, [], []⟩], (g.length : Int)) := Prod.ext hA.1 hA.2
    have hget : (graphOps : GraphOps (Graph V C) V C).get = getNode := rfl
    rw [hA']
    dsimp only
    rw [hget, hfill]
    dsimp only
    rw [h1]
  · refine ⟨by rw [h2.1]; simp, fun i n hn => ?_, ?_⟩
    · obtain ⟨hi', _⟩ := List.getElem?_eq_some_iff.mp hn
      exact h2.2 i n (by rw [List.getElem?_append_left hi', hn])
    · obtain ⟨n', a, b, _⟩ := h2.2 g.length ⟨state, [], []⟩ (by simp)
      exact ⟨n', a, b⟩
  · intro u v w
    rw [h3, hout]
    apply or_congr Iff.rfl
    constructor
    · rintro ⟨p, hp, h⟩
      obtain ⟨a, b⟩ := p
      have ha := (List.of_mem_zip hp).1
      have hb : b = pairFor e dir state g a := by
        rw [List.zip_map_right] at hp
        obtain ⟨q, hq, hqe⟩ := List.mem_map.mp hp
        obtain ⟨q1, q2⟩ := q
        simp only [Prod.map_apply, id_eq, Prod.mk.injEq] at hqe
        have : q1 = q2 := by
          obtain ⟨k, hk, hkq⟩ := List.mem_iff_getElem.mp hq
          simp only [List.getElem_zip, Prod.mk.injEq] at hkq
          exact hkq.1.symm.trans hkq.2
        rw [← hqe.1, ← hqe.2, this]
      subst hb
      refine ⟨a, ha, ?_⟩
      rcases h with ⟨x1, x2, x3, x4⟩ | ⟨x1, x2, x3, x4⟩
      · exact Or.inl ⟨x1, x2, x3, by rw [x3]; exact x4⟩
      · exact Or.inr ⟨x1, x2, x3, by rw [x3]; exact x4⟩
    · rintro ⟨a, ha, h⟩
      refine ⟨(a, pairFor e dir state g a), ?_, ?_⟩
      · obtain ⟨k, hk, rfl⟩ := List.mem_iff_getElem.mp ha
        exact List.mem_iff_getElem.mpr ⟨k, by simpa using hk, by simp⟩
      · rcases h with ⟨x1, x2, x3, x4⟩ | ⟨x1, x2, x3, x4⟩
        · exact Or.inl ⟨x1, x2, x3, by rw [← x3]; exact x4⟩
        · exact Or.inr ⟨x1, x2, x3, by rw [← x3]; exact x4⟩
  · rw [← hA.1]; exact addNodeValue_mirrored hm state
  · rw [← hA.1]; exact addNodeValue_valid hv state

/-! ### C40 -/

/-- Distance and edge validity do not depend on the direction. -/
def SymmetricFns (valid : V → V → Bool) (dist : V → V → C) : Prop :=
  ∀ a b, valid a b = valid b a ∧ dist a b = dist b a

theorem pairFor_eq {e : Env V C} {dir : Dir} {state : V} {g : Graph V C} {nb : Entry C} {i : Nat} {n : Node V C}
    (hi : nb.index = i) (hn : g[i]? = some n) : pairFor e dir state g nb = itemDistances e dir state n.value nb.dist := by
  unfold pairFor; rw [hi, Int.toNat_natCast, hn]

/-- Everything `AddNodeToRoadmap` can do, before the weights are interpreted. -/
theorem addNode_cases (e : Env V C) (hs : e.knn.Sound e.dist) (hK : 0 ≤ e.K) (state : V) (dir : Dir) (maxNode : Int) (g : Graph V C)
    (h0 : 0 ≤ maxNode) (h1 : maxNode ≤ g.length) (hsz : InI64 g.length) (hth : InI64 e.threads)
    (r : Graph V C × Res Int)
    (hr : AddNodeRun graphOps e state dir maxNode g r) :
    (e.addDuplicates = false ∧ ∃ (i : Nat) (n : Node V C), r = (g, .ok (i : Int)) ∧ (i : Int) < maxNode ∧ g[i]? = some n ∧
      dirDist e.dist dir n.value state = 0) ∨
    ∃ g' l, r = (g', .ok (g.length : Int)) ∧ e.knn g.length (getNode g) state e.K dir maxNode (.ok l) ∧
      SoundAnswer e.dist dir g state maxNode l ∧
      (e.addDuplicates = false → ∀ nb ∈ l, nb.dist ≠ 0) ∧ GrownBy g g' state ∧
      (∀ u v w, OutEdge g' u v w ↔ OutEdge g u v w ∨ ∃ nb ∈ l,
        (u = nb.index ∧ v = g.length ∧ w = (pairFor e dir state g nb).1 ∧ 0 ≤ w) ∨
        (u = g.length ∧ v = nb.index ∧ w = (pairFor e dir state g nb).2 ∧ 0 ≤ w)) ∧
      (Mirrored g → Mirrored g') ∧ (ValidLinkage g → ValidLinkage g') := by
  have ha : Access g (graphOps.size g) (graphOps.get g) :=
    ⟨rfl, fun i n hn => by obtain ⟨hi, rfl⟩ := List.getElem?_eq_some_iff.mp hn; exact getNode_ok g i hi⟩
  cases hr with
  | knnThrows h =>
    obtain ⟨l, h, _⟩ := sound_query hs ha hsz hK h0 h1 h
    cases h
  | knnUb h =>
    obtain ⟨l, h, _⟩ := sound_query hs ha hsz hK h0 h1 h
    cases h
  | @duplicate l d h hd hf =>
    obtain ⟨l', h, hl, hk, hI⟩ := sound_query hs ha hsz hK h0 h1 h
    cases h
    have hm := List.mem_of_find?_eq_some hf
    have hz := List.find?_some hf
    obtain ⟨i, n, a1, a2, a3, a4⟩ := hl d hm
    left
    refine ⟨hd, i, n, by rw [a1], a2, a3, ?_⟩
    rw [← a4]
    simpa using hz
  | @added l order init h hd ho hi =>
    obtain ⟨l', h, hl, hk, hI⟩ := sound_query hs ha hsz hK h0 h1 h
    cases h
    have hp := ho.perm (by unfold InI64; omega) hI hth (by simpa using hI) (by omega)
    obtain ⟨g', b1, b2, b3, b4, b5⟩ := insertState_ok e state dir g l order init
      (fun nb hnb => by obtain ⟨i, n, a1, _, a3, _⟩ := hl nb hnb; exact ⟨i, n, a1, a3⟩) hp hi
    right
    refine ⟨g', l, b1, hk, hl, ?_, b2, b3, b4, b5⟩
    intro hf nb hnb hz
    rcases hd with hd | hd
    · rw [hd] at hf; cases hf
    · have := List.find?_eq_none.mp hd nb hnb
      simp [hz] at this

/-- C40 (first part): with a provider that keeps its contract, `AddNodeToRoadmap` either returns a node at distance zero and
changes nothing (only if duplicates are not wanted), or appends one node holding the state and returns its index. Then the
nodes of the roadmap keep values and edges, linkage stays valid and mirrored, and the new edges are exactly the connections
with the neighbours named by the provider: each edge is there if the validity check accepts it in its own direction and
the distance is not negative, and it carries the distance in its own direction.

What is missing: for `NEW_STATE_TO_ROADMAP` with `connection_is_symmetric = false` the last part needs symmetric functions,
see `C40_new_state_to_roadmap_swapped` and `C40_false`. -/
theorem C40_add_node_partial (e : Env V C) (hs : e.knn.Sound e.dist) (hK : 0 ≤ e.K) (hinf : e.infeasible < 0) (state : V)
    (dir : Dir) (maxNode : Int) (g : Graph V C) (h0 : 0 ≤ maxNode) (h1 : maxNode ≤ g.length) (hsz : InI64 g.length) (hth : InI64 e.threads)
    (r : Graph V C × Res Int)
    (hr : AddNodeRun graphOps e state dir maxNode g r) :
    (e.addDuplicates = false ∧ ∃ (i : Nat) (n : Node V C), r = (g, .ok (i : Int)) ∧ (i : Int) < maxNode ∧ g[i]? = some n ∧
      dirDist e.dist dir n.value state = 0) ∨
    ∃ g' l, r = (g', .ok (g.length : Int)) ∧ e.knn g.length (getNode g) state e.K dir maxNode (.ok l) ∧
      (e.addDuplicates = false → ∀ nb ∈ l, nb.dist ≠ 0) ∧ GrownBy g g' state ∧
      (Mirrored g → Mirrored g') ∧ (ValidLinkage g → ValidLinkage g') ∧
      ((e.symmetric = true ∨ dir = .newToRoadmap → SymmetricFns e.valid e.dist) →
        ∀ u v w, OutEdge g' u v w ↔ OutEdge g u v w ∨ ∃ nb ∈ l, ∃ b, HasValue g nb.index b ∧
          Connects e.valid e.dist state b g.length nb.index u v w) := by
  rcases addNode_cases e hs hK state dir maxNode g h0 h1 hsz hth r hr with h | ⟨g', l, b1, b2, hl, b3, b4, b5, b6, b7⟩
  · exact Or.inl h
  refine Or.inr ⟨g', l, b1, b2, b3, b4, b6, b7, fun hsym u v w => ?_⟩
  rw [b5]
  apply or_congr Iff.rfl
  have key : ∀ nb ∈ l, ∀ b, HasValue g nb.index b → (Connects e.valid e.dist state b g.length nb.index u v w ↔
      ((u = nb.index ∧ v = g.length ∧ w = (pairFor e dir state g nb).1 ∧ 0 ≤ w) ∨
        (u = g.length ∧ v = nb.index ∧ w = (pairFor e dir state g nb).2 ∧ 0 ≤ w))) := by
    intro nb hnb b hb
    obtain ⟨i, n, a1, _, a3, a4⟩ := hl nb hnb
    obtain ⟨k, n', c1, c2, c3⟩ := hb
    obtain rfl : k = i := by have : (k : Int) = i := c1.symm.trans a1; exact_mod_cast this
    rw [a3] at c2; cases c2; subst c3
    rw [pairFor_eq a1 a3, a4]
    unfold Connects itemDistances
    by_cases hsy : e.symmetric = true
    · have hf := fun x y => hsym (Or.inl hsy) x y
      have h2 := hf state n.value
      have hd : dirDist e.dist dir n.value state = e.dist n.value state := by
        cases dir
        · rfl
        · exact h2.2
      by_cases hv : e.valid n.value state = true
      · simp only [hsy, hv, h2.1, h2.2, hd, Bool.and_self, if_true, true_and]
      · simp only [hsy, hv, h2.1, Bool.false_and, Bool.false_eq_true, if_false, Bool.not_true, false_and, and_false, or_self,
          false_iff]
        push Not
        constructor <;> (rintro _ _ rfl; exact hinf)
    · rw [Bool.not_eq_true] at hsy
      simp only [hsy, Bool.and_false, Bool.false_eq_true, if_false, Bool.not_false, if_true]
      cases dir with
      | roadmapToNew =>
        simp only [dirDist]
        apply or_congr
        · by_cases hv : e.valid n.value state = true
          · simp [hv]
          · simp only [hv, Bool.false_eq_true, if_false, false_and, and_false, false_iff]
            rintro ⟨_, _, rfl, h⟩
            exact absurd h (not_le.mpr hinf)
        · by_cases hv : e.valid state n.value = true
          · simp [hv]
          · simp only [hv, Bool.false_eq_true, if_false, false_and, and_false, false_iff]
            rintro ⟨_, _, rfl, h⟩
            exact absurd h (not_le.mpr hinf)
      | newToRoadmap =>
        have h2 := hsym (Or.inr rfl) state n.value
        simp only [dirDist, h2.1, h2.2]
        by_cases hv : e.valid n.value state = true
        · simp [hv]
        · simp only [hv, Bool.false_eq_true, if_false, false_and, and_false, or_self, false_iff]
          push Not
          constructor <;> (rintro _ _ rfl; exact hinf)
  constructor
  · rintro ⟨nb, hnb, h⟩
    obtain ⟨i, n, a1, _, a3, _⟩ := hl nb hnb
    have hv : HasValue g nb.index n.value := ⟨i, n, a1, a3, rfl⟩
    exact ⟨nb, hnb, n.value, hv, (key nb hnb _ hv).mpr h⟩
  · rintro ⟨nb, hnb, b, hb, h⟩
    exact ⟨nb, hnb, (key nb hnb b hb).mp h⟩

/-- C40: what happens instead in the excepted case. For `NEW_STATE_TO_ROADMAP` and `connection_is_symmetric = false` the edge
from a neighbour to the new state is added if the check accepts the opposite edge, and the other way round; both carry
the distance from the new state to the neighbour. -/
theorem C40_new_state_to_roadmap_swapped (e : Env V C) (hs : e.knn.Sound e.dist) (hK : 0 ≤ e.K) (hinf : e.infeasible < 0)
    (hsym : e.symmetric = false) (state : V) (maxNode : Int) (g : Graph V C) (h0 : 0 ≤ maxNode) (h1 : maxNode ≤ g.length)
    (hsz : InI64 g.length) (hth : InI64 e.threads)
    (g' : Graph V C)
    (hr : AddNodeRun graphOps e state .newToRoadmap maxNode g (g', .ok (g.length : Int))) :
    ∃ l, e.knn g.length (getNode g) state e.K .newToRoadmap maxNode (.ok l) ∧
      (e.addDuplicates = false → ∀ nb ∈ l, nb.dist ≠ 0) ∧ GrownBy g g' state ∧
      ∀ u v w, OutEdge g' u v w ↔ OutEdge g u v w ∨ ∃ nb ∈ l, ∃ b, HasValue g nb.index b ∧
        ConnectsSwapped e.valid e.dist state b g.length nb.index u v w := by
  rcases addNode_cases e hs hK state .newToRoadmap maxNode g h0 h1 hsz hth _ hr with
    ⟨_, i, n, h, _, hn, _⟩ | ⟨g'', l, b1, b2, hl, b3, b4, b5, b6, b7⟩
  · obtain ⟨hi, _⟩ := List.getElem?_eq_some_iff.mp hn
    rw [Prod.mk.injEq, Res.ok.injEq] at h
    omega
  cases b1
  refine ⟨l, b2, b3, b4, fun u v w => ?_⟩
  rw [b5]
  apply or_congr Iff.rfl
  have key : ∀ nb ∈ l, ∀ b, HasValue g nb.index b → (ConnectsSwapped e.valid e.dist state b g.length nb.index u v w ↔
      ((u = nb.index ∧ v = g.length ∧ w = (pairFor e .newToRoadmap state g nb).1 ∧ 0 ≤ w) ∨
        (u = g.length ∧ v = nb.index ∧ w = (pairFor e .newToRoadmap state g nb).2 ∧ 0 ≤ w))) := by
    intro nb hnb b hb
    obtain ⟨i, n, a1, _, a3, a4⟩ := hl nb hnb
    obtain ⟨k, n', c1, c2, c3⟩ := hb
    obtain rfl : k = i := by have : (k : Int) = i := c1.symm.trans a1; exact_mod_cast this
    rw [a3] at c2; cases c2; subst c3
    rw [pairFor_eq a1 a3, a4]
    unfold ConnectsSwapped itemDistances
    simp only [hsym, Bool.and_false, Bool.false_eq_true, if_false, Bool.not_false, if_true, dirDist]
    apply or_congr
    · by_cases hv : e.valid state n.value = true
      · simp [hv]
      · simp only [hv, Bool.false_eq_true, if_false, false_and, and_false, false_iff]
        rintro ⟨_, _, rfl, h⟩
        exact absurd h (not_le.mpr hinf)
    · by_cases hv : e.valid n.value state = true
      · simp [hv]
      · simp only [hv, Bool.false_eq_true, if_false, false_and, and_false, false_iff]
        rintro ⟨_, _, rfl, h⟩
        exact absurd h (not_le.mpr hinf)
  constructor
  · rintro ⟨nb, hnb, h⟩
    obtain ⟨i, n, a1, _, a3, _⟩ := hl nb hnb
    have hv : HasValue g nb.index n.value := ⟨i, n, a1, a3, rfl⟩
    exact ⟨nb, hnb, n.value, hv, (key nb hnb _ hv).mpr h⟩
  · rintro ⟨nb, hnb, b, hb, h⟩
    exact ⟨nb, hnb, (key nb hnb b hb).mp h⟩

/-- C40: a provider that names a node at or above the bound is caught before anything is changed. -/
theorem C40_bad_neighbour_throws (e : Env V C) (state : V) (dir : Dir) (maxNode : Int) (g : Graph V C)
    (hbad : ∀ r, e.knn g.length (getNode g) state e.K dir maxNode r → ∃ l, r = .ok l ∧ ∃ nb ∈ l,
      (g.length : Int) ≤ nb.index ∨ maxNode ≤ nb.index) (r : Graph V C × Res Int)
    (hr : AddNodeRun graphOps e state dir maxNode g r) : r = (g, .throw .runtimeError) := by
  have key : ∀ r, KnnQuery e.knn (graphOps.size g) (graphOps.get g) state e.K dir maxNode r → r = .throw .runtimeError := by
    rintro r ⟨r0, h, rfl⟩
    obtain ⟨l, rfl, nb, hnb, hb⟩ := hbad r0 h
    have : sanityCheck l (graphOps.size g) maxNode = .throw .runtimeError := by
      unfold sanityCheck
      rw [if_pos]
      refine List.any_eq_true.mpr ⟨nb, hnb, ?_⟩
      simpa [graphOps] using hb
    rw [Res.ok_bind, this, Res.throw_bind]
  cases hr with
  | knnThrows h => cases key _ h; rfl
  | knnUb h => cases key _ h
  | duplicate h => cases key _ h
  | added h => cases key _ h

end CRU.Prm
