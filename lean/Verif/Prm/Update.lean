import Verif.Prm.Linear
/-
  C41, second part: `UpdateRoadMapEdges`.
-/
namespace CRU.Prm
open CRU.Graph CRU.Knn CRU.Parallel CRU.GraphSearch

variable {V C : Type} [LinearOrder C] [OrderTop C]

/-- The weight an edge from state `a` to state `b` should have: the distance if the edge is valid, else infinity. -/
def freshWeight (valid : V → V → Bool) (dist : V → V → C) (a b : V) : C := if valid a b = true then dist a b else ⊤

/-- `e'` is `e` up to the weight. -/
def SameButWeight (e e' : Edge C) : Prop := e'.src = e.src ∧ e'.dst = e.dst ∧ e'.scratch = e.scratch

/-- The roadmap `g'` is `g` with every edge, in both lists, carrying the fresh weight of its two states. -/
def Reweighted (valid : V → V → Bool) (dist : V → V → C) (g g' : Graph V C) : Prop :=
  g'.length = g.length ∧ ∀ (i : Nat) (n : Node V C), g[i]? = some n → ∃ n', g'[i]? = some n' ∧ n'.value = n.value ∧
    List.Forall₂ (fun e e' => SameButWeight e e' ∧ ∃ b, HasValue g e.dst b ∧ e'.weight = freshWeight valid dist n.value b)
      n.outs n'.outs ∧
    List.Forall₂ (fun e e' => SameButWeight e e' ∧ ∃ a, HasValue g e.src a ∧ e'.weight = freshWeight valid dist a n.value)
      n.ins n'.ins

/-! ### Weights that are old or fresh -/

def canonOut (W : Int → Int → C) (i : Int) (e : Edge C) : Edge C := { e with weight := W i e.dst }
def canonIn (W : Int → Int → C) (i : Int) (e : Edge C) : Edge C := { e with weight := W e.src i }

/-- `g'` is `g` with some weights made fresh. -/
def Fresher (W : Int → Int → C) (g g' : Graph V C) : Prop :=
  g'.length = g.length ∧ ∀ (i : Nat) (n : Node V C), g[i]? = some n → ∃ n', g'[i]? = some n' ∧ n'.value = n.value ∧
    List.Forall₂ (fun e e' => e' = e ∨ e' = canonOut W i e) n.outs n'.outs ∧
    List.Forall₂ (fun e e' => e' = e ∨ e' = canonIn W i e) n.ins n'.ins

omit [LinearOrder C] [OrderTop C] in
theorem forall₂_refl {α : Type} {R : α → α → Prop} (h : ∀ a, R a a) (l : List α) : List.Forall₂ R l l := by
  induction l with
  | nil => exact .nil
  | cons a l ih => exact .cons (h a) ih

omit [LinearOrder C] [OrderTop C] in
theorem forall₂_trans {α : Type} {R S T : α → α → Prop} (h : ∀ a b c, R a b → S b c → T a c) {l m k : List α}
    (h1 : List.Forall₂ R l m) (h2 : List.Forall₂ S m k) : List.Forall₂ T l k := by
  induction h1 generalizing k with
  | nil => cases h2; exact .nil
  | cons h3 _ ih => cases h2 with | cons h4 h5 => exact .cons (h _ _ _ h3 h4) (ih h5)

omit [LinearOrder C] [OrderTop C] in
theorem oldOrFresh (f : Edge C → Edge C) (l : List (Edge C)) : List.Forall₂ (fun e e' => e' = e ∨ e' = f e) l l :=
  forall₂_refl (R := fun e e' => e' = e ∨ e' = f e) (fun _ => Or.inl rfl) l

omit [LinearOrder C] [OrderTop C] in
theorem Fresher.refl (W : Int → Int → C) (g : Graph V C) : Fresher W g g :=
  ⟨rfl, fun _ n hn => ⟨n, hn, rfl, oldOrFresh _ _, oldOrFresh _ _⟩⟩

omit [LinearOrder C] [OrderTop C] in
theorem Fresher.trans {W : Int → Int → C} {g g' g'' : Graph V C} (h : Fresher W g g') (h' : Fresher W g' g'') :
    Fresher W g g'' := by
  refine ⟨h'.1.trans h.1, fun i n hn => ?_⟩
  obtain ⟨n1, a1, a2, a3, a4⟩ := h.2 i n hn
  obtain ⟨n2, b1, b2, b3, b4⟩ := h'.2 i n1 a1
  refine ⟨n2, b1, b2.trans a2, forall₂_trans ?_ a3 b3, forall₂_trans ?_ a4 b4⟩
  · rintro a b c (rfl | rfl) (rfl | rfl)
    · exact Or.inl rfl
    · exact Or.inr rfl
    · exact Or.inr rfl
    · exact Or.inr rfl
  · rintro a b c (rfl | rfl) (rfl | rfl)
    · exact Or.inl rfl
    · exact Or.inr rfl
    · exact Or.inr rfl
    · exact Or.inr rfl

/-- The `k`-th out-edge of node `i` is fresh. -/
def DoneOut (W : Int → Int → C) (g : Graph V C) (i k : Nat) : Prop :=
  ∀ (n : Node V C) (e : Edge C), g[i]? = some n → n.outs[k]? = some e → e = canonOut W i e

/-- The in-edges of node `j` coming from node `i` are fresh. -/
def DoneIn (W : Int → Int → C) (g : Graph V C) (i j : Nat) : Prop :=
  ∀ (n : Node V C) (e : Edge C), g[j]? = some n → e ∈ n.ins → e.src = i → e = canonIn W j e

omit [LinearOrder C] [OrderTop C] in
theorem forall₂_get {α β : Type} {R : α → β → Prop} {l : List α} {m : List β} (h : List.Forall₂ R l m) {k : Nat} {b : β}
    (hk : m[k]? = some b) : ∃ a, l[k]? = some a ∧ R a b := by
  induction h generalizing k with
  | nil => simp at hk
  | cons h1 _ ih =>
    cases k with
    | zero => simp only [List.getElem?_cons_zero, Option.some.injEq] at hk; subst hk; exact ⟨_, rfl, h1⟩
    | succ k => simpa using ih (by simpa using hk)

omit [LinearOrder C] [OrderTop C] in
theorem Fresher.node {W : Int → Int → C} {g g' : Graph V C} (h : Fresher W g g') {i : Nat} {n' : Node V C}
    (hn : g'[i]? = some n') : ∃ n, g[i]? = some n ∧ n'.value = n.value ∧
      List.Forall₂ (fun e e' => e' = e ∨ e' = canonOut W i e) n.outs n'.outs ∧
      List.Forall₂ (fun e e' => e' = e ∨ e' = canonIn W i e) n.ins n'.ins := by
  obtain ⟨hi, _⟩ := List.getElem?_eq_some_iff.mp hn
  have hi' : i < g.length := by have := h.1; omega
  obtain ⟨m, a1, a2⟩ := h.2 i g[i] (List.getElem?_eq_getElem hi')
  rw [hn] at a1; cases a1
  exact ⟨g[i], List.getElem?_eq_getElem hi', a2⟩

omit [LinearOrder C] [OrderTop C] in
theorem Fresher.doneOut {W : Int → Int → C} {g g' : Graph V C} (h : Fresher W g g') {i k : Nat} (hd : DoneOut W g i k) :
    DoneOut W g' i k := by
  intro n' e' hn' he'
  obtain ⟨n, hn, _, h2, _⟩ := h.node hn'
  obtain ⟨e, he, h3⟩ := forall₂_get h2 he'
  have := hd n e hn he
  rcases h3 with rfl | rfl
  · exact this
  · rfl

omit [LinearOrder C] [OrderTop C] in
theorem Fresher.doneIn {W : Int → Int → C} {g g' : Graph V C} (h : Fresher W g g') {i j : Nat} (hd : DoneIn W g i j) :
    DoneIn W g' i j := by
  intro n' e' hn' he' hs
  obtain ⟨n, hn, _, _, h2⟩ := h.node hn'
  obtain ⟨k, hk⟩ := List.getElem?_of_mem he'
  obtain ⟨e, he, h3⟩ := forall₂_get h2 hk
  rcases h3 with rfl | rfl
  · exact hd n _ hn (List.mem_of_getElem? he) hs
  · rfl

/-! ### One edge -/

/-- The fresh weight between two node indices. -/
def freshW (valid : V → V → Bool) (dist : V → V → C) (g0 : Graph V C) (i j : Int) : C :=
  match g0[i.toNat]?, g0[j.toNat]? with
  | some n, some m => updatedWeight valid dist n.value m.value
  | _, _ => ⊤

omit [LinearOrder C] [OrderTop C] in
theorem forall₂_modify {W : Int → Int → C} {i : Int} (l : List (Edge C)) (k : Nat) (w : C)
    (hw : ∀ e, l[k]? = some e → w = W i e.dst) :
    List.Forall₂ (fun e e' => e' = e ∨ e' = canonOut W i e) l (l.modify k fun x => { x with weight := w }) := by
  induction l generalizing k with
  | nil => cases k <;> exact .nil
  | cons a l ih =>
    cases k with
    | zero =>
      refine .cons (Or.inr ?_) (oldOrFresh _ _)
      unfold canonOut
      rw [hw a rfl]
    | succ k => exact .cons (Or.inl rfl) (ih k (fun e he => hw e (by simpa using he)))

omit [LinearOrder C] [OrderTop C] in
theorem forall₂_map_if {W : Int → Int → C} {i j : Int} (l : List (Edge C)) (w : C) (hw : w = W i j) :
    List.Forall₂ (fun e e' => e' = e ∨ e' = canonIn W j e) l
      (l.map fun x => if x.src = i then { x with weight := w } else x) := by
  induction l with
  | nil => exact .nil
  | cons a l ih =>
    refine .cons ?_ ih
    dsimp only
    split
    · rename_i h
      right
      unfold canonIn
      rw [hw, h]
    · exact Or.inl rfl

theorem updateEdge_ok (valid : V → V → Bool) (dist : V → V → C) (g0 g : Graph V C) (hv : ValidLinkage g0)
    (hf : Fresher (freshW valid dist g0) g0 g) (i k : Nat) (n0 : Node V C) (hn0 : g0[i]? = some n0) (hk : k < n0.outs.length) :
    ∃ g' j, updateEdge valid dist (i : Int) k g = .ok g' ∧ Fresher (freshW valid dist g0) g g' ∧
      DoneOut (freshW valid dist g0) g' i k ∧ (∃ e, n0.outs[k]? = some e ∧ e.dst = (j : Nat)) ∧ DoneIn (freshW valid dist g0) g' i j := by
  obtain ⟨n, hn, hval, ho, hin⟩ := hf.2 i n0 hn0
  obtain ⟨hig, hin'⟩ := List.getElem?_eq_some_iff.mp hn
  have hlen : n.outs.length = n0.outs.length := ho.length_eq.symm
  have hkn : k < n.outs.length := by omega
  obtain ⟨e0, he0, h3⟩ := forall₂_get ho (List.getElem?_eq_getElem hkn)
  have hdst : n.outs[k].dst = e0.dst := by rcases h3 with h | h <;> rw [h]; rfl
  obtain ⟨hsrc, j, m0, hj, hji, hm0, _⟩ := (hv i n0 hn0).2 e0 (List.mem_of_getElem? he0)
  obtain ⟨m, hm, hmval, _, _⟩ := hf.2 j m0 hm0
  obtain ⟨hjg, hjm⟩ := List.getElem?_eq_some_iff.mp hm
  have hw : updatedWeight valid dist n.value m.value = freshW valid dist g0 (i : Int) (j : Int) := by
    unfold freshW
    rw [Int.toNat_natCast, Int.toNat_natCast, hn0, hm0, hval, hmval]
  let w := freshW valid dist g0 (i : Int) (j : Int)
  let fo : Node V C → Node V C := fun n => { n with outs := n.outs.modify k fun x => { x with weight := w } }
  let fi : Node V C → Node V C := fun n => { n with ins := n.ins.map fun x => if x.src = (i : Int) then { x with weight := w } else x }
  let upd : Nat → Node V C → Node V C := fun a n =>
    ⟨n.value, if a = j then n.ins.map (fun x => if x.src = (i : Int) then { x with weight := w } else x) else n.ins,
      if a = i then n.outs.modify k (fun x => { x with weight := w }) else n.outs⟩
  have hget : ∀ a, ((g.modify i fo).modify j fi)[a]? = g[a]?.map (upd a) := by
    intro a
    rw [List.getElem?_modify, List.getElem?_modify]
    cases g[a]? with
    | none => rfl
    | some x =>
    show some _ = some _
    congr 1
    by_cases h1 : i = a
    · have h2 : ¬ j = a := by omega
      have h2' : ¬ a = j := fun h => h2 h.symm
      simp [h1, h2, h2', fo, upd]
    · by_cases h2 : j = a
      · have h1' : ¬ a = i := fun h => h1 h.symm
        simp [h1, h2, h1', fi, upd]
      · have h1' : ¬ a = i := fun h => h1 h.symm
        have h2' : ¬ a = j := fun h => h2 h.symm
        simp [h1, h2, h1', h2', upd]
  refine ⟨(g.modify i fo).modify j fi, j, ?_, ?_, ?_, ⟨e0, he0, hj⟩, ?_⟩
  · unfold updateEdge
    have hgi : getNode g (i : Int) = .ok n := by rw [getNode_ok g i hig, hin']
    have hgj : getNode g (j : Int) = .ok m := by rw [getNode_ok g j hjg, hjm]
    have hat : atRaw n.outs k = .ok n.outs[k] := by unfold atRaw; rw [List.getElem?_eq_getElem hkn]
    rw [hgi, Res.ok_bind, hat, Res.ok_bind, hdst, hj, hgj, Res.ok_bind, hw, Int.toNat_natCast, Int.toNat_natCast, Res.pure_eq]
  · refine ⟨by simp, fun a x hx => ⟨upd a x, by rw [hget, hx]; rfl, rfl, ?_, ?_⟩⟩
    · dsimp only [upd]
      split
      · rename_i h
        subst h
        rw [hn] at hx; cases hx
        apply forall₂_modify
        intro e he
        rw [List.getElem?_eq_getElem hkn] at he
        cases he
        rw [hdst, hj]
      · exact oldOrFresh _ _
    · dsimp only [upd]
      split
      · rename_i h
        subst h
        exact forall₂_map_if _ _ rfl
      · exact oldOrFresh _ _
  · intro x e hx he
    rw [hget, hn] at hx
    simp only [Option.map_some, Option.some.injEq] at hx
    subst hx
    simp only [upd, if_true] at he
    rw [List.getElem?_modify, List.getElem?_eq_getElem hkn] at he
    simp only [if_true, Option.map_eq_map, Option.map_some, Option.some.injEq] at he
    subst he
    unfold canonOut
    dsimp only
    rw [hdst, hj]
  · intro x e hx he hs
    rw [hget, hm] at hx
    simp only [Option.map_some, Option.some.injEq] at hx
    subst hx
    simp only [upd, if_true] at he
    obtain ⟨y, hy, rfl⟩ := List.mem_map.mp he
    by_cases h : y.src = (i : Int)
    · rw [if_pos h]
      unfold canonIn
      dsimp only
      rw [h]
    · rw [if_neg h] at hs
      exact absurd hs h

/-! ### One node, all nodes -/

/-- Node `i` is finished: its out-edges are fresh, and so are the in-edges that come from it. -/
def DoneNode (W : Int → Int → C) (g : Graph V C) (i : Nat) : Prop := (∀ k, DoneOut W g i k) ∧ ∀ j, DoneIn W g i j

theorem forEachEdge_ok (valid : V → V → Bool) (dist : V → V → C) (g0 : Graph V C) (hv : ValidLinkage g0) (i : Nat)
    (n0 : Node V C) (hn0 : g0[i]? = some n0) (ks : List Nat) (hks : ∀ k ∈ ks, k < n0.outs.length) (g : Graph V C)
    (hf : Fresher (freshW valid dist g0) g0 g) :
    ∃ g', forEach (updateEdge valid dist (i : Int)) ks g = .ok g' ∧ Fresher (freshW valid dist g0) g g' ∧
      ∀ k ∈ ks, DoneOut (freshW valid dist g0) g' i k ∧
        ∀ e (j : Nat), n0.outs[k]? = some e → e.dst = j → DoneIn (freshW valid dist g0) g' i j := by
  induction ks generalizing g with
  | nil => exact ⟨g, rfl, Fresher.refl _ _, fun k hk => by cases hk⟩
  | cons k ks ih =>
    obtain ⟨g1, j, a1, a2, a3, ⟨e, he, hej⟩, a5⟩ := updateEdge_ok valid dist g0 g hv hf i k n0 hn0 (hks k (by simp))
    obtain ⟨g2, b1, b2, b3⟩ := ih (fun k hk => hks k (by simp [hk])) g1 (hf.trans a2)
    refine ⟨g2, by unfold forEach; rw [a1, Res.ok_bind]; exact b1, a2.trans b2, fun k' hk' => ?_⟩
    rcases List.mem_cons.mp hk' with rfl | hk'
    · refine ⟨b2.doneOut a3, fun e' j' he' hj' => ?_⟩
      rw [he] at he'; cases he'
      obtain rfl : j' = j := by have := hj'.symm.trans hej; exact_mod_cast this
      exact b2.doneIn a5
    · exact b3 k' hk'

omit [LinearOrder C] [OrderTop C] in
theorem Fresher.srcs {W : Int → Int → C} {g g' : Graph V C} (h : Fresher W g g') {i : Nat} {n' : Node V C} {e' : Edge C}
    (hn : g'[i]? = some n') (he : e' ∈ n'.ins) : ∃ n e, g[i]? = some n ∧ e ∈ n.ins ∧ e.src = e'.src := by
  obtain ⟨n, hn, _, _, h2⟩ := h.node hn
  obtain ⟨k, hk⟩ := List.getElem?_of_mem he
  obtain ⟨e, he, h3⟩ := forall₂_get h2 hk
  refine ⟨n, e, hn, List.mem_of_getElem? he, ?_⟩
  rcases h3 with rfl | rfl <;> rfl

theorem updateNode_ok (valid : V → V → Bool) (dist : V → V → C) (g0 : Graph V C) (hv : ValidLinkage g0) (i : Nat)
    (hi : i < g0.length) (g : Graph V C) (hf : Fresher (freshW valid dist g0) g0 g) :
    ∃ g', updateNode valid dist (i : Int) g = .ok g' ∧ Fresher (freshW valid dist g0) g g' ∧
      DoneNode (freshW valid dist g0) g' i := by
  have hn0 := List.getElem?_eq_getElem hi
  obtain ⟨n, hn, _, ho, _⟩ := hf.2 i _ hn0
  obtain ⟨hig, hgi⟩ := List.getElem?_eq_some_iff.mp hn
  have hlen : n.outs.length = g0[i].outs.length := ho.length_eq.symm
  obtain ⟨g', a1, a2, a3⟩ := forEachEdge_ok valid dist g0 hv i _ hn0 (List.range n.outs.length)
    (fun k hk => by rw [List.mem_range] at hk; omega) g hf
  refine ⟨g', ?_, a2, ?_, ?_⟩
  · unfold updateNode
    rw [getNode_ok g i hig, hgi, Res.ok_bind]
    exact a1
  · intro k x e hx he
    have hfin := hf.trans a2
    obtain ⟨n1, c1, _, c2, _⟩ := hfin.node hx
    obtain ⟨e0, he0, _⟩ := forall₂_get c2 he
    rw [hn0] at c1; cases c1
    obtain ⟨hk, _⟩ := List.getElem?_eq_some_iff.mp he0
    exact (a3 k (List.mem_range.mpr (by omega))).1 x e hx he
  · intro j x e hx he hs
    have hfin := hf.trans a2
    obtain ⟨m0, e0, hm0, he0, hs0⟩ := hfin.srcs hx he
    obtain ⟨_, i', n0', d1, d2, d3, e', he', hd⟩ := (hv j m0 hm0).1 e0 he0
    obtain rfl : i' = i := by
      have : (i' : Int) = i := by rw [← d1, hs0, hs]
      exact_mod_cast this
    rw [hn0] at d3; cases d3
    obtain ⟨k, hk⟩ := List.getElem?_of_mem he'
    obtain ⟨hk', _⟩ := List.getElem?_eq_some_iff.mp hk
    exact (a3 k (List.mem_range.mpr (by omega))).2 e' j hk hd x e hx he hs

theorem forEachNode_ok (valid : V → V → Bool) (dist : V → V → C) (g0 : Graph V C) (hv : ValidLinkage g0) (is : List Int)
    (his : ∀ i ∈ is, 0 ≤ i ∧ i < g0.length) (g : Graph V C) (hf : Fresher (freshW valid dist g0) g0 g) :
    ∃ g', forEach (updateNode valid dist) is g = .ok g' ∧ Fresher (freshW valid dist g0) g g' ∧
      ∀ i : Nat, (i : Int) ∈ is → DoneNode (freshW valid dist g0) g' i := by
  induction is generalizing g with
  | nil => exact ⟨g, rfl, Fresher.refl _ _, fun i hi => by cases hi⟩
  | cons i is ih =>
    obtain ⟨h0, h1⟩ := his i (by simp)
    obtain ⟨i, rfl⟩ := Int.eq_ofNat_of_zero_le h0
    obtain ⟨g1, a1, a2, a3⟩ := updateNode_ok valid dist g0 hv i (by omega) g hf
    obtain ⟨g2, b1, b2, b3⟩ := ih (fun i hi => his i (by simp [hi])) g1 (hf.trans a2)
    refine ⟨g2, by unfold forEach; rw [a1, Res.ok_bind]; exact b1, a2.trans b2, fun k hk => ?_⟩
    rcases List.mem_cons.mp hk with h | h
    · obtain rfl : k = i := by exact_mod_cast h
      exact ⟨fun k => b2.doneOut (a3.1 k), fun j => b2.doneIn (a3.2 j)⟩
    · exact b3 k h

theorem freshW_eq (valid : V → V → Bool) (dist : V → V → C) (g : Graph V C) (i j : Nat) (n m : Node V C) (hn : g[i]? = some n)
    (hm : g[j]? = some m) : freshW valid dist g (i : Int) (j : Int) = freshWeight valid dist n.value m.value := by
  unfold freshW freshWeight updatedWeight
  rw [Int.toNat_natCast, Int.toNat_natCast, hn, hm]

theorem reweighted_of_done (valid : V → V → Bool) (dist : V → V → C) (g g' : Graph V C) (hv : ValidLinkage g)
    (hf : Fresher (freshW valid dist g) g g') (hd : ∀ i : Nat, i < g.length → DoneNode (freshW valid dist g) g' i) :
    Reweighted valid dist g g' := by
  refine ⟨hf.1, fun i n hn => ?_⟩
  obtain ⟨n', a1, a2, a3, a4⟩ := hf.2 i n hn
  obtain ⟨hi, _⟩ := List.getElem?_eq_some_iff.mp hn
  refine ⟨n', a1, a2, ?_, ?_⟩
  · rw [List.forall₂_iff_get] at a3 ⊢
    refine ⟨a3.1, fun k h1 h2 => ?_⟩
    have h3 := a3.2 k h1 h2
    have h4 := (hd i hi).1 k n' _ a1 (List.getElem?_eq_getElem h2)
    obtain ⟨_, j, m, hj, _, hm, _⟩ := (hv i n hn).2 n.outs[k] (List.getElem_mem h1)
    simp only [List.get_eq_getElem] at h3 ⊢
    have h5 : n'.outs[k] = canonOut (freshW valid dist g) i n.outs[k] := by
      rcases h3 with h | h
      · rw [h4, h]
      · exact h
    refine ⟨?_, m.value, ⟨j, m, hj, hm, rfl⟩, ?_⟩
    · rw [h5]; exact ⟨rfl, rfl, rfl⟩
    · rw [h5]
      show freshW valid dist g i n.outs[k].dst = _
      rw [hj, freshW_eq valid dist g i j n m hn hm]
  · rw [List.forall₂_iff_get] at a4 ⊢
    refine ⟨a4.1, fun k h1 h2 => ?_⟩
    have h3 := a4.2 k h1 h2
    obtain ⟨_, j, m, hj, _, hm, _⟩ := (hv i n hn).1 n.ins[k] (List.getElem_mem h1)
    simp only [List.get_eq_getElem] at h3 ⊢
    obtain ⟨hjl, _⟩ := List.getElem?_eq_some_iff.mp hm
    have hs : n'.ins[k].src = n.ins[k].src := by rcases h3 with h | h <;> rw [h]; rfl
    have h4 := (hd j hjl).2 i n' n'.ins[k] a1 (List.getElem_mem h2) (by rw [hs, hj])
    have h5 : n'.ins[k] = canonIn (freshW valid dist g) i n.ins[k] := by
      rcases h3 with h | h
      · rw [h4, h]
      · exact h
    refine ⟨?_, m.value, ⟨j, m, hj, hm, rfl⟩, ?_⟩
    · rw [h5]; exact ⟨rfl, rfl, rfl⟩
    · rw [h5]
      show freshW valid dist g n.ins[k].src i = _
      rw [hj, freshW_eq valid dist g j i m n hm hn]

/-- C41: `UpdateRoadMapEdges` on a roadmap with valid linkage succeeds for every number of threads and every schedule and
gives every edge, in both the out-edge list of its start and the in-edge list of its end, the distance of its two states
if the edge is valid and infinity otherwise; nothing else changes, so the result does not depend on the schedule. -/
theorem C41_update_edges (valid : V → V → Bool) (dist : V → V → C) (b : Backend) (threads : Int) (g : Graph V C)
    (hv : ValidLinkage g) (hth : InI64 threads) (hsz : InI64 g.length) (r : Res (Graph V C))
    (hr : UpdateRun valid dist b threads g r) : ∃ g', r = .ok g' ∧ Reweighted valid dist g g' := by
  obtain ⟨bb, h1, h2⟩ := checkLinkage_ok g
  have hbb := h2.mpr hv
  subst hbb
  unfold UpdateRun at hr
  rw [h1] at hr
  dsimp only at hr
  obtain ⟨order, ho, rfl⟩ := hr
  have hp := ho.perm (by unfold InI64; omega) hsz hth (by simpa using hsz) (by omega)
  obtain ⟨g', a1, a2, a3⟩ := forEachNode_ok valid dist g hv order
    (fun i hi => by have := mem_irange.mp (hp.mem_iff.mp hi); omega) g (Fresher.refl _ _)
  exact ⟨g', a1, reweighted_of_done valid dist g g' hv a2
    (fun i hi => a3 i (hp.mem_iff.mpr (mem_irange.mpr (by omega))))⟩

/-- C41: the result is determined, whatever the schedule. -/
theorem C41_update_deterministic (valid : V → V → Bool) (dist : V → V → C) (g a b : Graph V C) (hv : ValidLinkage g)
    (ha : Reweighted valid dist g a) (hb : Reweighted valid dist g b) : a = b := by
  apply List.ext_getElem (by rw [ha.1, hb.1])
  intro i h1 h2
  have hi : i < g.length := by have := ha.1; omega
  have hn := List.getElem?_eq_getElem hi
  obtain ⟨n1, a1, a2, a3, a4⟩ := ha.2 i _ hn
  obtain ⟨n2, b1, b2, b3, b4⟩ := hb.2 i _ hn
  rw [List.getElem?_eq_getElem h1] at a1
  rw [List.getElem?_eq_getElem h2] at b1
  cases a1; cases b1
  have hval : ∀ u x y, HasValue g u x → HasValue g u y → x = y := by
    rintro u x y ⟨k, n, rfl, c1, rfl⟩ ⟨k', n', d0, d1, rfl⟩
    obtain rfl : k = k' := by exact_mod_cast d0
    rw [c1] at d1; cases d1; rfl
  have ho : a[i].outs = b[i].outs := by
    rw [List.forall₂_iff_get] at a3 b3
    apply List.ext_getElem (by rw [← a3.1, ← b3.1])
    intro k k1 k2
    obtain ⟨⟨c1, c2, c3⟩, x, c4, c5⟩ := a3.2 k (by have := a3.1; omega) k1
    obtain ⟨⟨d1, d2, d3⟩, y, d4, d5⟩ := b3.2 k (by have := a3.1; omega) k2
    simp only [List.get_eq_getElem] at *
    cases hval _ x y c4 d4
    generalize a[i].outs[k] = p at *
    generalize b[i].outs[k] = q at *
    obtain ⟨p1, p2, p3, p4⟩ := p
    obtain ⟨q1, q2, q3, q4⟩ := q
    simp only at *
    rw [c1, c2, c3, c5, d1, d2, d3, d5]
  have hin : a[i].ins = b[i].ins := by
    rw [List.forall₂_iff_get] at a4 b4
    apply List.ext_getElem (by rw [← a4.1, ← b4.1])
    intro k k1 k2
    obtain ⟨⟨c1, c2, c3⟩, x, c4, c5⟩ := a4.2 k (by have := a4.1; omega) k1
    obtain ⟨⟨d1, d2, d3⟩, y, d4, d5⟩ := b4.2 k (by have := a4.1; omega) k2
    simp only [List.get_eq_getElem] at *
    cases hval _ x y c4 d4
    generalize a[i].ins[k] = p at *
    generalize b[i].ins[k] = q at *
    obtain ⟨p1, p2, p3, p4⟩ := p
    obtain ⟨q1, q2, q3, q4⟩ := q
    simp only at *
    rw [c1, c2, c3, c5, d1, d2, d3, d5]
  generalize a[i] = p at *
  generalize b[i] = q at *
  obtain ⟨p1, p2, p3⟩ := p
  obtain ⟨q1, q2, q3⟩ := q
  simp only at *
  rw [a2, b2, ho, hin]

/-- C41: linkage stays valid. -/
theorem C41_update_keeps_linkage (valid : V → V → Bool) (dist : V → V → C) (g g' : Graph V C) (hv : ValidLinkage g)
    (h : Reweighted valid dist g g') : ValidLinkage g' := by
  have hnode : ∀ (i : Nat) (n' : Node V C), g'[i]? = some n' → ∃ n, g[i]? = some n ∧
      List.Forall₂ SameButWeight n.outs n'.outs ∧ List.Forall₂ SameButWeight n.ins n'.ins := by
    intro i n' hn'
    obtain ⟨hi, _⟩ := List.getElem?_eq_some_iff.mp hn'
    have hi' : i < g.length := by have := h.1; omega
    obtain ⟨m, a1, _, a3, a4⟩ := h.2 i g[i] (List.getElem?_eq_getElem hi')
    rw [hn'] at a1; cases a1
    exact ⟨g[i], List.getElem?_eq_getElem hi', a3.imp fun _ _ h => h.1, a4.imp fun _ _ h => h.1⟩
  have hback : ∀ (l l' : List (Edge C)) (e' : Edge C), List.Forall₂ SameButWeight l l' → e' ∈ l' →
      ∃ e ∈ l, e'.src = e.src ∧ e'.dst = e.dst := by
    intro l l' e' hl he
    obtain ⟨k, hk⟩ := List.getElem?_of_mem he
    obtain ⟨e, he, h⟩ := forall₂_get hl hk
    exact ⟨e, List.mem_of_getElem? he, h.1, h.2.1⟩
  have hforth : ∀ (l l' : List (Edge C)) (e : Edge C), List.Forall₂ SameButWeight l l' → e ∈ l →
      ∃ e' ∈ l', e'.src = e.src ∧ e'.dst = e.dst := by
    intro l l' e hl he
    obtain ⟨k, hk⟩ := List.getElem?_of_mem he
    obtain ⟨e', he', h⟩ := forall₂_get hl.flip hk
    exact ⟨e', List.mem_of_getElem? he', h.1, h.2.1⟩
  intro i n' hn'
  obtain ⟨n, hn, ho, hi⟩ := hnode i n' hn'
  constructor
  · intro e' he'
    obtain ⟨e, he, h1, h2⟩ := hback _ _ e' hi he'
    obtain ⟨a1, j, m, a2, a3, a4, f, hf, hfd⟩ := (hv i n hn).1 e he
    obtain ⟨m', b1, _, b2, _⟩ := h.2 j m a4
    obtain ⟨f', hf', _, hfd'⟩ := hforth _ _ f (b2.imp fun _ _ h => h.1) hf
    exact ⟨h2.trans a1, j, m', h1.trans a2, a3, b1, f', hf', hfd'.trans hfd⟩
  · intro e' he'
    obtain ⟨e, he, h1, h2⟩ := hback _ _ e' ho he'
    obtain ⟨a1, j, m, a2, a3, a4, f, hf, hfd⟩ := (hv i n hn).2 e he
    obtain ⟨m', b1, _, _, b2⟩ := h.2 j m a4
    obtain ⟨f', hf', hfd', _⟩ := hforth _ _ f (b2.imp fun _ _ h => h.1) hf
    exact ⟨h1.trans a1, j, m', h2.trans a2, a3, b1, f', hf', hfd'.trans hfd⟩

/-- C41: a roadmap without valid linkage is refused. -/
theorem C41_update_refuses_bad_linkage (valid : V → V → Bool) (dist : V → V → C) (b : Backend) (threads : Int) (g : Graph V C)
    (hv : ¬ ValidLinkage g) (r : Res (Graph V C)) (hr : UpdateRun valid dist b threads g r) : r = .throw .invalidArgument := by
  obtain ⟨bb, h1, h2⟩ := checkLinkage_ok g
  have hbb : bb = false := by
    cases bb with
    | true => exact absurd (h2.mp rfl) hv
    | false => rfl
  subst hbb
  unfold UpdateRun at hr
  rw [h1] at hr
  exact hr

/-- C41: runs exist for every roadmap. -/
theorem C41_update_runs_exist (valid : V → V → Bool) (dist : V → V → C) (b : Backend) (threads : Int) (g : Graph V C)
    (hth : InI64 threads) (hsz : InI64 g.length) : ∃ r, UpdateRun valid dist b threads g r := by
  obtain ⟨bb, h1, _⟩ := checkLinkage_ok g
  unfold UpdateRun
  rw [h1]
  cases bb with
  | true =>
    obtain ⟨order, ho⟩ := IndexRun.exists b threads 0 g.length (by unfold InI64; omega) hsz hth (by simpa using hsz) (by omega)
    exact ⟨_, order, ho, rfl⟩
  | false => exact ⟨_, rfl⟩

/-- A concrete case: two states, edges both ways, only moving up is valid now: the edge down gets infinite weight in both lists. -/
example : ∃ g', UpdateRun (fun a b : Int => decide (a ≤ b)) (fun a b => ((b - a).natAbs : ENat)) .async 2
    [⟨0, [⟨1, 0, 1, 0⟩], [⟨0, 1, 1, 0⟩]⟩, ⟨5, [⟨0, 1, 1, 0⟩], [⟨1, 0, 1, 0⟩]⟩] (.ok g') ∧
    g' = [⟨0, [⟨1, 0, ⊤, 0⟩], [⟨0, 1, 5, 0⟩]⟩, ⟨5, [⟨0, 1, 5, 0⟩], [⟨1, 0, ⊤, 0⟩]⟩] := by
  refine ⟨_, ⟨[0, 1], ⟨[[⟨0, 0⟩], [⟨1, 1⟩]], [⟨0, 0⟩, ⟨1, 1⟩], rfl, ?_, rfl⟩, rfl⟩, rfl⟩
  exact .step 0 _ [] _ rfl (.step 1 _ [] [] rfl (.done (by simp)))

end CRU.Prm
