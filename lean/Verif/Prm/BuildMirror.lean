import Verif.Prm.BuildConnect
/-
  The pass of `BuildRoadMap` that makes the edge lists agree.
-/
namespace CRU.Prm
open CRU.Graph CRU.Knn CRU.Parallel CRU.GraphSearch

variable {V C : Type} [Zero C]

/-- Node `b` lists an edge coming in from node `a`. -/
def HasIn (g : Graph V C) (a b : Nat) : Prop := ∃ n, g[b]? = some n ∧ ∃ x ∈ n.ins, x.src = (a : Int)

/-- Node `a` lists an edge going out to node `b`. -/
def HasOut (g : Graph V C) (a b : Nat) : Prop := ∃ n, g[a]? = some n ∧ ∃ x ∈ n.outs, x.dst = (b : Int)

/-- Edges are the ones allowed by `ok`, with weight `wt`, no two alike in one list. -/
def Canon (ok : Nat → Nat → Prop) (wt : Nat → Nat → C) (g : Graph V C) : Prop :=
  ∀ (i : Nat) (n : Node V C), g[i]? = some n →
    (∀ x ∈ n.ins, ∃ j, ok j i ∧ x = ⟨j, i, wt j i, 0⟩) ∧ (n.ins.map (·.src)).Nodup ∧
    (∀ x ∈ n.outs, ∃ j, ok i j ∧ x = ⟨i, j, wt i j, 0⟩) ∧ (n.outs.map (·.dst)).Nodup

variable {ok : Nat → Nat → Prop} {wt : Nat → Nat → C}

omit [Zero C] in
theorem any_dst {l : List (Edge C)} {i : Nat} : (l.any fun x => decide (x.dst = (i : Int))) = true ↔ ∃ x ∈ l, x.dst = (i : Int) := by
  simp [List.any_eq_true]

omit [Zero C] in
theorem any_src {l : List (Edge C)} {i : Nat} : (l.any fun x => decide (x.src = (i : Int))) = true ↔ ∃ x ∈ l, x.src = (i : Int) := by
  simp [List.any_eq_true]

theorem mirrorIn_ok (g : Graph V C) (vals : List V) (hg : Holds g vals) (hc : Canon ok wt g)
    (hok : ∀ a b, ok a b → a < vals.length ∧ b < vals.length ∧ a ≠ b) (i j : Nat) (hij : ok j i) :
    ∃ g', mirrorIn (i : Int) ⟨j, i, wt j i, 0⟩ g = .ok g' ∧ Holds g' vals ∧ Canon ok wt g' ∧
      (∀ a b, HasIn g' a b ↔ HasIn g a b) ∧ ∀ a b, HasOut g' a b ↔ HasOut g a b ∨ (b = i ∧ a = j) := by
  obtain ⟨hj, hi, hne⟩ := hok j i hij
  obtain ⟨n, hn, hget, -⟩ := hg.getNode (List.getElem?_eq_getElem hj)
  unfold mirrorIn
  dsimp only
  rw [hget, Res.ok_bind]
  by_cases hany : (n.outs.any fun x => decide (x.dst = (i : Int))) = true
  · rw [if_pos hany]
    refine ⟨g, rfl, hg, hc, fun a b => Iff.rfl, fun a b => ⟨Or.inl, ?_⟩⟩
    rintro (h | ⟨rfl, rfl⟩)
    · exact h
    · exact ⟨n, hn, any_dst.mp hany⟩
  · rw [if_neg hany]
    refine ⟨extend g j [] [⟨j, i, wt j i, 0⟩], by rw [← pushOut_eq]; rfl, extend_holds hg _ _ _, ?_, ?_, ?_⟩
    · intro k m hm
      rw [extend_get] at hm
      obtain ⟨m0, hm0, rfl⟩ := Option.map_eq_some_iff.mp hm
      obtain ⟨c1, c2, c3, c4⟩ := hc k m0 hm0
      split
      · rename_i hjk
        subst hjk
        rw [hn] at hm0
        cases hm0
        refine ⟨by simpa using c1, by simpa using c2, ?_, ?_⟩
        · intro x hx
          rcases List.mem_append.mp hx with hx | hx
          · exact c3 x hx
          · simp only [List.mem_singleton] at hx
            exact ⟨i, hij, hx⟩
        · rw [List.map_append, List.nodup_append]
          refine ⟨c4, by simp, ?_⟩
          intro a ha b hb hab
          simp only [List.map_cons, List.map_nil, List.mem_singleton] at hb
          subst hab
          obtain ⟨x, hx, rfl⟩ := List.mem_map.mp ha
          exact hany (any_dst.mpr ⟨x, hx, hb⟩)
      · exact ⟨c1, c2, c3, c4⟩
    · intro a b
      unfold HasIn
      rw [extend_get]
      cases g[b]? with
      | none => simp
      | some m =>
        simp only [Option.map_some, Option.some.injEq, exists_eq_left']
        split
        · simp
        · rfl
    · intro a b
      unfold HasOut
      rw [extend_get]
      by_cases hja : j = a
      · subst hja
        rw [hn]
        simp only [Option.map_some, Option.some.injEq, exists_eq_left', if_true, List.mem_append, List.mem_singleton, and_true]
        constructor
        · rintro ⟨x, hx | hx, h⟩
          · exact Or.inl ⟨x, hx, h⟩
          · subst hx
            exact Or.inr (by simpa using h.symm)
        · rintro (⟨x, hx, h⟩ | rfl)
          · exact ⟨x, Or.inl hx, h⟩
          · exact ⟨_, Or.inr rfl, rfl⟩
      · simp only [hja, if_false]
        have : ¬ a = j := fun h => hja h.symm
        simp [this]

theorem mirrorOut_ok (g : Graph V C) (vals : List V) (hg : Holds g vals) (hc : Canon ok wt g)
    (hok : ∀ a b, ok a b → a < vals.length ∧ b < vals.length ∧ a ≠ b) (i j : Nat) (hij : ok i j) :
    ∃ g', mirrorOut (i : Int) ⟨i, j, wt i j, 0⟩ g = .ok g' ∧ Holds g' vals ∧ Canon ok wt g' ∧
      (∀ a b, HasOut g' a b ↔ HasOut g a b) ∧ ∀ a b, HasIn g' a b ↔ HasIn g a b ∨ (a = i ∧ b = j) := by
  obtain ⟨hi, hj, hne⟩ := hok i j hij
  obtain ⟨n, hn, hget, -⟩ := hg.getNode (List.getElem?_eq_getElem hj)
  unfold mirrorOut
  dsimp only
  rw [hget, Res.ok_bind]
  by_cases hany : (n.ins.any fun x => decide (x.src = (i : Int))) = true
  · rw [if_pos hany]
    refine ⟨g, rfl, hg, hc, fun a b => Iff.rfl, fun a b => ⟨Or.inl, ?_⟩⟩
    rintro (h | ⟨rfl, rfl⟩)
    · exact h
    · exact ⟨n, hn, any_src.mp hany⟩
  · rw [if_neg hany]
    refine ⟨extend g j [⟨i, j, wt i j, 0⟩] [], by rw [← pushIn_eq]; rfl, extend_holds hg _ _ _, ?_, ?_, ?_⟩
    · intro k m hm
      rw [extend_get] at hm
      obtain ⟨m0, hm0, rfl⟩ := Option.map_eq_some_iff.mp hm
      obtain ⟨c1, c2, c3, c4⟩ := hc k m0 hm0
      split
      · rename_i hjk
        subst hjk
        rw [hn] at hm0
        cases hm0
        refine ⟨?_, ?_, by simpa using c3, by simpa using c4⟩
        · intro x hx
          rcases List.mem_append.mp hx with hx | hx
          · exact c1 x hx
          · simp only [List.mem_singleton] at hx
            exact ⟨i, hij, hx⟩
        · rw [List.map_append, List.nodup_append]
          refine ⟨c2, by simp, ?_⟩
          intro a ha b hb hab
          simp only [List.map_cons, List.map_nil, List.mem_singleton] at hb
          subst hab
          obtain ⟨x, hx, rfl⟩ := List.mem_map.mp ha
          exact hany (any_src.mpr ⟨x, hx, hb⟩)
      · exact ⟨c1, c2, c3, c4⟩
    · intro a b
      unfold HasOut
      rw [extend_get]
      cases g[a]? with
      | none => simp
      | some m =>
        simp only [Option.map_some, Option.some.injEq, exists_eq_left']
        split
        · simp
        · rfl
    · intro a b
      unfold HasIn
      rw [extend_get]
      by_cases hja : j = b
      · subst hja
        rw [hn]
        simp only [Option.map_some, Option.some.injEq, exists_eq_left', if_true, List.mem_append, List.mem_singleton, and_true]
        constructor
        · rintro ⟨x, hx | hx, h⟩
          · exact Or.inl ⟨x, hx, h⟩
          · subst hx
            exact Or.inr (by simpa using h.symm)
        · rintro (⟨x, hx, h⟩ | rfl)
          · exact ⟨x, Or.inl hx, h⟩
          · exact ⟨_, Or.inr rfl, rfl⟩
      · simp only [hja, if_false]
        have : ¬ b = j := fun h => hja h.symm
        simp [this]

theorem forEach_mirrorIn (vals : List V) (hok : ∀ a b, ok a b → a < vals.length ∧ b < vals.length ∧ a ≠ b) (i : Nat)
    (l : List (Edge C)) (hl : ∀ x ∈ l, ∃ j, ok j i ∧ x = ⟨j, i, wt j i, 0⟩) (g : Graph V C) (hg : Holds g vals) (hc : Canon ok wt g) :
    ∃ g', forEach (mirrorIn (i : Int)) l g = .ok g' ∧ Holds g' vals ∧ Canon ok wt g' ∧
      (∀ a b, HasIn g' a b ↔ HasIn g a b) ∧ ∀ a b : Nat, HasOut g' a b ↔ HasOut g a b ∨ (b = i ∧ ∃ x ∈ l, x.src = (a : Int)) := by
  induction l generalizing g with
  | nil => exact ⟨g, rfl, hg, hc, fun a b => Iff.rfl, fun a b => by simp⟩
  | cons x l ih =>
    obtain ⟨j, hj, rfl⟩ := hl x (by simp)
    obtain ⟨g1, a1, a2, a3, a4, a5⟩ := mirrorIn_ok g vals hg hc hok i j hj
    obtain ⟨g', b1, b2, b3, b4, b5⟩ := ih (fun y hy => hl y (by simp [hy])) g1 a2 a3
    refine ⟨g', ?_, b2, b3, fun a b => (b4 a b).trans (a4 a b), fun a b => ?_⟩
    · unfold forEach
      rw [a1, Res.ok_bind, b1]
    · rw [b5, a5]
      simp only [List.mem_cons, exists_eq_or_imp, Nat.cast_inj]
      constructor
      · rintro ((h | ⟨rfl, rfl⟩) | ⟨rfl, h⟩)
        · exact Or.inl h
        · exact Or.inr ⟨rfl, Or.inl rfl⟩
        · exact Or.inr ⟨rfl, Or.inr h⟩
      · rintro (h | ⟨rfl, rfl | h⟩)
        · exact Or.inl (Or.inl h)
        · exact Or.inl (Or.inr ⟨rfl, rfl⟩)
        · exact Or.inr ⟨rfl, h⟩

theorem forEach_mirrorOut (vals : List V) (hok : ∀ a b, ok a b → a < vals.length ∧ b < vals.length ∧ a ≠ b) (i : Nat)
    (l : List (Edge C)) (hl : ∀ x ∈ l, ∃ j, ok i j ∧ x = ⟨i, j, wt i j, 0⟩) (g : Graph V C) (hg : Holds g vals) (hc : Canon ok wt g) :
    ∃ g', forEach (mirrorOut (i : Int)) l g = .ok g' ∧ Holds g' vals ∧ Canon ok wt g' ∧
      (∀ a b, HasOut g' a b ↔ HasOut g a b) ∧ ∀ a b : Nat, HasIn g' a b ↔ HasIn g a b ∨ (a = i ∧ ∃ x ∈ l, x.dst = (b : Int)) := by
  induction l generalizing g with
  | nil => exact ⟨g, rfl, hg, hc, fun a b => Iff.rfl, fun a b => by simp⟩
  | cons x l ih =>
    obtain ⟨j, hj, rfl⟩ := hl x (by simp)
    obtain ⟨g1, a1, a2, a3, a4, a5⟩ := mirrorOut_ok g vals hg hc hok i j hj
    obtain ⟨g', b1, b2, b3, b4, b5⟩ := ih (fun y hy => hl y (by simp [hy])) g1 a2 a3
    refine ⟨g', ?_, b2, b3, fun a b => (b4 a b).trans (a4 a b), fun a b => ?_⟩
    · unfold forEach
      rw [a1, Res.ok_bind, b1]
    · rw [b5, a5]
      simp only [List.mem_cons, exists_eq_or_imp, Nat.cast_inj]
      constructor
      · rintro ((h | ⟨rfl, rfl⟩) | ⟨rfl, h⟩)
        · exact Or.inl h
        · exact Or.inr ⟨rfl, Or.inl rfl⟩
        · exact Or.inr ⟨rfl, Or.inr h⟩
      · rintro (h | ⟨rfl, rfl | h⟩)
        · exact Or.inl (Or.inl h)
        · exact Or.inl (Or.inr ⟨rfl, rfl⟩)
        · exact Or.inr ⟨rfl, h⟩

theorem mirrorNode_ok (vals : List V) (hok : ∀ a b, ok a b → a < vals.length ∧ b < vals.length ∧ a ≠ b) (i : Nat)
    (hi : i < vals.length) (g : Graph V C) (hg : Holds g vals) (hc : Canon ok wt g) :
    ∃ g', mirrorNode (i : Int) g = .ok g' ∧ Holds g' vals ∧ Canon ok wt g' ∧
      (∀ a b, HasOut g' a b ↔ HasOut g a b ∨ (b = i ∧ HasIn g a b)) ∧
      ∀ a b, HasIn g' a b ↔ HasIn g a b ∨ (a = i ∧ HasOut g a b) := by
  obtain ⟨n, hn, hget, -⟩ := hg.getNode (List.getElem?_eq_getElem hi)
  obtain ⟨g1, a1, a2, a3, a4, a5⟩ := forEach_mirrorIn vals hok i n.ins (hc i n hn).1 g hg hc
  obtain ⟨n1, hn1, hget1, -⟩ := a2.getNode (List.getElem?_eq_getElem hi)
  obtain ⟨g', b1, b2, b3, b4, b5⟩ := forEach_mirrorOut vals hok i n1.outs (a3 i n1 hn1).2.2.1 g1 a2 a3
  refine ⟨g', ?_, b2, b3, fun a b => ?_, fun a b => ?_⟩
  · unfold mirrorNode
    rw [hget, Res.ok_bind, a1, Res.ok_bind, hget1, Res.ok_bind, b1]
  · rw [b4, a5]
    constructor
    · rintro (h | ⟨rfl, h⟩)
      · exact Or.inl h
      · exact Or.inr ⟨rfl, n, hn, h⟩
    · rintro (h | ⟨rfl, m, hm, h⟩)
      · exact Or.inl h
      · rw [hn] at hm
        cases hm
        exact Or.inr ⟨rfl, h⟩
  · rw [b5, a4]
    constructor
    · rintro (h | ⟨rfl, h⟩)
      · exact Or.inl h
      · have : HasOut g1 a b := ⟨n1, hn1, h⟩
        rcases (a5 a b).mp this with h | ⟨rfl, x, hx, hxs⟩
        · exact Or.inr ⟨rfl, h⟩
        · exact Or.inl ⟨n, hn, x, hx, hxs⟩
    · rintro (h | ⟨rfl, h⟩)
      · exact Or.inl h
      · obtain ⟨m, hm, h'⟩ := (a5 a b).mpr (Or.inl h)
        rw [hn1] at hm
        cases hm
        exact Or.inr ⟨rfl, h'⟩

/-- The whole pass. -/
theorem mirrorAll_ok (vals : List V) (hok : ∀ a b, ok a b → a < vals.length ∧ b < vals.length ∧ a ≠ b) (l : List Int)
    (hl : ∀ i ∈ l, 0 ≤ i ∧ i < vals.length) (g : Graph V C) (hg : Holds g vals) (hc : Canon ok wt g) :
    ∃ g', forEach mirrorNode l g = .ok g' ∧ Holds g' vals ∧ Canon ok wt g' ∧
      (∀ a b : Nat, HasOut g' a b ↔ HasOut g a b ∨ ((b : Int) ∈ l ∧ HasIn g a b)) ∧
      ∀ a b : Nat, HasIn g' a b ↔ HasIn g a b ∨ ((a : Int) ∈ l ∧ HasOut g a b) := by
  induction l generalizing g with
  | nil => exact ⟨g, rfl, hg, hc, fun a b => by simp, fun a b => by simp⟩
  | cons i l ih =>
    obtain ⟨h0, h1⟩ := hl i (by simp)
    obtain ⟨k, rfl⟩ := Int.eq_ofNat_of_zero_le h0
    obtain ⟨g1, a1, a2, a3, a4, a5⟩ := mirrorNode_ok vals hok k (by omega) g hg hc
    obtain ⟨g', b1, b2, b3, b4, b5⟩ := ih (fun j hj => hl j (by simp [hj])) g1 a2 a3
    refine ⟨g', ?_, b2, b3, fun a b => ?_, fun a b => ?_⟩
    · unfold forEach
      rw [a1, Res.ok_bind, b1]
    · rw [b4, a4, a5]
      simp only [List.mem_cons, Nat.cast_inj]
      tauto
    · rw [b5, a4, a5]
      simp only [List.mem_cons, Nat.cast_inj]
      tauto

omit [Zero C] in
theorem filter_single {l : List (Edge C)} (f : Edge C → Int) (hnd : (l.map f).Nodup) (v : Int) {x : Edge C} (hx : x ∈ l)
    (hv : f x = v) : l.filter (fun y => f y = v) = [x] := by
  induction l with
  | nil => cases hx
  | cons y l ih =>
    rw [List.map_cons, List.nodup_cons] at hnd
    rcases List.mem_cons.mp hx with rfl | hx
    · rw [List.filter_cons_of_pos (by simpa using hv)]
      congr 1
      rw [List.filter_eq_nil_iff]
      intro z hz hzv
      apply hnd.1
      rw [hv, ← (by simpa using hzv : f z = v)]
      exact List.mem_map_of_mem hz
    · rw [List.filter_cons_of_neg]
      · exact ih hnd.2 hx
      · intro h
        apply hnd.1
        rw [(by simpa using h : f y = v), ← hv]
        exact List.mem_map_of_mem hx

theorem canon_mirrored {vals : List V} (hok : ∀ a b, ok a b → a < vals.length ∧ b < vals.length ∧ a ≠ b) {g : Graph V C}
    (hg : Holds g vals) (hc : Canon ok wt g) (hm : ∀ a b, HasOut g a b ↔ HasIn g a b) : Mirrored g := by
  constructor
  · intro i n hn
    obtain ⟨c1, c2, c3, c4⟩ := hc i n hn
    constructor
    · intro x hx
      obtain ⟨j, hj, rfl⟩ := c1 x hx
      obtain ⟨h1, h2, h3⟩ := hok _ _ hj
      exact ⟨rfl, j, rfl, h3, by rw [hg.length]; exact h1⟩
    · intro x hx
      obtain ⟨j, hj, rfl⟩ := c3 x hx
      obtain ⟨h1, h2, h3⟩ := hok _ _ hj
      exact ⟨rfl, j, rfl, h3.symm, by rw [hg.length]; exact h2⟩
  · intro i j n m hn hm'
    obtain ⟨-, -, c3, c4⟩ := hc i n hn
    obtain ⟨d1, d2, -, -⟩ := hc j m hm'
    by_cases h : HasOut g i j
    · have h' := (hm i j).mp h
      obtain ⟨n', hn', x, hx, hxd⟩ := h
      rw [hn] at hn'; cases hn'
      obtain ⟨m', hm2, y, hy, hys⟩ := h'
      rw [hm'] at hm2; cases hm2
      rw [filter_single (·.dst) c4 _ hx hxd, filter_single (·.src) d2 _ hy hys]
      obtain ⟨a, -, rfl⟩ := c3 x hx
      obtain ⟨b, -, rfl⟩ := d1 y hy
      simp only [Nat.cast_inj] at hxd hys
      subst hxd hys
      rfl
    · have h' := fun h' => h ((hm i j).mpr h')
      rw [List.filter_eq_nil_iff.mpr, List.filter_eq_nil_iff.mpr]
      · intro y hy hys
        exact h' ⟨m, hm', y, hy, by simpa using hys⟩
      · intro y hy hys
        exact h ⟨n, hn, y, hy, by simpa using hys⟩

theorem canon_outEdge {g : Graph V C} (hc : Canon ok wt g) (u v : Int) (w : C) :
    OutEdge g u v w ↔ ∃ i j : Nat, u = i ∧ v = j ∧ HasOut g i j ∧ w = wt i j := by
  constructor
  · rintro ⟨i, n, rfl, hn, x, hx, rfl, rfl⟩
    obtain ⟨j, -, rfl⟩ := (hc i n hn).2.2.1 x hx
    exact ⟨i, j, rfl, rfl, ⟨n, hn, _, hx, rfl⟩, rfl⟩
  · rintro ⟨i, j, rfl, rfl, ⟨n, hn, x, hx, hxd⟩, rfl⟩
    obtain ⟨k, -, rfl⟩ := (hc i n hn).2.2.1 x hx
    simp only [Nat.cast_inj] at hxd
    subst hxd
    exact ⟨i, n, rfl, hn, _, hx, rfl, rfl⟩

end CRU.Prm
