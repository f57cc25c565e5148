import Verif.Graph.Lemmas
namespace CRU.Graph
open CRU.Ser CRU.Parallel

variable {V W : Type}

/-- The overlay answers like the plain graph `g`. -/
structure Rel (o : Overlay V W) (g : Graph V W) : Prop where
  size : o.size = g.length
  get : ∀ i, o.get i = getNode g i

theorem getNode_isOk {g : Graph V W} {i : Int} {n : Node V W} (h : getNode g i = .ok n) : 0 ≤ i ∧ i < g.length := by
  by_contra hc
  rw [getNode_none g i hc] at h
  cases h

theorem Rel.mk' (g : Graph V W) : Rel (mkOverlay g) g := ⟨rfl, fun _ => rfl⟩

theorem Rel.over_size {o : Overlay V W} {g : Graph V W} (h : Rel o g) : o.over o.size = none := by
  cases hc : o.over o.size with
  | none => rfl
  | some n =>
    have := h.get o.size
    unfold Overlay.get at this
    rw [hc] at this
    have := getNode_isOk this.symm
    rw [h.size] at this
    omega

theorem get_put (o : Overlay V W) (i : Int) (n : Node V W) (j : Int) :
    (o.put i n).get j = if j = i then .ok n else o.get j := by
  unfold Overlay.get Overlay.put
  by_cases h : j = i <;> simp [h]

theorem getMut_spec (o : Overlay V W) (i : Int) :
    (∀ j, (o.getMut i).1.get j = o.get j) ∧ (o.getMut i).1.size = o.size ∧ (o.getMut i).1.base = o.base ∧
      (o.getMut i).2 = o.get i ∧ (∀ n, o.get i = .ok n → (o.getMut i).1.over i = some n) ∧
      (∀ j m, o.over j = some m → (o.getMut i).1.over j = some m) := by
  unfold Overlay.getMut
  cases h : o.over i with
  | some n =>
    refine ⟨fun _ => rfl, rfl, rfl, by simp [Overlay.get, h], ?_, fun _ _ hm => hm⟩
    intro m hm
    simp only [Overlay.get, h, Res.ok.injEq] at hm
    simp [h, hm]
  | none =>
    have hg : o.get i = getNode o.base i := by simp [Overlay.get, h]
    cases hb : getNode o.base i with
    | ok n =>
      rw [hb] at hg
      refine ⟨?_, rfl, rfl, by rw [hg], ?_, ?_⟩
      · intro j
        simp only []
        rw [get_put]
        split
        · rename_i hj; rw [hj, hg]
        · rfl
      · intro m hm
        rw [hg] at hm
        cases hm
        simp [Overlay.put]
      · intro j m hm
        have : j ≠ i := by rintro rfl; rw [h] at hm; cases hm
        simp [Overlay.put, this, hm]
    | throw e => exact ⟨fun _ => rfl, rfl, rfl, by rw [hg, hb], fun m hm => (by rw [hg, hb] at hm; cases hm), fun _ _ hm => hm⟩
    | ub => exact ⟨fun _ => rfl, rfl, rfl, by rw [hg, hb], fun m hm => (by rw [hg, hb] at hm; cases hm), fun _ _ hm => hm⟩

theorem get_pushIn (o : Overlay V W) (i : Int) (e : Edge W) (hi : ∃ n, o.over i = some n) (j : Int) :
    (o.pushIn i e).get j = if j = i then (fun n : Node V W => { n with ins := n.ins ++ [e] }) <$> o.get j else o.get j := by
  obtain ⟨n, hn⟩ := hi
  by_cases h : j = i
  · subst h; simp [Overlay.get, Overlay.pushIn, hn]
  · simp [Overlay.get, Overlay.pushIn, h]

theorem get_pushOut (o : Overlay V W) (i : Int) (e : Edge W) (hi : ∃ n, o.over i = some n) (j : Int) :
    (o.pushOut i e).get j = if j = i then (fun n : Node V W => { n with outs := n.outs ++ [e] }) <$> o.get j else o.get j := by
  obtain ⟨n, hn⟩ := hi
  by_cases h : j = i
  · subst h; simp [Overlay.get, Overlay.pushOut, hn]
  · simp [Overlay.get, Overlay.pushOut, h]

theorem over_pushIn (o : Overlay V W) (i j : Int) (e : Edge W) (hi : ∃ n, o.over j = some n) :
    ∃ n, (o.pushIn i e).over j = some n := by
  obtain ⟨n, hn⟩ := hi
  by_cases h : j = i
  · subst h; simp [Overlay.pushIn, hn]
  · simp [Overlay.pushIn, h, hn]

theorem over_pushOut (o : Overlay V W) (i j : Int) (e : Edge W) (hi : ∃ n, o.over j = some n) :
    ∃ n, (o.pushOut i e).over j = some n := by
  obtain ⟨n, hn⟩ := hi
  by_cases h : j = i
  · subst h; simp [Overlay.pushOut, hn]
  · simp [Overlay.pushOut, h, hn]

theorem getNode_modify (g : Graph V W) (i : Nat) (f : Node V W → Node V W) (j : Int) :
    getNode (g.modify i f) j = if j = i then f <$> getNode g j else getNode g j := by
  rw [getNode_eq, getNode_eq, List.getElem?_modify]
  by_cases h0 : 0 ≤ j
  · rw [if_pos h0, if_pos h0]
    by_cases h : j = i
    · subst h
      rw [if_pos rfl]
      simp only [Int.toNat_natCast, if_true]
      cases g[i]? <;> rfl
    · rw [if_neg h]
      have : i ≠ j.toNat := by omega
      cases hg : g[j.toNat]? <;> simp [this]
  · rw [if_neg h0, if_neg h0, if_neg (by omega)]

theorem Rel.pushOut {o : Overlay V W} {g : Graph V W} (h : Rel o g) (i : Nat) (e : Edge W)
    (hi : ∃ n, o.over i = some n) : Rel (o.pushOut i e) (pushOut g i e) := by
  refine ⟨by simp [Overlay.pushOut, Graph.pushOut, h.size], fun j => ?_⟩
  rw [get_pushOut o i e hi, CRU.Graph.pushOut, Int.toNat_natCast, getNode_modify, h.get]

theorem Rel.pushIn {o : Overlay V W} {g : Graph V W} (h : Rel o g) (i : Nat) (e : Edge W)
    (hi : ∃ n, o.over i = some n) : Rel (o.pushIn i e) (pushIn g i e) := by
  refine ⟨by simp [Overlay.pushIn, Graph.pushIn, h.size], fun j => ?_⟩
  rw [get_pushIn o i e hi, CRU.Graph.pushIn, Int.toNat_natCast, getNode_modify, h.get]

theorem Rel.getMut {o : Overlay V W} {g : Graph V W} (h : Rel o g) (i : Int) : Rel (o.getMut i).1 g :=
  ⟨by rw [(getMut_spec o i).2.1, h.size], fun j => by rw [(getMut_spec o i).1, h.get]⟩

/-- Migrating two existing nodes. -/
theorem Rel.migrate {o : Overlay V W} {g : Graph V W} (h : Rel o g) (s d : Nat) (hs : s < g.length) (hd : d < g.length) :
    ∃ o1 o2 n m, o.getMut s = (o1, .ok n) ∧ o1.getMut d = (o2, .ok m) ∧ Rel o2 g ∧ o2.base = o.base ∧
      (∃ n, o2.over s = some n) ∧ (∃ n, o2.over d = some n) := by
  have a1 := getMut_spec o s
  have e1 : o.get s = .ok g[s] := by rw [h.get, getNode_ok g s hs]
  have a2 := getMut_spec (o.getMut s).1 d
  have e2 : (o.getMut s).1.get d = .ok g[d] := by rw [a1.1, h.get, getNode_ok g d hd]
  refine ⟨(o.getMut s).1, ((o.getMut s).1.getMut d).1, g[s], g[d], ?_, ?_, ?_, ?_, ?_, ?_⟩
  · exact Prod.ext rfl (by rw [a1.2.2.2.1, e1])
  · exact Prod.ext rfl (by rw [a2.2.2.2.1, e2])
  · exact (h.getMut s).getMut d
  · rw [a2.2.2.1, a1.2.2.1]
  · exact ⟨_, a2.2.2.2.2.2 _ _ (a1.2.2.2.2.1 _ e1)⟩
  · exact ⟨_, a2.2.2.2.2.1 _ e2⟩

theorem indexInRange_iff (size i : Int) : indexInRange size i = true ↔ 0 ≤ i ∧ i < size := by
  simp [indexInRange]

theorem Rel.addEdge {o : Overlay V W} {g : Graph V W} (h : Rel o g) (s d : Int) (w : W) :
    Rel (o.addEdge s d w).1 (addEdge g s d w).1 ∧ (o.addEdge s d w).1.base = o.base ∧
      (((o.addEdge s d w).2 = .ok () ∧ (addEdge g s d w).2 = .ok ()) ∨
        (∃ e e', (o.addEdge s d w).2 = .throw e ∧ (addEdge g s d w).2 = .throw e')) := by
  rw [addEdge_eq]
  unfold Overlay.addEdge
  by_cases heq : s = d
  · rw [if_pos heq]
    split
    · exact ⟨h, rfl, .inr ⟨_, _, rfl, rfl⟩⟩
    · exact ⟨h, rfl, .inr ⟨_, _, rfl, rfl⟩⟩
  · rw [if_neg heq]
    by_cases hr : 0 ≤ s ∧ s < g.length ∧ 0 ≤ d ∧ d < g.length
    · rw [if_pos hr, if_neg heq]
      have h1 := (indexInRange_iff o.size s).mpr ⟨hr.1, by rw [h.size]; exact hr.2.1⟩
      have h2 := (indexInRange_iff o.size d).mpr ⟨hr.2.2.1, by rw [h.size]; exact hr.2.2.2⟩
      rw [h1, h2]
      obtain ⟨s', rfl⟩ := Int.eq_ofNat_of_zero_le hr.1
      obtain ⟨d', rfl⟩ := Int.eq_ofNat_of_zero_le hr.2.2.1
      obtain ⟨o1, o2, n, m, e1, e2, hR, hb, hs, hd⟩ := h.migrate s' d' (by omega) (by omega)
      rw [e1]
      rw [if_neg (show ¬ (!true || !true) = true by decide)]
      dsimp only
      rw [e2]
      refine ⟨?_, hb, .inl ⟨rfl, rfl⟩⟩
      unfold link
      exact (hR.pushOut s' _ hs).pushIn d' _ (over_pushOut _ _ _ _ hd)
    · rw [if_neg hr]
      have : (!indexInRange o.size s || !indexInRange o.size d) = true := by
        by_contra hc
        simp only [Bool.or_eq_true, Bool.not_eq_true', not_or, Bool.not_eq_false] at hc
        rw [indexInRange_iff, indexInRange_iff, h.size] at hc
        omega
      rw [if_pos this]
      exact ⟨h, rfl, .inr ⟨_, _, rfl, rfl⟩⟩

theorem Rel.addEdges {o : Overlay V W} {g : Graph V W} (h : Rel o g) (s d : Int) (w : W) :
    Rel (o.addEdges s d w).1 (addEdges g s d w).1 ∧ (o.addEdges s d w).1.base = o.base ∧
      (((o.addEdges s d w).2 = .ok () ∧ (addEdges g s d w).2 = .ok ()) ∨
        (∃ e e', (o.addEdges s d w).2 = .throw e ∧ (addEdges g s d w).2 = .throw e')) := by
  rw [addEdges_eq]
  unfold Overlay.addEdges
  by_cases heq : s = d
  · rw [if_pos heq]
    split
    · exact ⟨h, rfl, .inr ⟨_, _, rfl, rfl⟩⟩
    · exact ⟨h, rfl, .inr ⟨_, _, rfl, rfl⟩⟩
  · rw [if_neg heq]
    by_cases hr : 0 ≤ s ∧ s < g.length ∧ 0 ≤ d ∧ d < g.length
    · rw [if_pos hr, if_neg heq]
      have h1 := (indexInRange_iff o.size s).mpr ⟨hr.1, by rw [h.size]; exact hr.2.1⟩
      have h2 := (indexInRange_iff o.size d).mpr ⟨hr.2.2.1, by rw [h.size]; exact hr.2.2.2⟩
      rw [h1, h2]
      obtain ⟨s', rfl⟩ := Int.eq_ofNat_of_zero_le hr.1
      obtain ⟨d', rfl⟩ := Int.eq_ofNat_of_zero_le hr.2.2.1
      obtain ⟨o1, o2, n, m, e1, e2, hR, hb, hs, hd⟩ := h.migrate s' d' (by omega) (by omega)
      rw [e1]
      rw [if_neg (show ¬ (!true || !true) = true by decide)]
      dsimp only
      rw [e2]
      refine ⟨?_, hb, .inl ⟨rfl, rfl⟩⟩
      unfold link
      have hs1 := over_pushIn _ (d' : Int) (s' : Int) (⟨s', d', w, 0⟩ : Edge W) (over_pushOut _ (s' : Int) (s' : Int) (⟨s', d', w, 0⟩ : Edge W) hs)
      have hd1 := over_pushIn _ (d' : Int) (d' : Int) (⟨s', d', w, 0⟩ : Edge W) (over_pushOut _ (s' : Int) (d' : Int) (⟨s', d', w, 0⟩ : Edge W) hd)
      exact (((hR.pushOut s' _ hs).pushIn d' _ (over_pushOut _ _ _ _ hd)).pushOut d' _ hd1).pushIn s' _
        (over_pushOut _ _ _ _ hs1)
    · rw [if_neg hr]
      have : (!indexInRange o.size s || !indexInRange o.size d) = true := by
        by_contra hc
        simp only [Bool.or_eq_true, Bool.not_eq_true', not_or, Bool.not_eq_false] at hc
        rw [indexInRange_iff, indexInRange_iff, h.size] at hc
        omega
      rw [if_pos this]
      exact ⟨h, rfl, .inr ⟨_, _, rfl, rfl⟩⟩

theorem Rel.addNode {o : Overlay V W} {g : Graph V W} (h : Rel o g) (n : Node V W) :
    Rel (o.addNode n).1 (addNode g n).1 ∧ (o.addNode n).1.base = o.base ∧ (o.addNode n).2 = (addNode g n).2 := by
  unfold Overlay.addNode CRU.Graph.addNode
  rw [h.over_size]
  refine ⟨⟨by simp [h.size], ?_⟩, rfl, by simp [h.size]⟩
  intro j
  show (o.put o.size n).get j = _
  rw [get_put, getNode_eq, h.get, getNode_eq, h.size]
  by_cases h0 : 0 ≤ j
  · rw [if_pos h0, if_pos h0, List.getElem?_append]
    by_cases hj : j = g.length
    · rw [if_pos hj, if_neg (by omega)]
      simp [hj]
    · rw [if_neg hj]
      by_cases hl : j.toNat < g.length
      · rw [if_pos hl]
      · rw [if_neg hl, List.getElem?_eq_none (by omega), List.getElem?_eq_none (by simp; omega)]
  · rw [if_neg h0, if_neg h0, if_neg (by omega)]

theorem Rel.mutate {o : Overlay V W} {g : Graph V W} (h : Rel o g) (i : Int) (f : Node V W → Node V W) :
    Rel (o.mutate i f).1 (mutate g i f).1 ∧ (o.mutate i f).1.base = o.base ∧
      (((o.mutate i f).2 = .ok () ∧ (mutate g i f).2 = .ok ()) ∨
        (∃ e e', (o.mutate i f).2 = .throw e ∧ (mutate g i f).2 = .throw e')) := by
  have hs := getMut_spec o i
  unfold Overlay.mutate CRU.Graph.mutate
  have hg := h.get i
  cases hm : o.getMut i with
  | mk o1 r =>
    rw [hm] at hs
    simp only at hs
    have hr : r = getNode g i := by rw [hs.2.2.2.1, hg]
    by_cases hin : 0 ≤ i ∧ i < g.length
    · obtain ⟨k, rfl⟩ := Int.eq_ofNat_of_zero_le hin.1
      have hk : k < g.length := by omega
      rw [getNode_ok g k hk] at hr ⊢
      subst hr
      refine ⟨⟨?_, ?_⟩, hs.2.2.1, .inl ⟨rfl, rfl⟩⟩
      · show o1.size = _
        rw [hs.2.1, h.size]; simp
      · intro j
        rw [get_put, hs.1, h.get, getNode_eq (g.set _ _), getNode_eq g, Int.toNat_natCast, List.getElem?_set]
        by_cases h0 : 0 ≤ j
        · rw [if_pos h0, if_pos h0]
          by_cases hj : j = k
          · subst hj; simp [hk]
          · rw [if_neg hj, if_neg (by omega)]
        · rw [if_neg h0, if_neg h0, if_neg (by omega)]
    · rw [getNode_none g i hin] at hr ⊢
      subst hr
      exact ⟨⟨by rw [hs.2.1, h.size], fun j => by rw [hs.1, h.get]⟩, hs.2.2.1, .inr ⟨_, _, rfl, rfl⟩⟩

theorem Rel.checkLinkage {o : Overlay V W} {g : Graph V W} (h : Rel o g) :
    checkLinkage o.size o.get = checkLinkage g.length (getNode g) := by
  have : o.get = getNode g := funext h.get
  rw [h.size, this]

end CRU.Graph
