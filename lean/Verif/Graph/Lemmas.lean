import Verif.Graph.Model
namespace CRU.Graph
open CRU.Ser CRU.Parallel

variable {V W : Type}

/-- The effect of linking `src` to `dst`. -/
def link (g : Graph V W) (src dst : Nat) (w : W) : Graph V W :=
  pushIn (pushOut g src ⟨src, dst, w, 0⟩) dst ⟨src, dst, w, 0⟩

theorem length_link (g : Graph V W) (s d : Nat) (w : W) : (link g s d w).length = g.length := by
  simp [link, pushIn, pushOut]

theorem link_get (g : Graph V W) (s d : Nat) (w : W) (k : Nat) :
    (link g s d w)[k]? = g[k]?.map fun n =>
      { value := n.value
        ins := if k = d then n.ins ++ [⟨s, d, w, 0⟩] else n.ins
        outs := if k = s then n.outs ++ [⟨s, d, w, 0⟩] else n.outs } := by
  simp only [link, pushIn, pushOut, List.getElem?_modify, Int.toNat_natCast]
  cases g[k]? with
  | none => simp
  | some n =>
    simp only [Option.map_some, Option.map_eq_map]
    by_cases h1 : s = k <;> by_cases h2 : d = k <;> simp [h1, h2, eq_comm]

theorem getNode_ok (g : Graph V W) (i : Nat) (h : i < g.length) : getNode g (i : Int) = .ok g[i] := by
  have := atInt_ok g (i : Int) (by omega) (by simpa using h)
  simpa [getNode] using this

theorem getNode_none (g : Graph V W) (i : Int) (h : ¬ (0 ≤ i ∧ i < g.length)) : getNode g i = .throw .outOfRange :=
  atInt_none g i (by omega)

theorem getNode_eq (g : Graph V W) (i : Int) :
    getNode g i = if 0 ≤ i then (match g[i.toNat]? with | some n => .ok n | none => .throw .outOfRange)
      else .throw .outOfRange := by
  unfold getNode atInt atChecked
  by_cases h : i < 0
  · rw [if_pos h, if_neg (by omega)]
  · rw [if_neg h, if_pos (by omega)]
    cases g[i.toNat]? <;> rfl

/-- When `AddEdgeBetweenNodes` succeeds, and what it does then. -/
theorem addEdge_eq (g : Graph V W) (s d : Int) (w : W) :
    addEdge g s d w =
      if 0 ≤ s ∧ s < g.length ∧ 0 ≤ d ∧ d < g.length then
        (if s = d then (g, .throw .invalidArgument) else (link g s.toNat d.toNat w, .ok ()))
      else (g, .throw .outOfRange) := by
  unfold addEdge
  by_cases hs : 0 ≤ s ∧ s < g.length
  · obtain ⟨s', rfl⟩ := Int.eq_ofNat_of_zero_le hs.1
    rw [getNode_ok g s' (by omega)]
    by_cases hd : 0 ≤ d ∧ d < g.length
    · obtain ⟨d', rfl⟩ := Int.eq_ofNat_of_zero_le hd.1
      rw [getNode_ok g d' (by omega)]
      simp only
      rw [if_pos (show 0 ≤ (s' : Int) ∧ (s' : Int) < g.length ∧ 0 ≤ (d' : Int) ∧ (d' : Int) < g.length from
        ⟨hs.1, hs.2, hd.1, hd.2⟩)]
      rfl
    · rw [getNode_none g d hd, if_neg (show ¬ (0 ≤ (s' : Int) ∧ (s' : Int) < g.length ∧ 0 ≤ d ∧ d < g.length) by tauto)]
  · rw [getNode_none g s hs, if_neg (show ¬ (0 ≤ s ∧ s < g.length ∧ 0 ≤ d ∧ d < g.length) by tauto)]

theorem addEdges_eq (g : Graph V W) (s d : Int) (w : W) :
    addEdges g s d w =
      if 0 ≤ s ∧ s < g.length ∧ 0 ≤ d ∧ d < g.length then
        (if s = d then (g, .throw .invalidArgument) else (link (link g s.toNat d.toNat w) d.toNat s.toNat w, .ok ()))
      else (g, .throw .outOfRange) := by
  unfold addEdges
  by_cases hs : 0 ≤ s ∧ s < g.length
  · obtain ⟨s', rfl⟩ := Int.eq_ofNat_of_zero_le hs.1
    rw [getNode_ok g s' (by omega)]
    by_cases hd : 0 ≤ d ∧ d < g.length
    · obtain ⟨d', rfl⟩ := Int.eq_ofNat_of_zero_le hd.1
      rw [getNode_ok g d' (by omega)]
      simp only
      rw [if_pos (show 0 ≤ (s' : Int) ∧ (s' : Int) < g.length ∧ 0 ≤ (d' : Int) ∧ (d' : Int) < g.length from
        ⟨hs.1, hs.2, hd.1, hd.2⟩)]
      rfl
    · rw [getNode_none g d hd, if_neg (show ¬ (0 ≤ (s' : Int) ∧ (s' : Int) < g.length ∧ 0 ≤ d ∧ d < g.length) by tauto)]
  · rw [getNode_none g s hs, if_neg (show ¬ (0 ≤ s ∧ s < g.length ∧ 0 ≤ d ∧ d < g.length) by tauto)]

theorem link_valid {g : Graph V W} (h : ValidLinkage g) (s d : Nat) (w : W) (hs : s < g.length) (hd : d < g.length)
    (hne : s ≠ d) : ValidLinkage (link g s d w) := by
  -- nodes keep their edges
  have keep : ∀ (j : Nat) (m : Node V W), g[j]? = some m →
      ∃ m', (link g s d w)[j]? = some m' ∧ (∀ e ∈ m.outs, e ∈ m'.outs) ∧ (∀ e ∈ m.ins, e ∈ m'.ins) := by
    intro j m hm
    rw [link_get, hm]
    refine ⟨_, rfl, ?_, ?_⟩
    · intro e he; dsimp only; split <;> simp [he]
    · intro e he; dsimp only; split <;> simp [he]
  intro i n hn
  rw [link_get] at hn
  obtain ⟨n0, hn0, rfl⟩ := Option.map_eq_some_iff.mp hn
  obtain ⟨h1, h2⟩ := h i n0 hn0
  have hgs : g[s]? = some g[s] := List.getElem?_eq_getElem hs
  have hgd : g[d]? = some g[d] := List.getElem?_eq_getElem hd
  constructor
  · intro e he
    dsimp only at he
    have old : e ∈ n0.ins → (e.dst = i ∧ ∃ (j : Nat) (m : Node V W), e.src = j ∧ j ≠ i ∧
        (link g s d w)[j]? = some m ∧ ∃ e' ∈ m.outs, e'.dst = i) := fun he => by
      obtain ⟨hd', j, m, hj, hji, hm, e', he', hed⟩ := h1 e he
      obtain ⟨m', hm', ho, _⟩ := keep j m hm
      exact ⟨hd', j, m', hj, hji, hm', e', ho e' he', hed⟩
    split at he
    · rename_i hid
      rw [List.mem_append] at he
      rcases he with he | he
      · exact old he
      · simp only [List.mem_singleton] at he
        subst he hid
        refine ⟨rfl, s, _, rfl, hne, by rw [link_get, hgs]; rfl, ⟨s, i, w, 0⟩, ?_, rfl⟩
        simp
    · exact old he
  · intro e he
    dsimp only at he
    have old : e ∈ n0.outs → (e.src = i ∧ ∃ (j : Nat) (m : Node V W), e.dst = j ∧ j ≠ i ∧
        (link g s d w)[j]? = some m ∧ ∃ e' ∈ m.ins, e'.src = i) := fun he => by
      obtain ⟨hd', j, m, hj, hji, hm, e', he', hed⟩ := h2 e he
      obtain ⟨m', hm', _, ho⟩ := keep j m hm
      exact ⟨hd', j, m', hj, hji, hm', e', ho e' he', hed⟩
    split at he
    · rename_i hid
      rw [List.mem_append] at he
      rcases he with he | he
      · exact old he
      · simp only [List.mem_singleton] at he
        subst he hid
        refine ⟨rfl, d, _, rfl, Ne.symm hne, by rw [link_get, hgd]; rfl, ⟨i, d, w, 0⟩, ?_, rfl⟩
        simp
    · exact old he

theorem link_mirrored {g : Graph V W} (h : Mirrored g) (s d : Nat) (w : W) (hs : s < g.length) (hd : d < g.length)
    (hne : s ≠ d) : Mirrored (link g s d w) := by
  constructor
  · intro i n hn
    rw [link_get] at hn
    obtain ⟨n0, hn0, rfl⟩ := Option.map_eq_some_iff.mp hn
    obtain ⟨h1, h2⟩ := h.1 i n0 hn0
    rw [length_link]
    dsimp only
    constructor
    · intro e he
      split at he
      · rename_i hid
        rw [List.mem_append, List.mem_singleton] at he
        rcases he with he | he
        · exact h1 e he
        · subst he hid; exact ⟨rfl, s, rfl, hne, hs⟩
      · exact h1 e he
    · intro e he
      split at he
      · rename_i hid
        rw [List.mem_append, List.mem_singleton] at he
        rcases he with he | he
        · exact h2 e he
        · subst he hid; exact ⟨rfl, d, rfl, Ne.symm hne, hd⟩
      · exact h2 e he
  · intro i j n m hn hm
    rw [link_get] at hn hm
    obtain ⟨n0, hn0, rfl⟩ := Option.map_eq_some_iff.mp hn
    obtain ⟨m0, hm0, rfl⟩ := Option.map_eq_some_iff.mp hm
    have := h.2 i j n0 m0 hn0 hm0
    dsimp only
    by_cases hi : i = s <;> by_cases hj : j = d
    · subst hi hj; simp [List.filter_append, this]
    · subst hi
      have : ¬ (d : Int) = j := by omega
      simp [List.filter_append, *]
    · subst hj
      have : ¬ (s : Int) = i := by omega
      simp [List.filter_append, *]
    · simp [hi, hj, this]

theorem addNodeValue_get (g : Graph V W) (v : V) (i : Nat) (n : Node V W)
    (h : (addNodeValue g v).1[i]? = some n) : g[i]? = some n ∨ (i = g.length ∧ n = ⟨v, [], []⟩) := by
  simp only [addNodeValue, addNode] at h
  rw [List.getElem?_append] at h
  split at h
  · exact .inl h
  · rename_i hi
    have : i - g.length = 0 := by
      by_contra hc
      rw [List.getElem?_eq_none (by simp; omega)] at h
      cases h
    rw [this] at h
    simp at h
    exact .inr ⟨by omega, h.symm⟩

theorem addNodeValue_old (g : Graph V W) (v : V) (i : Nat) (n : Node V W) (h : g[i]? = some n) :
    (addNodeValue g v).1[i]? = some n := by
  obtain ⟨hi, _⟩ := List.getElem?_eq_some_iff.mp h
  simp only [addNodeValue, addNode]
  rw [List.getElem?_append_left hi, h]

theorem addNodeValue_valid {g : Graph V W} (h : ValidLinkage g) (v : V) : ValidLinkage (addNodeValue g v).1 := by
  intro i n hn
  rcases addNodeValue_get g v i n hn with h0 | ⟨_, rfl⟩
  · obtain ⟨h1, h2⟩ := h i n h0
    constructor
    · intro e he
      obtain ⟨a, j, m, b, c, d, f⟩ := h1 e he
      exact ⟨a, j, m, b, c, addNodeValue_old g v j m d, f⟩
    · intro e he
      obtain ⟨a, j, m, b, c, d, f⟩ := h2 e he
      exact ⟨a, j, m, b, c, addNodeValue_old g v j m d, f⟩
  · simp

theorem addNodeValue_mirrored {g : Graph V W} (h : Mirrored g) (v : V) : Mirrored (addNodeValue g v).1 := by
  have hlen : (addNodeValue g v).1.length = g.length + 1 := by simp [addNodeValue, addNode]
  constructor
  · intro i n hn
    rw [hlen]
    rcases addNodeValue_get g v i n hn with h0 | ⟨_, rfl⟩
    · obtain ⟨h1, h2⟩ := h.1 i n h0
      constructor
      · intro e he
        obtain ⟨a, j, b, c, d⟩ := h1 e he
        exact ⟨a, j, b, c, by omega⟩
      · intro e he
        obtain ⟨a, j, b, c, d⟩ := h2 e he
        exact ⟨a, j, b, c, by omega⟩
    · simp
  · intro i j n m hn hm
    rcases addNodeValue_get g v i n hn with h0 | ⟨hi, rfl⟩ <;> rcases addNodeValue_get g v j m hm with h1 | ⟨hj, rfl⟩
    · exact h.2 i j n m h0 h1
    · -- no old edge goes to the new node
      obtain ⟨_, h2⟩ := h.1 i n h0
      simp only [List.filter_nil]
      rw [List.filter_eq_nil_iff]
      intro e he
      obtain ⟨_, k, hk, _, hlt⟩ := h2 e he
      simp only [decide_eq_true_eq]; omega
    · obtain ⟨h2, _⟩ := h.1 j m h1
      simp only [List.filter_nil]
      symm
      rw [List.filter_eq_nil_iff]
      intro e he
      obtain ⟨_, k, hk, _, hlt⟩ := h2 e he
      simp only [decide_eq_true_eq]; omega
    · simp

/-! ### the linkage check -/

theorem allRes_ok {α : Type} (p : α → Res Bool) (q : α → Prop) (l : List α)
    (h : ∀ x ∈ l, ∃ b, p x = .ok b ∧ (b = true ↔ q x)) :
    ∃ b, allRes p l = .ok b ∧ (b = true ↔ ∀ x ∈ l, q x) := by
  induction l with
  | nil => exact ⟨true, rfl, by simp⟩
  | cons x xs ih =>
    obtain ⟨b, hb, hq⟩ := h x (by simp)
    obtain ⟨b', hb', hq'⟩ := ih (fun y hy => h y (by simp [hy]))
    cases b with
    | false =>
      refine ⟨false, by simp [allRes, hb], ?_⟩
      have : ¬ q x := fun hx => by simpa using hq.mpr hx
      simp [this]
    | true =>
      refine ⟨b', by simp [allRes, hb, hb'], ?_⟩
      have : q x := hq.mp rfl
      simp [this, hq']

theorem checkIn_ok (g : Graph V W) (i : Nat) (e : Edge W) :
    ∃ b, checkIn g.length (getNode g) (i : Int) e = .ok b ∧
      (b = true ↔ e.dst = i ∧ ∃ (j : Nat) (m : Node V W), e.src = j ∧ j ≠ i ∧ g[j]? = some m ∧ ∃ e' ∈ m.outs, e'.dst = i) := by
  unfold checkIn
  split
  · rename_i h
    refine ⟨false, rfl, ?_⟩
    simp only [Bool.false_eq_true, false_iff]
    rintro ⟨_, j, m, hj, _, hm, _⟩
    obtain ⟨hlt, _⟩ := List.getElem?_eq_some_iff.mp hm
    omega
  rename_i hr
  split
  · rename_i h; exact ⟨false, rfl, by simp [h]⟩
  rename_i hd
  push Not at hd
  split
  · rename_i h
    refine ⟨false, rfl, ?_⟩
    simp only [Bool.false_eq_true, false_iff]
    rintro ⟨_, j, m, hj, hne, _⟩
    omega
  rename_i hne
  push Not at hr
  obtain ⟨j, hj⟩ := Int.eq_ofNat_of_zero_le hr.1
  have hjl : j < g.length := by omega
  rw [hj, getNode_ok g j hjl, Res.ok_bind, Res.pure_eq]
  refine ⟨_, rfl, ?_⟩
  simp only [List.any_eq_true, decide_eq_true_eq]
  constructor
  · rintro ⟨e', he', hed⟩
    exact ⟨hd, j, g[j], rfl, by omega, List.getElem?_eq_getElem hjl, e', he', hed⟩
  · rintro ⟨_, j', m, hj', _, hm, e', he', hed⟩
    have hjj : j' = j := by omega
    subst hjj
    rw [List.getElem?_eq_getElem hjl] at hm
    cases hm
    exact ⟨e', he', hed⟩

theorem checkOut_ok (g : Graph V W) (i : Nat) (e : Edge W) :
    ∃ b, checkOut g.length (getNode g) (i : Int) e = .ok b ∧
      (b = true ↔ e.src = i ∧ ∃ (j : Nat) (m : Node V W), e.dst = j ∧ j ≠ i ∧ g[j]? = some m ∧ ∃ e' ∈ m.ins, e'.src = i) := by
  unfold checkOut
  split
  · rename_i h; exact ⟨false, rfl, by simp [h]⟩
  rename_i hd
  push Not at hd
  split
  · rename_i h
    refine ⟨false, rfl, ?_⟩
    simp only [Bool.false_eq_true, false_iff]
    rintro ⟨_, j, m, hj, _, hm, _⟩
    obtain ⟨hlt, _⟩ := List.getElem?_eq_some_iff.mp hm
    omega
  rename_i hr
  split
  · rename_i h
    refine ⟨false, rfl, ?_⟩
    simp only [Bool.false_eq_true, false_iff]
    rintro ⟨_, j, m, hj, hne, _⟩
    omega
  rename_i hne
  push Not at hr
  obtain ⟨j, hj⟩ := Int.eq_ofNat_of_zero_le hr.1
  have hjl : j < g.length := by omega
  rw [hj, getNode_ok g j hjl, Res.ok_bind, Res.pure_eq]
  refine ⟨_, rfl, ?_⟩
  simp only [List.any_eq_true, decide_eq_true_eq]
  constructor
  · rintro ⟨e', he', hed⟩
    exact ⟨hd, j, g[j], rfl, by omega, List.getElem?_eq_getElem hjl, e', he', hed⟩
  · rintro ⟨_, j', m, hj', _, hm, e', he', hed⟩
    have hjj : j' = j := by omega
    subst hjj
    rw [List.getElem?_eq_getElem hjl] at hm
    cases hm
    exact ⟨e', he', hed⟩

theorem checkLinkage_ok (g : Graph V W) :
    ∃ b, checkLinkage g.length (getNode g) = .ok b ∧ (b = true ↔ ValidLinkage g) := by
  obtain ⟨b, hb, hq⟩ := allRes_ok (fun idx => do
      let n ← getNode g idx
      let b ← allRes (checkIn g.length (getNode g) idx) n.ins
      if b then allRes (checkOut g.length (getNode g) idx) n.outs else pure false)
    (fun idx => ∀ (i : Nat) (n : Node V W), idx = i → g[i]? = some n →
      (∀ e ∈ n.ins, e.dst = i ∧ ∃ (j : Nat) (m : Node V W), e.src = j ∧ j ≠ i ∧ g[j]? = some m ∧ ∃ e' ∈ m.outs, e'.dst = i) ∧
      (∀ e ∈ n.outs, e.src = i ∧ ∃ (j : Nat) (m : Node V W), e.dst = j ∧ j ≠ i ∧ g[j]? = some m ∧ ∃ e' ∈ m.ins, e'.src = i))
    (irange 0 g.length) (by
      intro idx hidx
      have hx := mem_irange.mp hidx
      obtain ⟨i, rfl⟩ := Int.eq_ofNat_of_zero_le hx.1
      have hil : i < g.length := by omega
      rw [getNode_ok g i hil, Res.ok_bind]
      obtain ⟨b1, hb1, hq1⟩ := allRes_ok _ _ (g[i].ins) (fun e _ => checkIn_ok g i e)
      obtain ⟨b2, hb2, hq2⟩ := allRes_ok _ _ (g[i].outs) (fun e _ => checkOut_ok g i e)
      rw [hb1, Res.ok_bind]
      have hget : g[i]? = some g[i] := List.getElem?_eq_getElem hil
      cases b1 with
      | false =>
        refine ⟨false, by simp, ?_⟩
        simp only [Bool.false_eq_true, false_iff]
        intro hall
        have := (hall i g[i] rfl hget).1
        simpa using hq1.mpr this
      | true =>
        refine ⟨b2, by simp [hb2], ?_⟩
        rw [hq2]
        constructor
        · intro h2 i' n hi' hn
          have : i' = i := by omega
          subst this
          rw [hget] at hn; cases hn
          exact ⟨hq1.mp rfl, h2⟩
        · intro hall
          exact (hall i g[i] rfl hget).2)
  refine ⟨b, hb, ?_⟩
  rw [hq]
  constructor
  · intro h i n hn
    obtain ⟨hi, _⟩ := List.getElem?_eq_some_iff.mp hn
    exact h i (mem_irange.mpr ⟨by omega, by omega⟩) i n rfl hn
  · intro h idx _ i n _ hn
    exact h i n hn

end CRU.Graph
