import Verif.Astar.Lemmas
namespace CRU.Astar
set_option linter.unusedSectionVars false

variable {S C : Type} [DecidableEq S] [LinearOrder C] [Add C] [Zero C] [OrderTop C]

theorem filter_length_lt {α : Type} (p q : α → Bool) (l : List α) (himp : ∀ x ∈ l, p x = true → q x = true)
    (h : ∃ x ∈ l, q x = true ∧ p x = false) : (l.filter p).length < (l.filter q).length := by
  induction l with
  | nil => obtain ⟨x, hx, _⟩ := h; simp at hx
  | cons a l ih =>
    have hle : (l.filter p).length ≤ (l.filter q).length := by
      rw [← List.countP_eq_length_filter, ← List.countP_eq_length_filter]
      exact List.countP_mono_left (fun x hx hpx => himp x (by simp [hx]) hpx)
    obtain ⟨x, hx, hq, hp⟩ := h
    rcases List.mem_cons.mp hx with rfl | hx
    · simp only [List.filter_cons, hq, hp, if_true]
      simp only [Bool.false_eq_true, if_false, List.length_cons]
      omega
    · have := ih (fun x hx => himp x (by simp [hx])) ⟨x, hx, hq, hp⟩
      simp only [List.filter_cons]
      cases hpa : p a
      · cases hqa : q a <;> simp <;> omega
      · rw [himp a (by simp) hpa]; simp; omega

variable [CostLaws C]

/-! ### Path extraction -/

theorem Chain.det {ex : S → Option (C × Option S)} {b : Option S} {r r' : Res (List S)} (h : Chain ex b r)
    (h' : Chain ex b r') : r = r' := by
  induction h generalizing r' with
  | nil => cases h'; rfl
  | cons h _ ih =>
    cases h' with
    | cons h2 hc2 => rw [h] at h2; cases h2; have := ih hc2; cases this; rfl
    | consThrow h2 hc2 => rw [h] at h2; cases h2; have := ih hc2; cases this
    | missing h2 => rw [h] at h2; cases h2
  | consThrow h _ ih =>
    cases h' with
    | cons h2 hc2 => rw [h] at h2; cases h2; have := ih hc2; cases this
    | consThrow h2 hc2 => rw [h] at h2; cases h2; have := ih hc2; cases this; rfl
    | missing h2 => rw [h] at h2; cases h2
  | missing h =>
    cases h' with
    | cons h2 hc2 => rw [h] at h2; cases h2
    | consThrow h2 hc2 => rw [h] at h2; cases h2
    | missing h2 => rfl

theorem rwalk_mono {starts : List (S × C)} {edge : S → S → C → Prop} {s t : S} {l : List S} {c cold w : C}
    (h : RWalk starts edge (s :: l) c) (hc : c ≤ cold) (he : edge s t w) :
    ∃ c', RWalk starts edge (t :: s :: l) c' ∧ c' ≤ cold + w :=
  ⟨c + w, .step h he, CostLaws.add_le_add_right _ _ _ hc⟩

theorem ExInv.chain {P : Problem S C} (hnn : ∀ s t w, PEdge P s t w → (0 : C) ≤ w) {starts : List (S × C)}
    {ex : S → Option (C × Option S)} (h : ExInv P starts ex) {s : S} {c : C} {b : Option S} (hs : ex s = some (c, b)) :
    ∃ l, Chain ex b (.ok l) ∧ ∃ c', RWalk starts (PEdge P) (s :: l) c' ∧ c' ≤ c := by
  obtain ⟨⟨τ, N, _, hent⟩, ⟨D, hD⟩⟩ := h
  -- strict order on explored states
  let lt : S → S → Bool := fun p s =>
    match ex p, ex s with
    | some (cp, _), some (cs, _) => decide (cp < cs) || (decide (cp = cs) && decide (τ p < τ s))
    | _, _ => false
  have lt_def : ∀ p s cp bp cs bs, ex p = some (cp, bp) → ex s = some (cs, bs) →
      (lt p s = true ↔ cp < cs ∨ (cp = cs ∧ τ p < τ s)) := by
    intro p s cp bp cs bs h1 h2
    simp only [lt, h1, h2, Bool.or_eq_true, Bool.and_eq_true, decide_eq_true_eq]
  have main : ∀ (n : Nat) (s : S) (c : C) (b : Option S), (D.filter (fun p => lt p s)).length = n → ex s = some (c, b) →
      ∃ l, Chain ex b (.ok l) ∧ ∃ c', RWalk starts (PEdge P) (s :: l) c' ∧ c' ≤ c := by
    intro n
    induction n using Nat.strong_induction_on with
    | _ n ih =>
      intro s c b hn hs
      obtain ⟨_, h0, hp⟩ := hent s c b hs
      cases b with
      | none => exact ⟨[], .nil, c, .start (h0 rfl), le_refl _⟩
      | some p =>
        obtain ⟨cold, w, cp, bp, e1, e2, e3, e4, e5⟩ := hp p rfl
        have hlt : cp < c ∨ (cp = c ∧ τ p < τ s) := by
          have h1 : cold ≤ c := by rw [e2]; exact CostLaws.le_add _ _ (hnn _ _ _ e1)
          rcases lt_or_eq_of_le (le_trans e4 h1) with h2 | h2
          · exact .inl h2
          · exact .inr ⟨h2, e5 (le_antisymm e4 (h2 ▸ h1))⟩
        have hps := (lt_def p s cp bp c (some p) e3 hs).mpr hlt
        have hcount : (D.filter (fun q => lt q p)).length < (D.filter (fun q => lt q s)).length := by
          apply filter_length_lt
          · intro q _ hqp
            cases hq : ex q with
            | none => simp only [lt, hq] at hqp; cases hqp
            | some eq =>
              obtain ⟨cq, bq⟩ := eq
              rw [lt_def q p cq bq cp bp hq e3] at hqp
              rw [lt_def q s cq bq c (some p) hq hs]
              rcases hqp with a | ⟨a, a'⟩ <;> rcases hlt with d | ⟨d, d'⟩
              · exact .inl (lt_trans a d)
              · exact .inl (d ▸ a)
              · exact .inl (a ▸ d)
              · exact .inr ⟨a.trans d, lt_trans a' d'⟩
          · refine ⟨p, hD p (by rw [e3]; simp), hps, ?_⟩
            rw [Bool.eq_false_iff]
            intro hc
            rw [lt_def p p cp bp cp bp e3 e3] at hc
            rcases hc with hc | ⟨_, hc⟩
            · exact lt_irrefl _ hc
            · exact lt_irrefl _ hc
        obtain ⟨l, hl, c', hw, hc'⟩ := ih _ (hn ▸ hcount) p cp bp rfl e3
        obtain ⟨c2, hw2, hc2⟩ := rwalk_mono hw (le_trans hc' e4) e1
        exact ⟨p :: l, .cons e3 hl, c2, hw2, by rw [e2]; exact hc2⟩
  exact main _ s c b rfl hs

/-- What extraction returns after the goal was accepted. -/
theorem extract_spec {P : Problem S C} (hnn : ∀ s t w, PEdge P s t w → (0 : C) ≤ w) {starts : List (S × C)}
    {st : St S C} (h : Inv P starts st) {top : Elem S C} {rest : List (Elem S C)} (hp : Pop st.queue top rest)
    (hb : exploredBetter st.explored top.state top.cost = false) :
    ∃ l, (∃ c', RWalk starts (PEdge P) (top.state :: l) c' ∧ c' ≤ top.cost) ∧
      Extract (upd st.explored top.state (some (top.cost, top.back))) top.state (mkResult (top.state :: l).reverse top.cost) ∧
      ∀ r, Extract (upd st.explored top.state (some (top.cost, top.back))) top.state r →
        r = mkResult (top.state :: l).reverse top.cost := by
  have hex := h.ex.accept hnn hb (h.q.elems top hp.mem_top)
  obtain ⟨l, hl, hw⟩ := hex.chain hnn (upd_self st.explored top.state (some (top.cost, top.back)))
  refine ⟨l, hw, ?_, ?_⟩
  · have := Extract.found (upd_self st.explored top.state (some (top.cost, top.back))) hl
    simpa using this
  · intro r hr
    cases hr with
    | notFound h => rw [upd_self] at h; cases h
    | found h hc =>
      rw [upd_self] at h
      cases h
      have := Chain.det hc hl
      subst this
      simp

/-! ### The frontier -/

theorem frontier {P : Problem S C} {starts : List (S × C)} {st : St S C} (h : Inv P starts st) {t : S} {l : List S} {c : C}
    (hw : RWalk starts (PEdge P) (t :: l) c) :
    Le st.explored t c ∨ ∃ e ∈ st.queue, ∃ l' c', RWalk [(e.state, e.cost)] (PEdge P) (t :: l') c' ∧ c' ≤ c := by
  have covered : ∀ t c, Covered st t c → Le st.explored t c ∨
      ∃ e ∈ st.queue, ∃ l' c', RWalk [(e.state, e.cost)] (PEdge P) (t :: l') c' ∧ c' ≤ c := by
    intro t c hc
    rcases hc with hc | ⟨e, he, h1, h2⟩
    · exact .inl hc
    · exact .inr ⟨e, he, [], e.cost, .start (by simp [h1]), h2⟩
  generalize hL : t :: l = L at hw
  induction hw generalizing t l with
  | start hs => cases hL; exact covered _ _ (h.starts _ _ hs)
  | step hr he ih =>
    cases hL
    rcases ih rfl with ⟨cs, bs, h1, h2⟩ | ⟨e, he', l', c', h1, h2⟩
    · rcases covered _ _ (h.closed _ _ _ h1 _ _ he) with h3 | ⟨e, he', l', c', h3, h4⟩
      · exact .inl (h3.mono (CostLaws.add_le_add_right _ _ _ h2))
      · exact .inr ⟨e, he', l', c', h3, le_trans h4 (CostLaws.add_le_add_right _ _ _ h2)⟩
    · obtain ⟨c2, h3, h4⟩ := rwalk_mono h1 h2 he
      exact .inr ⟨e, he', _, c2, h3, h4⟩

theorem rwalk_nonneg {starts : List (S × C)} {edge : S → S → C → Prop} (hs : ∀ x ∈ starts, (0 : C) ≤ x.2)
    (he : ∀ s t w, edge s t w → (0 : C) ≤ w) {l : List S} {c : C} (h : RWalk starts edge l c) : 0 ≤ c := by
  induction h with
  | start h => exact hs _ h
  | step _ h ih => exact le_trans ih (CostLaws.le_add _ _ (he _ _ _ h))

theorem rwalk_ge_start {starts : List (S × C)} {edge : S → S → C → Prop}
    (he : ∀ s t w, edge s t w → (0 : C) ≤ w) {l : List S} {c : C} (h : RWalk starts edge l c) :
    ∃ x ∈ starts, x.2 ≤ c := by
  induction h with
  | start h => exact ⟨_, h, le_refl _⟩
  | step _ h ih =>
    obtain ⟨x, hx, hle⟩ := ih
    exact ⟨x, hx, le_trans hle (CostLaws.le_add _ _ (he _ _ _ h))⟩

/-! ### Starts that meet the goal -/

/-- `acc` is the best goal start of `done`. -/
def IsBest (goal : S → Bool) (done : List (S × C)) (acc : Option (S × C)) : Prop :=
  (∀ b, acc = some b → b ∈ done ∧ goal b.1 = true ∧ b.2 < ⊤) ∧
  (∀ x ∈ done, goal x.1 = true → bestCost acc ≤ x.2)

theorem bestStep_isBest {goal : S → Bool} {done : List (S × C)} {acc : Option (S × C)} (h : IsBest goal done acc) (a : S × C) :
    IsBest goal (done ++ [a]) (bestStep goal acc a) := by
  obtain ⟨h1, h2⟩ := h
  have hle : bestCost acc ≤ ⊤ := le_top
  unfold bestStep
  by_cases hg : goal a.1 = true
  · rw [if_pos hg]
    by_cases hc : a.2 < bestCost acc
    · rw [if_pos hc]
      refine ⟨fun b hb => ?_, fun x hx hgx => ?_⟩
      · cases hb
        exact ⟨by simp, hg, lt_of_lt_of_le hc hle⟩
      · rcases List.mem_append.mp hx with hx | hx
        · exact le_trans (le_of_lt hc) (h2 x hx hgx)
        · rw [List.mem_singleton] at hx; rw [hx]; exact le_refl _
    · rw [if_neg hc]
      refine ⟨fun b hb => ?_, fun x hx hgx => ?_⟩
      · obtain ⟨m1, m2, m3⟩ := h1 b hb
        exact ⟨by simp [m1], m2, m3⟩
      · rcases List.mem_append.mp hx with hx | hx
        · exact h2 x hx hgx
        · rw [List.mem_singleton] at hx; rw [hx]; exact not_lt.mp hc
  · rw [if_neg hg]
    refine ⟨fun b hb => ?_, fun x hx hgx => ?_⟩
    · obtain ⟨m1, m2, m3⟩ := h1 b hb
      exact ⟨by simp [m1], m2, m3⟩
    · rcases List.mem_append.mp hx with hx | hx
      · exact h2 x hx hgx
      · rw [List.mem_singleton] at hx; rw [hx] at hgx; exact absurd hgx hg

theorem bestFold_isBest (goal : S → Bool) (l : List (S × C)) : ∀ (acc : Option (S × C)) (done : List (S × C)),
    IsBest goal done acc → IsBest goal (done ++ l) (l.foldl (bestStep goal) acc) := by
  induction l with
  | nil => intro acc done h; rw [List.append_nil]; exact h
  | cons a l ih =>
    intro acc done h
    have := ih _ _ (bestStep_isBest h a)
    rw [List.append_assoc] at this
    exact this

theorem bestStart_isBest (goal : S → Bool) (starts : List (S × C)) : IsBest goal starts (bestStart goal starts) :=
  bestFold_isBest goal starts none [] ⟨by simp, by simp⟩

theorem bestStart_some {goal : S → Bool} {starts : List (S × C)} {b : S × C} (h : bestStart goal starts = some b) :
    b ∈ starts ∧ goal b.1 = true ∧ b.2 < ⊤ ∧ ∀ x ∈ starts, goal x.1 = true → b.2 ≤ x.2 := by
  obtain ⟨h1, h2⟩ := bestStart_isBest goal starts
  obtain ⟨m1, m2, m3⟩ := h1 b h
  exact ⟨m1, m2, m3, fun x hx hg => by have := h2 x hx hg; rw [h] at this; exact this⟩

theorem bestStart_none {goal : S → Bool} {starts : List (S × C)} (h : bestStart goal starts = none) :
    ∀ x ∈ starts, goal x.1 = true → x.2 = ⊤ := by
  intro x hx hg
  have := (bestStart_isBest goal starts).2 x hx hg
  rw [h] at this
  exact top_le_iff.mp this

/-! ### Termination -/

/-- Costs of all walks with `n` edges. -/
def level (P : Problem S C) (starts : List (S × C)) : Nat → List (S × C)
  | 0 => starts
  | n + 1 => (level P starts n).flatMap fun x =>
    match P.expand x.1 with
    | .ok kids => kids.map fun k => (k.1, x.2 + k.2)
    | _ => []

theorem rwalk_level {P : Problem S C} {starts : List (S × C)} {s : S} {l : List S} {c : C}
    (h : RWalk starts (PEdge P) (s :: l) c) : (s, c) ∈ level P starts l.length := by
  generalize hL : s :: l = L at h
  induction h generalizing s l with
  | start h => cases hL; exact h
  | step _ he ih =>
    cases hL
    have := ih rfl
    obtain ⟨kids, hk, hm⟩ := he
    simp only [List.length_cons, level, List.mem_flatMap]
    refine ⟨_, this, ?_⟩
    rw [hk]
    exact List.mem_map.mpr ⟨_, hm, rfl⟩

theorem rwalk_subset {P : Problem S C} {starts : List (S × C)} {F : List S} (hs : ∀ x ∈ starts, x.1 ∈ F)
    (hF : ∀ s ∈ F, ∀ t w, PEdge P s t w → t ∈ F) {l : List S} {c : C} (h : RWalk starts (PEdge P) l c) : l ⊆ F := by
  induction h with
  | start h => intro x hx; simp only [List.mem_singleton] at hx; subst hx; exact hs _ h
  | step _ he ih =>
    intro x hx
    rcases List.mem_cons.mp hx with rfl | hx
    · exact hF _ (ih (by simp)) _ _ he
    · exact ih hx

/-- All (state, cost) pairs of simple walks. -/
def allLevels (P : Problem S C) (starts : List (S × C)) (n : Nat) : List (S × C) :=
  (List.range (n + 1)).flatMap (level P starts)

theorem accepted_mem {P : Problem S C} (hnn : ∀ s t w, PEdge P s t w → (0 : C) ≤ w) {starts : List (S × C)} {F : List S}
    (hs : ∀ x ∈ starts, x.1 ∈ F) (hF : ∀ s ∈ F, ∀ t w, PEdge P s t w → t ∈ F) {st : St S C} (h : Inv P starts st)
    {top : Elem S C} {rest : List (Elem S C)} (hp : Pop st.queue top rest)
    (hb : exploredBetter st.explored top.state top.cost = false) :
    (top.state, top.cost) ∈ allLevels P starts F.length := by
  obtain ⟨l, h1, h2, _⟩ := accepted_walk hnn hb (h.q.elems top hp.mem_top)
  have hlen : (top.state :: l).length ≤ F.length := (List.subperm_of_subset h2 (rwalk_subset hs hF h1)).length_le
  simp only [List.length_cons] at hlen
  exact List.mem_flatMap.mpr ⟨l.length, List.mem_range.mpr (by omega), rwalk_level h1⟩

/-- Number of (state, cost) pairs that could still improve the explored map. -/
def openCount (K : List (S × C)) (ex : S → Option (C × Option S)) : Nat :=
  (K.filter fun x => !exploredBetter ex x.1 x.2).length

theorem pushKids_explored (P : Problem S C) (s : S) (c : C) (kids : List (S × C)) (st : St S C) :
    (kids.foldl (pushKid P s c) st).explored = st.explored := by
  induction kids generalizing st with
  | nil => rfl
  | cons a l ih =>
    rw [List.foldl_cons, ih]
    unfold pushKid
    split <;> rfl

theorem steps_acc {P : Problem S C} (hnn : ∀ s t w, PEdge P s t w → (0 : C) ≤ w) {starts : List (S × C)} {F : List S}
    (hs : ∀ x ∈ starts, x.1 ∈ F) (hF : ∀ s ∈ F, ∀ t w, PEdge P s t w → t ∈ F) (st : St S C) (h : Inv P starts st) :
    Acc (fun b a => Step P a b) st := by
  have main : ∀ (n : Nat) (m : Nat) (st : St S C), Inv P starts st →
      openCount (allLevels P starts F.length) st.explored = n → st.queue.length = m → Acc (fun b a => Step P a b) st := by
    intro n
    induction n using Nat.strong_induction_on with
    | _ n ihn =>
      intro m
      induction m using Nat.strong_induction_on with
      | _ m ihm =>
        intro st hI hn hm
        constructor
        intro b hstep
        have hI' := hI.step hnn hstep
        cases hstep with
        | @skip top rest hp hb =>
          refine ihm rest.length ?_ _ hI' hn rfl
          have := hp.1.length_eq
          simp only [List.length_cons] at this
          omega
        | @expand top rest kids hp hb hg hk =>
          refine ihn _ ?_ _ _ hI' rfl rfl
          rw [pushKids_explored, ← hn]
          apply filter_length_lt
          · intro x _ hx
            simp only [Bool.not_eq_true', Bool.eq_false_iff] at hx ⊢
            intro hc
            exact hx ((exploredBetter_iff _ _ _).mpr (((exploredBetter_iff _ _ _).mp hc).upd hb))
          · refine ⟨_, accepted_mem hnn hs hF hI hp hb, by simp [hb], ?_⟩
            simp only [Bool.not_eq_false']
            exact (exploredBetter_iff _ _ _).mpr ⟨_, _, upd_self _ _ _, le_refl _⟩
  exact main _ _ st h rfl rfl

theorem exists_pop (q : List (Elem S C)) (h : q ≠ []) : ∃ top rest, Pop q top rest := by
  have : ∀ (q : List (Elem S C)), q ≠ [] → ∃ top ∈ q, ∀ e ∈ q, top.value ≤ e.value := by
    intro q
    induction q with
    | nil => intro h; exact absurd rfl h
    | cons a l ih =>
      intro _
      by_cases hl : l = []
      · subst hl; exact ⟨a, by simp, by simp⟩
      · obtain ⟨t, ht, hmin⟩ := ih hl
        by_cases hc : a.value ≤ t.value
        · refine ⟨a, by simp, fun e he => ?_⟩
          rcases List.mem_cons.mp he with rfl | he
          · exact le_refl _
          · exact le_trans hc (hmin e he)
        · refine ⟨t, by simp [ht], fun e he => ?_⟩
          rcases List.mem_cons.mp he with rfl | he
          · exact le_of_lt (not_le.mp hc)
          · exact hmin e he
  obtain ⟨t, ht, hmin⟩ := this q h
  obtain ⟨a, b, rfl⟩ := List.append_of_mem ht
  refine ⟨t, a ++ b, List.perm_middle, fun e he => hmin e ?_⟩
  simp only [List.mem_append, List.mem_cons] at he ⊢
  tauto

/-- The search never gets stuck. -/
theorem progress {P : Problem S C} (hnn : ∀ s t w, PEdge P s t w → (0 : C) ≤ w) {starts : List (S × C)} (st : St S C)
    (h : Inv P starts st) : (∃ st', Step P st st') ∨ ∃ r, Ends P st r := by
  by_cases hq : st.queue = []
  · exact .inr ⟨_, .empty hq⟩
  · obtain ⟨top, rest, hp⟩ := exists_pop st.queue hq
    cases hb : exploredBetter st.explored top.state top.cost with
    | true => exact .inl ⟨_, .skip hp hb⟩
    | false =>
      cases hg : P.goal top.state with
      | true =>
        obtain ⟨l, _, hx, _⟩ := extract_spec hnn h hp hb
        exact .inr ⟨_, .goal hp hb hg hx⟩
      | false =>
        cases hk : P.expand top.state with
        | ok kids => exact .inl ⟨_, .expand hp hb hg hk⟩
        | throw e => exact .inr ⟨_, .throws hp hb hg hk⟩
        | ub => exact .inr ⟨_, .ub hp hb hg hk⟩

end CRU.Astar
