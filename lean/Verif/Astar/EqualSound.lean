import Verif.Astar.Equal
/-
  The search with a caller-supplied equality, for arbitrary callbacks: the path it returns is real up to that equality.
-/
namespace CRU.Astar
set_option linter.unusedSectionVars false

variable {S C : Type} [LinearOrder C] [Add C] [Zero C] [OrderTop C]

/-- `WalkUpTo`, last state first. -/
inductive RWalkE (eq : S → S → Bool) (starts : List (S × C)) (edge : S → S → C → Prop) : List S → C → Prop
  | start {s s0 : S} {c : C} (he : eq s s0 = true) (h : (s0, c) ∈ starts) : RWalkE eq starts edge [s] c
  | step {l : List S} {s t t0 : S} {c w : C} (h : RWalkE eq starts edge (s :: l) c) (he : edge s t0 w)
      (ht : eq t t0 = true) : RWalkE eq starts edge (t :: s :: l) (c + w)

theorem RWalkE.walk {eq : S → S → Bool} {starts : List (S × C)} {edge : S → S → C → Prop} {l : List S} {c : C}
    (h : RWalkE eq starts edge l c) : WalkUpTo eq starts edge l.reverse c := by
  induction h with
  | start he h => exact .start he h
  | @step l s t t0 c w _ he ht ih =>
    have : (t :: s :: l).reverse = l.reverse ++ [s] ++ [t] := by simp
    rw [this]
    exact .step (by simpa using ih) he ht

/-- `q` is explored with cost at most `c`. -/
def LeE (K : Keying S) (ex : List (S × (C × Option S))) (q : S) (c : C) : Prop :=
  ∃ cq bq, find K ex q = some (cq, bq) ∧ cq ≤ c

theorem exploredBetterE_iff (K : Keying S) (ex : List (S × (C × Option S))) (s : S) (c : C) :
    exploredBetterE K ex s c = true ↔ LeE K ex s c := by
  unfold exploredBetterE LeE
  cases h : find K ex s with
  | none => simp
  | some e => obtain ⟨a, b⟩ := e; simp

/-- What is known about a queued element. -/
def ElemInvE (K : Keying S) (P : Problem S C) (starts : List (S × C)) (ex : List (S × (C × Option S))) (e : Elem S C) : Prop :=
  (e.back = none ∧ (e.state, e.cost) ∈ starts) ∨
  (∃ p cold w, e.back = some p ∧ LeE K ex p cold ∧ ChildEdge P.expand p e.state w ∧ e.cost = cold + w)

/-- What is known about an explored entry; `τ` is the (ghost) time of its last update. -/
def EntryInvE (K : Keying S) (P : Problem S C) (starts : List (S × C)) (ex : List (S × (C × Option S))) (τ : S → Nat) (s : S)
    (c : C) (b : Option S) : Prop :=
  (b = none → ∃ s0, K.eq s s0 = true ∧ (s0, c) ∈ starts) ∧
  (∀ p, b = some p → ∃ s0 cold w cp bp, K.eq s s0 = true ∧ ChildEdge P.expand p s0 w ∧ c = cold + w ∧
    find K ex p = some (cp, bp) ∧ cp ≤ cold ∧ (cp = cold → τ p < τ s))

/-- Facts about the explored map alone. -/
def ExInvE (K : Keying S) (P : Problem S C) (starts : List (S × C)) (ex : List (S × (C × Option S))) : Prop :=
  ∃ (τ : S → Nat) (N : Nat), (∀ s t, K.eq s t = true → τ s = τ t) ∧ (∀ s, find K ex s ≠ none → τ s < N) ∧
    ∀ s c b, find K ex s = some (c, b) → EntryInvE K P starts ex τ s c b

structure InvE (K : Keying S) (P : Problem S C) (starts : List (S × C)) (st : StE S C) : Prop where
  ex : ExInvE K P starts st.explored
  q : ∀ e ∈ st.queue, ElemInvE K P starts st.explored e

theorem find_mem {V : Type} {K : Keying S} (hK : K.Lawful) {m : List (S × V)} {s : S} (h : find K m s ≠ none) :
    ∃ d ∈ m.map (·.1), K.eq s d = true := by
  rw [find_eq hK] at h
  cases hf : m.find? (fun e => K.eq e.1 s) with
  | none => rw [hf] at h; exact absurd rfl h
  | some e => exact ⟨e.1, List.mem_map.2 ⟨e, List.mem_of_find?_eq_some hf, rfl⟩, hK.symm (by have := List.find?_some hf; exact this)⟩

variable [CostLaws C]

theorem LeE.assign {K : Keying S} (hK : K.Lawful) {ex : List (S × (C × Option S))} {top : Elem S C}
    (hb : exploredBetterE K ex top.state top.cost = false) {q : S} {k : C} (h : LeE K ex q k) :
    LeE K (assign K ex top.state (top.cost, top.back)) q k := by
  obtain ⟨cq, bq, h1, h2⟩ := h
  unfold LeE
  rw [find_assign hK]
  by_cases hq : K.eq q top.state = true
  · rw [if_pos hq]
    refine ⟨top.cost, top.back, rfl, ?_⟩
    by_contra hc
    have : LeE K ex top.state top.cost := ⟨cq, bq, by rw [← h1]; exact (find_congr hK _ hq).symm,
      le_trans h2 (le_of_lt (not_le.mp hc))⟩
    rw [← exploredBetterE_iff, hb] at this
    cases this
  · rw [if_neg hq]; exact ⟨cq, bq, h1, h2⟩

theorem ElemInvE.assign {K : Keying S} (hK : K.Lawful) {P : Problem S C} {starts : List (S × C)}
    {ex : List (S × (C × Option S))} {top : Elem S C}
    (hb : exploredBetterE K ex top.state top.cost = false) {e : Elem S C} (h : ElemInvE K P starts ex e) :
    ElemInvE K P starts (assign K ex top.state (top.cost, top.back)) e := by
  rcases h with h | ⟨p, cold, w, h1, h2, h3⟩
  · exact .inl h
  · exact .inr ⟨p, cold, w, h1, h2.assign hK hb, h3⟩

open Classical in
theorem ExInvE.accept {K : Keying S} (hK : K.Lawful) {P : Problem S C} (hnn : NonnegChildren P.expand) {starts : List (S × C)}
    {ex : List (S × (C × Option S))} (hx : ExInvE K P starts ex) {top : Elem S C}
    (hb : exploredBetterE K ex top.state top.cost = false) (h : ElemInvE K P starts ex top) :
    ExInvE K P starts (assign K ex top.state (top.cost, top.back)) := by
  obtain ⟨τ, N, hτe, hτ, hent⟩ := hx
  have hno : ¬ LeE K ex top.state top.cost := by rw [← exploredBetterE_iff, hb]; simp
  refine ⟨fun x => if K.eq x top.state = true then N else τ x, N + 1, ?_, ?_, ?_⟩
  · intro s t hst
    have : K.eq s top.state = K.eq t top.state := by
      rw [eq_comm' hK s, eq_comm' hK t]; exact eq_left hK hst _
    simp only [this, hτe s t hst]
  · intro s hs
    simp only [find_assign hK] at hs
    by_cases h0 : K.eq s top.state = true
    · simp only [if_pos h0]; omega
    · simp only [if_neg h0] at hs ⊢
      have := hτ s hs; omega
  · intro s c b hs
    rw [find_assign hK] at hs
    by_cases h0 : K.eq s top.state = true
    · rw [if_pos h0] at hs
      simp only [Option.some.injEq, Prod.mk.injEq] at hs
      obtain ⟨rfl, rfl⟩ := hs
      refine ⟨?_, ?_⟩
      · intro hn
        rcases h with ⟨_, h2⟩ | ⟨p, cold, w, h1, _⟩
        · exact ⟨_, h0, h2⟩
        · rw [h1] at hn; cases hn
      · intro p hp
        rcases h with ⟨h1, _⟩ | ⟨p', cold, w, h1, ⟨cp, bp, e1, e2⟩, h3, h4⟩
        · rw [h1] at hp; cases hp
        · rw [h1] at hp
          cases hp
          have hle : cold ≤ top.cost := by rw [h4]; exact CostLaws.le_add _ _ (hnn _ _ _ h3)
          have hne : ¬ K.eq p top.state = true := by
            intro hpt
            exact hno ⟨cp, bp, by rw [← e1]; exact (find_congr hK _ hpt).symm, le_trans e2 hle⟩
          refine ⟨top.state, cold, w, cp, bp, h0, h3, h4, by rw [find_assign hK, if_neg hne]; exact e1, e2, fun _ => ?_⟩
          simp only [if_neg hne, if_pos h0]
          exact hτ p (by rw [e1]; simp)
    · rw [if_neg h0] at hs
      obtain ⟨hn, hp⟩ := hent s c b hs
      refine ⟨hn, ?_⟩
      intro p hbp
      obtain ⟨s0, cold, w, cp, bp, q0, q1, q2, q3, q4, q5⟩ := hp p hbp
      by_cases hpt : K.eq p top.state = true
      · have hlt : top.cost < cp := by
          by_contra hc
          exact hno ⟨cp, bp, by rw [← q3]; exact (find_congr hK _ hpt).symm, not_lt.mp hc⟩
        exact ⟨s0, cold, w, top.cost, top.back, q0, q1, q2, by rw [find_assign hK, if_pos hpt],
          le_of_lt (lt_of_lt_of_le hlt q4), fun he => absurd (he ▸ lt_of_lt_of_le hlt q4) (lt_irrefl _)⟩
      · refine ⟨s0, cold, w, cp, bp, q0, q1, q2, by rw [find_assign hK, if_neg hpt]; exact q3, q4, fun he => ?_⟩
        simp only [if_neg hpt, if_neg h0]
        exact q5 he

theorem pushKidE_inv {K : Keying S} {P : Problem S C} {starts : List (S × C)} {s : S} {c : C}
    (kids : List (S × C)) (st : StE S C) (hq : ∀ e ∈ st.queue, ElemInvE K P starts st.explored e) (hs : LeE K st.explored s c)
    (hk : ∀ x ∈ kids, ChildEdge P.expand s x.1 x.2) :
    (∀ e ∈ (kids.foldl (pushKidE K P s c) st).queue, ElemInvE K P starts st.explored e) ∧
      (kids.foldl (pushKidE K P s c) st).explored = st.explored := by
  induction kids generalizing st with
  | nil => exact ⟨hq, rfl⟩
  | cons a l ih =>
    have hstep : (∀ e ∈ (pushKidE K P s c st a).queue, ElemInvE K P starts st.explored e) ∧
        (pushKidE K P s c st a).explored = st.explored := by
      unfold pushKidE
      split
      · exact ⟨hq, rfl⟩
      · refine ⟨?_, rfl⟩
        intro e he
        rcases List.mem_cons.1 he with rfl | he
        · exact .inr ⟨s, c, a.2, rfl, hs, hk a (by simp), rfl⟩
        · exact hq e he
    obtain ⟨a1, a2⟩ := hstep
    obtain ⟨b1, b2⟩ := ih (pushKidE K P s c st a) (by rw [a2]; exact a1) (by rw [a2]; exact hs)
      (fun x hx => hk x (by simp [hx]))
    rw [a2] at b1 b2
    exact ⟨b1, b2⟩

theorem initE_inv (K : Keying S) (P : Problem S C) (starts : List (S × C)) : InvE K P starts (initE K P starts) := by
  have gen : ∀ (l : List (S × C)) (st : StE S C), (∀ x ∈ l, x ∈ starts) →
      (∀ e ∈ st.queue, ElemInvE K P starts st.explored e) → st.explored = [] →
      (∀ e ∈ (l.foldl (pushStartE K P) st).queue, ElemInvE K P starts [] e) ∧ (l.foldl (pushStartE K P) st).explored = [] := by
    intro l
    induction l with
    | nil => intro st _ h1 h2; exact ⟨by rw [h2] at h1; exact h1, h2⟩
    | cons a l ih =>
      intro st hl h1 h2
      refine ih (pushStartE K P st a) (fun x hx => hl x (by simp [hx])) ?_ ?_
      · unfold pushStartE
        split
        · exact h1
        · intro e he
          rcases List.mem_cons.1 he with rfl | he
          · exact .inl ⟨rfl, hl a (by simp)⟩
          · exact h1 e he
      · unfold pushStartE
        split
        · exact h2
        · exact h2
  obtain ⟨g1, g2⟩ := gen starts ⟨[], [], []⟩ (fun _ h => h) (by simp) rfl
  refine ⟨?_, ?_⟩
  · unfold initE; rw [g2]
    exact ⟨fun _ => 0, 0, fun _ _ _ => rfl, fun s hs => absurd (find_nil K s) hs, fun s c b hs => by
      rw [find_nil] at hs; cases hs⟩
  · unfold initE; rw [g2]; exact g1

theorem InvE.step {K : Keying S} (hK : K.Lawful) {P : Problem S C} (hnn : NonnegChildren P.expand) {starts : List (S × C)}
    {a b : StE S C} (h : InvE K P starts a) (hs : StepE K P a b) : InvE K P starts b := by
  classical
  cases hs with
  | @skip top rest hp hb => exact ⟨h.ex, fun e he => h.q e (hp.mem_rest he)⟩
  | @expand top rest kids hp hb hg hk =>
    have htop := h.q top hp.mem_top
    have hex := h.ex.accept hK hnn hb htop
    have hle : LeE K (assign K a.explored top.state (top.cost, top.back)) top.state top.cost :=
      ⟨_, _, by rw [find_assign hK, if_pos (hK.refl _)], le_refl _⟩
    obtain ⟨k1, k2⟩ := pushKidE_inv (K := K) (P := P) (starts := starts) kids
      ⟨rest, erasedE K P a.members top.state, assign K a.explored top.state (top.cost, top.back)⟩
      (fun e he => (h.q e (hp.mem_rest he)).assign hK hb) hle (fun x hx => ⟨kids, hk, hx⟩)
    exact ⟨by rw [k2]; exact hex, by rw [k2]; exact k1⟩

theorem InvE.steps {K : Keying S} (hK : K.Lawful) {P : Problem S C} (hnn : NonnegChildren P.expand) {starts : List (S × C)}
    {a b : StE S C} (h : InvE K P starts a) (hs : StepsE K P a b) : InvE K P starts b := by
  induction hs with
  | refl => exact h
  | step h1 _ ih => exact ih (h.step hK hnn h1)

theorem ChainE.det {K : Keying S} {ex : List (S × (C × Option S))} {b : Option S} {r r' : Res (List S)} (h : ChainE K ex b r)
    (h' : ChainE K ex b r') : r = r' := by
  induction h generalizing r' with
  | nil => cases h'; rfl
  | cons h _ ih =>
    cases h' with
    | cons h2 hc2 => rw [h] at h2; cases h2; have := ih hc2; cases this; rfl
    | consThrow h2 hc2 => rw [h] at h2; cases h2; have := ih hc2; cases this
    | missing h2 => rw [h] at h2; cases h2
  | consThrow h _ ih =>
    cases h' with
    | cons h2 hc2 => rw [h] at h2; cases h2; have := ih hc2; cases this
    | consThrow h2 hc2 => rw [h] at h2; cases h2; have := ih hc2; cases this; rfl
    | missing h2 => rw [h] at h2; cases h2
  | missing h =>
    cases h' with
    | cons h2 hc2 => rw [h] at h2; cases h2
    | consThrow h2 hc2 => rw [h] at h2; cases h2
    | missing h2 => rfl

open Classical in
theorem ExInvE.chain {K : Keying S} (hK : K.Lawful) {P : Problem S C} (hnn : NonnegChildren P.expand) {starts : List (S × C)}
    {ex : List (S × (C × Option S))} (h : ExInvE K P starts ex) {s : S} {c : C} {b : Option S} (hs : find K ex s = some (c, b)) :
    ∃ l, ChainE K ex b (.ok l) ∧ ∃ c', RWalkE K.eq starts (ChildEdge P.expand) (s :: l) c' ∧ c' ≤ c := by
  obtain ⟨τ, N, hτe, _, hent⟩ := h
  let lt : S → S → Bool := fun p s =>
    match find K ex p, find K ex s with
    | some (cp, _), some (cs, _) => decide (cp < cs) || (decide (cp = cs) && decide (τ p < τ s))
    | _, _ => false
  have lt_def : ∀ p s cp bp cs bs, find K ex p = some (cp, bp) → find K ex s = some (cs, bs) →
      (lt p s = true ↔ cp < cs ∨ (cp = cs ∧ τ p < τ s)) := by
    intro p s cp bp cs bs h1 h2
    simp only [lt, h1, h2, Bool.or_eq_true, Bool.and_eq_true, decide_eq_true_eq]
  have main : ∀ (n : Nat) (s : S) (c : C) (b : Option S), ((ex.map (·.1)).filter (fun p => lt p s)).length = n →
      find K ex s = some (c, b) →
      ∃ l, ChainE K ex b (.ok l) ∧ ∃ c', RWalkE K.eq starts (ChildEdge P.expand) (s :: l) c' ∧ c' ≤ c := by
    intro n
    induction n using Nat.strong_induction_on with
    | _ n ih =>
      intro s c b hn hs
      obtain ⟨h0, hp⟩ := hent s c b hs
      cases b with
      | none =>
        obtain ⟨s0, h1, h2⟩ := h0 rfl
        exact ⟨[], .nil, c, .start h1 h2, le_refl _⟩
      | some p =>
        obtain ⟨s0, cold, w, cp, bp, e0, e1, e2, e3, e4, e5⟩ := hp p rfl
        have hlt : cp < c ∨ (cp = c ∧ τ p < τ s) := by
          have h1 : cold ≤ c := by rw [e2]; exact CostLaws.le_add _ _ (hnn _ _ _ e1)
          rcases lt_or_eq_of_le (le_trans e4 h1) with h2 | h2
          · exact .inl h2
          · exact .inr ⟨h2, e5 (le_antisymm e4 (h2 ▸ h1))⟩
        have hps := (lt_def p s cp bp c (some p) e3 hs).mpr hlt
        have hcount : ((ex.map (·.1)).filter (fun q => lt q p)).length < ((ex.map (·.1)).filter (fun q => lt q s)).length := by
          apply filter_length_lt
          · intro q _ hqp
            cases hq : find K ex q with
            | none => simp only [lt, hq] at hqp; cases hqp
            | some eq =>
              obtain ⟨cq, bq⟩ := eq
              rw [lt_def q p cq bq cp bp hq e3] at hqp
              rw [lt_def q s cq bq c (some p) hq hs]
              rcases hqp with a | ⟨a, a'⟩ <;> rcases hlt with d | ⟨d, d'⟩
              · exact .inl (lt_trans a d)
              · exact .inl (d ▸ a)
              · exact .inl (a ▸ d)
              · exact .inr ⟨a.trans d, lt_trans a' d'⟩
          · obtain ⟨d, hd, hpd⟩ := find_mem hK (m := ex) (s := p) (by rw [e3]; simp)
            have hfd : find K ex d = some (cp, bp) := by rw [← e3]; exact (find_congr hK _ hpd).symm
            refine ⟨d, hd, ?_, ?_⟩
            · rw [lt_def d s cp bp c (some p) hfd hs, ← hτe p d hpd]; exact hlt
            · rw [Bool.eq_false_iff]
              intro hc
              rw [lt_def d p cp bp cp bp hfd e3, ← hτe p d hpd] at hc
              rcases hc with hc | ⟨_, hc⟩
              · exact lt_irrefl _ hc
              · exact lt_irrefl _ hc
        obtain ⟨l, hl, c', hw, hc'⟩ := ih _ (hn ▸ hcount) p cp bp rfl e3
        exact ⟨p :: l, .cons e3 hl, c' + w, .step hw e1 e0,
          by rw [e2]; exact CostLaws.add_le_add_right _ _ _ (le_trans hc' e4)⟩
  exact main _ s c b rfl hs

/-- What extraction returns after the goal was accepted. -/
theorem extractE_spec {K : Keying S} (hK : K.Lawful) {P : Problem S C} (hnn : NonnegChildren P.expand) {starts : List (S × C)}
    {st : StE S C} (h : InvE K P starts st) {top : Elem S C} {rest : List (Elem S C)} (hp : Pop st.queue top rest)
    (hb : exploredBetterE K st.explored top.state top.cost = false) :
    ∃ l, (∃ c', RWalkE K.eq starts (ChildEdge P.expand) (top.state :: l) c' ∧ c' ≤ top.cost) ∧
      ExtractE K (assign K st.explored top.state (top.cost, top.back)) top.state
        (mkResult (top.state :: l).reverse top.cost) ∧
      ∀ r, ExtractE K (assign K st.explored top.state (top.cost, top.back)) top.state r →
        r = mkResult (top.state :: l).reverse top.cost := by
  classical
  have hex := h.ex.accept hK hnn hb (h.q top hp.mem_top)
  have hf : find K (assign K st.explored top.state (top.cost, top.back)) top.state = some (top.cost, top.back) := by
    rw [find_assign hK, if_pos (hK.refl _)]
  obtain ⟨l, hl, hw⟩ := hex.chain hK hnn hf
  refine ⟨l, hw, ?_, ?_⟩
  · have := ExtractE.found hf hl
    simpa using this
  · intro r hr
    cases hr with
    | notFound h => rw [hf] at h; cases h
    | found h hc =>
      rw [hf] at h
      cases h
      have := ChainE.det hc hl
      subst this
      simp

end CRU.Astar
