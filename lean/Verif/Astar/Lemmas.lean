import Verif.Astar.Model
import Mathlib.Data.List.Nodup
import Mathlib.Data.List.Perm.Subperm
import Mathlib.Data.Fintype.Basic
import Mathlib.Order.WellFounded
import Mathlib.Data.Finite.Defs
namespace CRU.Astar
set_option linter.unusedSectionVars false

variable {S C : Type} [DecidableEq S] [LinearOrder C] [Add C] [Zero C] [OrderTop C]

/-- Walks written last state first. -/
inductive RWalk (starts : List (S × C)) (edge : S → S → C → Prop) : List S → C → Prop
  | start {s : S} {c : C} (h : (s, c) ∈ starts) : RWalk starts edge [s] c
  | step {l : List S} {s t : S} {c w : C} (h : RWalk starts edge (s :: l) c) (he : edge s t w) :
      RWalk starts edge (t :: s :: l) (c + w)

theorem RWalk.walk {starts : List (S × C)} {edge : S → S → C → Prop} {l : List S} {c : C} (h : RWalk starts edge l c) :
    Walk starts edge l.reverse c := by
  induction h with
  | start h => exact .start h
  | @step l s t c w _ he ih =>
    have : (t :: s :: l).reverse = l.reverse ++ [s] ++ [t] := by simp
    rw [this]
    exact .step (by simpa using ih) he

theorem Walk.rwalk {starts : List (S × C)} {edge : S → S → C → Prop} {l : List S} {c : C} (h : Walk starts edge l c) :
    RWalk starts edge l.reverse c := by
  induction h with
  | start h => exact .start h
  | @step l s t c w _ he ih =>
    have : (l ++ [s] ++ [t]).reverse = t :: s :: l.reverse := by simp
    rw [this]
    exact .step (by simpa using ih) he

/-- Edges offered by the child generator. -/
def PEdge (P : Problem S C) (s t : S) (w : C) : Prop := ∃ kids, P.expand s = .ok kids ∧ (t, w) ∈ kids

/-- `q` is explored with cost at most `c`. -/
def Le (ex : S → Option (C × Option S)) (q : S) (c : C) : Prop := ∃ cq bq, ex q = some (cq, bq) ∧ cq ≤ c

theorem exploredBetter_iff (ex : S → Option (C × Option S)) (s : S) (c : C) : exploredBetter ex s c = true ↔ Le ex s c := by
  unfold exploredBetter Le
  cases h : ex s with
  | none => simp
  | some e => obtain ⟨a, b⟩ := e; simp

theorem Le.mono {ex : S → Option (C × Option S)} {q : S} {c d : C} (h : Le ex q c) (hcd : c ≤ d) : Le ex q d := by
  obtain ⟨a, b, h1, h2⟩ := h
  exact ⟨a, b, h1, le_trans h2 hcd⟩

/-- Covered: explored at most as expensive, or queued at most as expensive. -/
def Covered (st : St S C) (t : S) (k : C) : Prop := Le st.explored t k ∨ ∃ e ∈ st.queue, e.state = t ∧ e.cost ≤ k

/-- What is known about a queued element. -/
def ElemInv (P : Problem S C) (starts : List (S × C)) (ex : S → Option (C × Option S)) (e : Elem S C) : Prop :=
  (e.back = none ∧ (e.state, e.cost) ∈ starts ∧ e.value = P.h e.state) ∨
  (∃ p l cold w, e.back = some p ∧ RWalk starts (PEdge P) (p :: l) cold ∧ (p :: l).Nodup ∧ (∀ q ∈ p :: l, Le ex q cold) ∧
    PEdge P p e.state w ∧ e.cost = cold + w ∧ e.value = e.cost + P.h e.state)

/-- What is known about an explored entry; `τ` is the (ghost) time of its last update. -/
def EntryInv (P : Problem S C) (starts : List (S × C)) (ex : S → Option (C × Option S)) (τ : S → Nat) (s : S) (c : C)
    (b : Option S) : Prop :=
  (∃ l, RWalk starts (PEdge P) (s :: l) c ∧ (s :: l).Nodup ∧ ∀ q ∈ s :: l, Le ex q c) ∧
  (b = none → (s, c) ∈ starts) ∧
  (∀ p, b = some p → ∃ cold w cp bp, PEdge P p s w ∧ c = cold + w ∧ ex p = some (cp, bp) ∧ cp ≤ cold ∧
    (cp = cold → τ p < τ s))

/-- Facts about the explored map alone. -/
structure ExInv (P : Problem S C) (starts : List (S × C)) (ex : S → Option (C × Option S)) : Prop where
  entry : ∃ (τ : S → Nat) (N : Nat), (∀ s, ex s ≠ none → τ s < N) ∧
    ∀ s c b, ex s = some (c, b) → EntryInv P starts ex τ s c b
  finite : ∃ D : List S, ∀ s, ex s ≠ none → s ∈ D

/-- Facts about queue and members. -/
structure QInv (P : Problem S C) (starts : List (S × C)) (st : St S C) : Prop where
  members : P.limit = true → ∀ s c, st.members s = some c → ∃ e ∈ st.queue, e.state = s ∧ e.cost = c
  elems : ∀ e ∈ st.queue, ElemInv P starts st.explored e

structure Inv (P : Problem S C) (starts : List (S × C)) (st : St S C) : Prop where
  ex : ExInv P starts st.explored
  q : QInv P starts st
  nongoal : ∀ s, st.explored s ≠ none → P.goal s = false
  starts : ∀ s c, (s, c) ∈ starts → Covered st s c
  closed : ∀ s c b, st.explored s = some (c, b) → ∀ t w, PEdge P s t w → Covered st t (c + w)
  okExp : ∀ s, st.explored s ≠ none → ∃ kids, P.expand s = .ok kids

theorem upd_self {V : Type} (m : S → V) (k : S) (v : V) : upd m k v k = v := by simp [upd]
theorem upd_ne {V : Type} (m : S → V) (k : S) (v : V) (x : S) (h : x ≠ k) : upd m k v x = m x := by simp [upd, h]

theorem queueBetter_covered {P : Problem S C} {starts : List (S × C)} {st : St S C} (h : QInv P starts st) {s : S} {c : C}
    (hb : queueBetter P st.members s c = true) : Covered st s c := by
  unfold queueBetter at hb
  split at hb
  · rename_i hl
    split at hb
    · rename_i c' hc
      obtain ⟨e, he, h1, h2⟩ := h.members hl s c' hc
      exact .inr ⟨e, he, h1, by rw [h2]; simpa using hb⟩
    · cases hb
  · cases hb

theorem QInv.push {P : Problem S C} {starts : List (S × C)} {st : St S C} (h : QInv P starts st) {e : Elem S C}
    (he : ElemInv P starts st.explored e) : QInv P starts (push P st e) := by
  constructor
  · intro hl s c hm
    simp only [CRU.Astar.push, if_pos hl] at hm ⊢
    by_cases hs : s = e.state
    · subst hs
      rw [upd_self] at hm
      cases hm
      exact ⟨e, by simp, rfl, rfl⟩
    · rw [upd_ne _ _ _ _ hs] at hm
      obtain ⟨e', he', h1⟩ := h.members hl s c hm
      exact ⟨e', by simp [he'], h1⟩
  · intro x hx
    simp only [CRU.Astar.push, List.mem_cons] at hx ⊢
    rcases hx with rfl | hx
    · exact he
    · exact h.elems x hx

theorem Covered.push {P : Problem S C} {st : St S C} {t : S} {k : C} (h : Covered st t k) (e : Elem S C) :
    Covered (push P st e) t k := by
  rcases h with h | ⟨x, hx, h⟩
  · exact .inl h
  · exact .inr ⟨x, by simp [CRU.Astar.push, hx], h⟩

/-! ### Initial state -/

theorem init_inv (P : Problem S C) (starts : List (S × C)) : Inv P starts (init P starts) ∧
    (init P starts).explored = fun _ => none := by
  have gen : ∀ (l : List (S × C)) (st : St S C), (∀ x ∈ l, x ∈ starts) → QInv P starts st → (st.explored = fun _ => none) →
      QInv P starts (l.foldl (pushStart P) st) ∧ ((l.foldl (pushStart P) st).explored = fun _ => none) ∧
      (∀ s c, Covered st s c → Covered (l.foldl (pushStart P) st) s c) ∧
      (∀ x ∈ l, Covered (l.foldl (pushStart P) st) x.1 x.2) := by
    intro l
    induction l with
    | nil => intro st _ h1 h2; exact ⟨h1, h2, fun _ _ h => h, by simp⟩
    | cons a l ih =>
      intro st hl h1 h2
      have hstep : QInv P starts (pushStart P st a) ∧ ((pushStart P st a).explored = fun _ => none) ∧
          (∀ s c, Covered st s c → Covered (pushStart P st a) s c) ∧ Covered (pushStart P st a) a.1 a.2 := by
        unfold pushStart
        split
        · rename_i hb
          exact ⟨h1, h2, fun _ _ h => h, queueBetter_covered h1 hb⟩
        · refine ⟨h1.push (.inl ⟨rfl, hl a (by simp), rfl⟩), h2, fun _ _ h => h.push _, ?_⟩
          exact .inr ⟨⟨a.1, none, a.2, P.h a.1⟩, by simp [push], rfl, le_refl _⟩
      obtain ⟨a1, a2, a3, a4⟩ := hstep
      obtain ⟨b1, b2, b3, b4⟩ := ih (pushStart P st a) (fun x hx => hl x (by simp [hx])) a1 a2
      refine ⟨b1, b2, fun s c h => b3 s c (a3 s c h), ?_⟩
      intro x hx
      rcases List.mem_cons.mp hx with rfl | hx
      · exact b3 _ _ a4
      · exact b4 x hx
  obtain ⟨g1, g2, _, g4⟩ := gen starts ⟨[], fun _ => none, fun _ => none⟩ (fun _ h => h)
    ⟨by simp, by simp⟩ rfl
  refine ⟨⟨?_, g1, ?_, fun s c h => g4 (s, c) h, ?_, ?_⟩, g2⟩
  · unfold init; rw [g2]
    exact ⟨⟨fun _ => 0, 0, by simp, by simp⟩, ⟨[], by simp⟩⟩
  · intro s hs; unfold init at hs; rw [g2] at hs; exact absurd rfl hs
  · intro s c b hs; unfold init at hs; rw [g2] at hs; cases hs
  · intro s hs; unfold init at hs; rw [g2] at hs; exact absurd rfl hs

/-! ### Popping -/

theorem Pop.mem_top {q : List (Elem S C)} {top : Elem S C} {rest : List (Elem S C)} (h : Pop q top rest) : top ∈ q :=
  h.1.mem_iff.mpr (by simp)

theorem Pop.mem_rest {q : List (Elem S C)} {top : Elem S C} {rest : List (Elem S C)} (h : Pop q top rest) {e : Elem S C}
    (he : e ∈ rest) : e ∈ q := h.1.mem_iff.mpr (by simp [he])

theorem Pop.mem_cases {q : List (Elem S C)} {top : Elem S C} {rest : List (Elem S C)} (h : Pop q top rest) {e : Elem S C}
    (he : e ∈ q) : e = top ∨ e ∈ rest := List.mem_cons.mp (h.1.mem_iff.mp he)

theorem erased_members {P : Problem S C} {starts : List (S × C)} {st : St S C} (h : QInv P starts st) {top : Elem S C}
    {rest : List (Elem S C)} (hp : Pop st.queue top rest) (hl : P.limit = true) (s : S) (c : C)
    (hm : erased P st.members top.state s = some c) : ∃ e ∈ rest, e.state = s ∧ e.cost = c := by
  unfold erased at hm
  rw [if_pos hl] at hm
  by_cases hs : s = top.state
  · subst hs; rw [upd_self] at hm; cases hm
  · rw [upd_ne _ _ _ _ hs] at hm
    obtain ⟨e, he, h1, h2⟩ := h.members hl s c hm
    rcases hp.mem_cases he with rfl | he
    · exact absurd h1.symm hs
    · exact ⟨e, he, h1, h2⟩

variable [CostLaws C]

/-- The explored map after accepting `top`. -/
theorem Le.upd {ex : S → Option (C × Option S)} {top : Elem S C} (hb : exploredBetter ex top.state top.cost = false)
    {q : S} {k : C} (h : Le ex q k) : Le (upd ex top.state (some (top.cost, top.back))) q k := by
  obtain ⟨cq, bq, h1, h2⟩ := h
  by_cases hq : q = top.state
  · subst hq
    refine ⟨top.cost, top.back, upd_self _ _ _, ?_⟩
    by_contra hc
    have : Le ex top.state top.cost := ⟨cq, bq, h1, le_trans h2 (le_of_lt (not_le.mp hc))⟩
    rw [← exploredBetter_iff, hb] at this
    cases this
  · exact ⟨cq, bq, by rw [upd_ne _ _ _ _ hq]; exact h1, h2⟩

theorem ElemInv.upd {P : Problem S C} {starts : List (S × C)} {ex : S → Option (C × Option S)} {top : Elem S C}
    (hb : exploredBetter ex top.state top.cost = false) {e : Elem S C} (h : ElemInv P starts ex e) :
    ElemInv P starts (upd ex top.state (some (top.cost, top.back))) e := by
  rcases h with h | ⟨p, l, cold, w, h1, h2, h3, h4, h5⟩
  · exact .inl h
  · exact .inr ⟨p, l, cold, w, h1, h2, h3, fun q hq => (h4 q hq).upd hb, h5⟩

/-- The walk that led to an accepted element is simple. -/
theorem accepted_walk {P : Problem S C} (hnn : ∀ s t w, PEdge P s t w → (0 : C) ≤ w) {starts : List (S × C)}
    {ex : S → Option (C × Option S)} {top : Elem S C} (hb : exploredBetter ex top.state top.cost = false)
    (h : ElemInv P starts ex top) :
    ∃ l, RWalk starts (PEdge P) (top.state :: l) top.cost ∧ (top.state :: l).Nodup ∧ ∀ q ∈ l, Le ex q top.cost := by
  rcases h with ⟨_, h2, _⟩ | ⟨p, l, cold, w, h1, h2, h3, h4, h5, h6, _⟩
  · exact ⟨[], .start h2, by simp, by simp⟩
  · have hle : cold ≤ top.cost := by rw [h6]; exact CostLaws.le_add _ _ (hnn _ _ _ h5)
    refine ⟨p :: l, by rw [h6]; exact .step h2 h5, ?_, fun q hq => (h4 q hq).mono hle⟩
    refine List.nodup_cons.mpr ⟨fun hmem => ?_, h3⟩
    have := (h4 _ hmem).mono hle
    rw [← exploredBetter_iff, hb] at this
    cases this

theorem ExInv.accept {P : Problem S C} (hnn : ∀ s t w, PEdge P s t w → (0 : C) ≤ w) {starts : List (S × C)}
    {ex : S → Option (C × Option S)} (hx : ExInv P starts ex) {top : Elem S C}
    (hb : exploredBetter ex top.state top.cost = false) (h : ElemInv P starts ex top) :
    ExInv P starts (upd ex top.state (some (top.cost, top.back))) := by
  obtain ⟨⟨τ, N, hτ, hent⟩, ⟨D, hD⟩⟩ := hx
  constructor
  · refine ⟨upd τ top.state N, N + 1, ?_, ?_⟩
    · intro s hs
      by_cases h0 : s = top.state
      · subst h0; rw [upd_self]; omega
      · rw [upd_ne _ _ _ _ h0] at hs ⊢
        have := hτ s hs; omega
    · intro s c b hs
      by_cases h0 : s = top.state
      · subst h0
        rw [upd_self] at hs
        simp only [Option.some.injEq, Prod.mk.injEq] at hs
        obtain ⟨rfl, rfl⟩ := hs
        obtain ⟨l, l1, l2, l3⟩ := accepted_walk hnn hb h
        refine ⟨⟨l, l1, l2, ?_⟩, ?_, ?_⟩
        · intro q hq
          rcases List.mem_cons.mp hq with rfl | hq
          · exact ⟨_, _, upd_self _ _ _, le_refl _⟩
          · exact (l3 q hq).upd hb
        · intro hn
          rcases h with ⟨_, h2, _⟩ | ⟨p, l, cold, w, h1, _⟩
          · exact h2
          · rw [h1] at hn; cases hn
        · intro p hp
          rcases h with ⟨h1, _⟩ | ⟨p', l', cold, w, h1, h2, h3, h4, h5, h6, _⟩
          · rw [h1] at hp; cases hp
          · rw [h1] at hp
            cases hp
            obtain ⟨cp, bp, e1, e2⟩ := h4 p (by simp)
            have hne : p ≠ top.state := by
              rintro rfl
              have hle : cold ≤ top.cost := by rw [h6]; exact CostLaws.le_add _ _ (hnn _ _ _ h5)
              have : Le ex top.state top.cost := ⟨cp, bp, e1, le_trans e2 hle⟩
              rw [← exploredBetter_iff, hb] at this
              cases this
            refine ⟨cold, w, cp, bp, h5, h6, by rw [upd_ne _ _ _ _ hne]; exact e1, e2, fun _ => ?_⟩
            rw [upd_ne _ _ _ _ hne, upd_self]
            exact hτ p (by rw [e1]; simp)
      · rw [upd_ne _ _ _ _ h0] at hs
        obtain ⟨⟨l, l1, l2, l3⟩, hn, hp⟩ := hent s c b hs
        refine ⟨⟨l, l1, l2, fun q hq => (l3 q hq).upd hb⟩, hn, ?_⟩
        intro p hbp
        obtain ⟨cold, w, cp, bp, q1, q2, q3, q4, q5⟩ := hp p hbp
        by_cases hpt : p = top.state
        · subst hpt
          have hlt : top.cost < cp := by
            by_contra hc
            have : Le ex top.state top.cost := ⟨cp, bp, q3, not_lt.mp hc⟩
            rw [← exploredBetter_iff, hb] at this
            cases this
          exact ⟨cold, w, top.cost, top.back, q1, q2, upd_self _ _ _, le_of_lt (lt_of_lt_of_le hlt q4),
            fun he => absurd (he ▸ lt_of_lt_of_le hlt q4) (lt_irrefl _)⟩
        · refine ⟨cold, w, cp, bp, q1, q2, by rw [upd_ne _ _ _ _ hpt]; exact q3, q4, fun he => ?_⟩
          rw [upd_ne _ _ _ _ hpt, upd_ne _ _ _ _ h0]
          exact q5 he
  · refine ⟨top.state :: D, fun s hs => ?_⟩
    by_cases h0 : s = top.state
    · simp [h0]
    · rw [upd_ne _ _ _ _ h0] at hs
      simp [hD s hs]

/-- The loop over the children. -/
theorem kids_inv {P : Problem S C} {starts : List (S × C)} {s : S} {c : C} (kids : List (S × C)) (st : St S C)
    (hq : QInv P starts st) (hent : ∃ l, RWalk starts (PEdge P) (s :: l) c ∧ (s :: l).Nodup ∧ ∀ q ∈ s :: l, Le st.explored q c)
    (hk : ∀ x ∈ kids, PEdge P s x.1 x.2) :
    QInv P starts (kids.foldl (pushKid P s c) st) ∧ (kids.foldl (pushKid P s c) st).explored = st.explored ∧
      (∀ t k, Covered st t k → Covered (kids.foldl (pushKid P s c) st) t k) ∧
      (∀ x ∈ kids, Covered (kids.foldl (pushKid P s c) st) x.1 (c + x.2)) := by
  induction kids generalizing st with
  | nil => exact ⟨hq, rfl, fun _ _ h => h, by simp⟩
  | cons a l ih =>
    have hstep : QInv P starts (pushKid P s c st a) ∧ (pushKid P s c st a).explored = st.explored ∧
        (∀ t k, Covered st t k → Covered (pushKid P s c st a) t k) ∧ Covered (pushKid P s c st a) a.1 (c + a.2) := by
      unfold pushKid
      split
      · rename_i hb
        refine ⟨hq, rfl, fun _ _ h => h, ?_⟩
        rcases Bool.or_eq_true_iff.mp hb with h | h
        · exact .inl ((exploredBetter_iff _ _ _).mp h)
        · exact queueBetter_covered hq h
      · obtain ⟨wl, w1, w2, w3⟩ := hent
        refine ⟨hq.push (.inr ⟨s, wl, c, a.2, rfl, w1, w2, w3, hk a (by simp), rfl, rfl⟩), rfl, fun _ _ h => h.push _, ?_⟩
        exact .inr ⟨⟨a.1, some s, c + a.2, c + a.2 + P.h a.1⟩, by simp [push], rfl, le_refl _⟩
    obtain ⟨a1, a2, a3, a4⟩ := hstep
    obtain ⟨b1, b2, b3, b4⟩ := ih (pushKid P s c st a) a1 (by rw [a2]; exact hent) (fun x hx => hk x (by simp [hx]))
    refine ⟨b1, b2.trans a2, fun t k h => b3 t k (a3 t k h), ?_⟩
    intro x hx
    rcases List.mem_cons.mp hx with rfl | hx
    · exact b3 _ _ a4
    · exact b4 x hx

theorem Inv.step {P : Problem S C} (hnn : ∀ s t w, PEdge P s t w → (0 : C) ≤ w) {starts : List (S × C)} {a b : St S C}
    (h : Inv P starts a) (hs : Step P a b) : Inv P starts b := by
  cases hs with
  | @skip top rest hp hb =>
    have hcov : ∀ t k, Covered a t k → Covered ⟨rest, erased P a.members top.state, a.explored⟩ t k := by
      intro t k hc
      rcases hc with hc | ⟨e, he, h1, h2⟩
      · exact .inl hc
      · rcases hp.mem_cases he with rfl | he
        · exact .inl (by rw [← h1]; exact ((exploredBetter_iff _ _ _).mp hb).mono h2)
        · exact .inr ⟨e, he, h1, h2⟩
    exact ⟨h.ex, ⟨fun hl s c hm => erased_members h.q hp hl s c hm, fun e he => h.q.elems e (hp.mem_rest he)⟩, h.nongoal,
      fun s c hsc => hcov _ _ (h.starts s c hsc), fun s c b hs t w hw => hcov _ _ (h.closed s c b hs t w hw), h.okExp⟩
  | @expand top rest kids hp hb hg hk =>
    have htop := h.q.elems top hp.mem_top
    have hex := h.ex.accept hnn hb htop
    have hq0 : QInv P starts ⟨rest, erased P a.members top.state, upd a.explored top.state (some (top.cost, top.back))⟩ :=
      ⟨fun hl s c hm => erased_members h.q hp hl s c hm, fun e he => (h.q.elems e (hp.mem_rest he)).upd hb⟩
    have hent : ∃ l, RWalk starts (PEdge P) (top.state :: l) top.cost ∧ (top.state :: l).Nodup ∧
        ∀ q ∈ top.state :: l, Le (upd a.explored top.state (some (top.cost, top.back))) q top.cost := by
      obtain ⟨τ, N, _, hent⟩ := hex.entry
      exact (hent top.state top.cost top.back (upd_self _ _ _)).1
    have hcov : ∀ t k, Covered a t k →
        Covered ⟨rest, erased P a.members top.state, upd a.explored top.state (some (top.cost, top.back))⟩ t k := by
      intro t k hc
      rcases hc with hc | ⟨e, he, h1, h2⟩
      · exact .inl (hc.upd hb)
      · rcases hp.mem_cases he with rfl | he
        · exact .inl ⟨_, _, by rw [← h1]; exact upd_self _ _ _, h2⟩
        · exact .inr ⟨e, he, h1, h2⟩
    obtain ⟨k1, k2, k3, k4⟩ := kids_inv kids _ hq0 hent (fun x hx => ⟨kids, hk, hx⟩)
    refine ⟨by rw [k2]; exact hex, k1, ?_, fun s c hsc => k3 _ _ (hcov _ _ (h.starts s c hsc)), ?_, ?_⟩
    · intro s hs
      rw [k2] at hs
      by_cases h0 : s = top.state
      · rw [h0]; exact hg
      · exact h.nongoal s (by dsimp only at hs; rwa [upd_ne _ _ _ _ h0] at hs)
    · intro s c b hs t w hw
      rw [k2] at hs
      dsimp only at hs
      by_cases h0 : s = top.state
      · subst h0
        rw [upd_self] at hs
        simp only [Option.some.injEq, Prod.mk.injEq] at hs
        obtain ⟨rfl, rfl⟩ := hs
        obtain ⟨kids', hk', hm⟩ := hw
        rw [hk] at hk'
        cases hk'
        exact k4 (t, w) hm
      · rw [upd_ne _ _ _ _ h0] at hs
        exact k3 _ _ (hcov _ _ (h.closed s c b hs t w hw))
    · intro s hs
      rw [k2] at hs
      by_cases h0 : s = top.state
      · rw [h0]; exact ⟨kids, hk⟩
      · exact h.okExp s (by dsimp only at hs; rwa [upd_ne _ _ _ _ h0] at hs)

theorem Inv.steps {P : Problem S C} (hnn : ∀ s t w, PEdge P s t w → (0 : C) ≤ w) {starts : List (S × C)} {a b : St S C}
    (h : Inv P starts a) (hs : Steps P a b) : Inv P starts b := by
  induction hs with
  | refl => exact h
  | step h1 _ ih => exact ih (h.step hnn h1)

end CRU.Astar
