import Verif.GraphSearch.Model
import Verif.GraphSearch.Spec
import Verif.Graph.Lemmas
import Mathlib.Data.List.Perm.Subperm
import Mathlib.Data.List.Nodup
namespace CRU.GraphSearch
open CRU.Graph CRU.Parallel
set_option linter.unusedSectionVars false

variable {V C : Type} [LinearOrder C] [Add C] [Zero C] [OrderTop C]

/-- `i` is a position of a list of length `n`. -/
def Pos (n : Nat) (i : Int) : Prop := 0 ≤ i ∧ i < n

theorem atInt_pos {α : Type} {l : List α} {i : Int} (h : Pos l.length i) (d : α) : atInt l i = .ok (l.getD i.toNat d) := by
  obtain ⟨h0, h1⟩ := h
  have h2 : i.toNat < l.length := by omega
  rw [CRU.atInt_ok l i h0 h2]
  simp [h2]

theorem setAt_pos {α : Type} {l : List α} {i : Int} (h : Pos l.length i) (x : α) : setAt l i x = .ok (l.set i.toNat x) := by
  obtain ⟨h0, h1⟩ := h
  unfold setAt
  rw [if_pos ⟨h0, by omega⟩]

theorem getD_set {α : Type} {l : List α} {i j : Int} (hi : Pos l.length i) (hj : 0 ≤ j) (x d : α) :
    (l.set i.toNat x).getD j.toNat d = if j = i then x else l.getD j.toNat d := by
  obtain ⟨h0, h1⟩ := hi
  by_cases h : j = i
  · subst h
    rw [if_pos rfl, List.getD_eq_getElem?_getD, List.getElem?_set_self (by omega)]
    rfl
  · rw [if_neg h, List.getD_eq_getElem?_getD, List.getElem?_set_ne (by omega), ← List.getD_eq_getElem?_getD]

/-- Distance and previous index of `v`. -/
def DSt.D (st : DSt C) (v : Int) : C := st.dist.getD v.toNat ⊤
def DSt.P (st : DSt C) (v : Int) : Int := st.prev.getD v.toNat (-1)

/-- Following back pointers with their edges and costs. -/
inductive Back (g : Graph V C) (st : DSt C) (start : Int) : Int → List Int → Prop
  | here (h : st.D start = 0) : Back g st start start [start]
  | step {v p : Int} {path : List Int} {w : C} (hne : v ≠ start) (hv : Pos g.length v) (hp : st.P v = p)
      (he : InEdge g v p w) (hd : st.D v = st.D p + w) (h : Back g st start p path) : Back g st start v (v :: path)

/-- The loop invariant, except for the edges of the node being expanded. -/
structure DInv (g : Graph V C) (start : Int) (st : DSt C) : Prop where
  lenP : st.prev.length = g.length
  lenD : st.dist.length = g.length
  startPos : Pos g.length start
  startP : st.P start = start
  startD : st.D start = 0
  expl : ∀ u ∈ st.explored, Pos g.length u ∧ st.P u ≠ -1
  nodup : st.explored.Nodup
  path : ∀ v, Pos g.length v → st.P v ≠ -1 → ∃ l, Back g st start v l ∧ ∀ u ∈ l, u ≠ v → u ∈ st.explored
  waiting : ∀ v, Pos g.length v → st.P v ≠ -1 → v ∉ st.explored → (v, st.D v) ∈ st.queue
  queued : ∀ x ∈ st.queue, Pos g.length x.1 ∧ st.P x.1 ≠ -1 ∧ st.D x.1 ≤ x.2
  order : ∀ u ∈ st.explored, ∀ x ∈ st.queue, st.D u ≤ x.2
  unseen : ∀ v, Pos g.length v → st.P v = -1 → st.D v = ⊤

/-- Edges into `u` are relaxed. -/
def Relaxed (g : Graph V C) (st : DSt C) (u : Int) : Prop := ∀ t w, InEdge g t u w → st.D t ≤ st.D u + w

theorem Back.congr {g : Graph V C} {st st' : DSt C} {start v : Int} {l : List Int} (h : Back g st start v l)
    (hc : ∀ u ∈ l, st'.D u = st.D u ∧ st'.P u = st.P u) : Back g st' start v l := by
  induction h with
  | here h => exact .here (by rw [(hc _ (by simp)).1]; exact h)
  | @step v p path w hne hv hp he hd h ih =>
    have hpm : p ∈ path := by cases h <;> simp
    refine .step hne hv (by rw [(hc v (by simp)).2]; exact hp) he ?_ (ih (fun u hu => hc u (by simp [hu])))
    rw [(hc v (by simp)).1, (hc p (by simp [hpm])).1]
    exact hd

theorem Back.mem {g : Graph V C} {st : DSt C} {start v : Int} {l : List Int} (h : Back g st start v l) : v ∈ l := by
  cases h <;> simp

theorem Back.start_mem {g : Graph V C} {st : DSt C} {start v : Int} {l : List Int} (h : Back g st start v l) : start ∈ l := by
  induction h with
  | here => simp
  | step _ _ _ _ _ _ ih => simp [ih]

variable [CostLaws C]

theorem dinit_inv (g : Graph V C) (start : Int) (h : Pos g.length start) :
    DInv g start (dinit (C := C) (g.length : Int) start) := by
  have hP : ∀ v, Pos g.length v → (dinit (C := C) (g.length : Int) start).P v = if v = start then start else -1 := by
    intro v hv
    show ((List.replicate ((g.length : Int)).toNat (-1 : Int)).set start.toNat start).getD v.toNat (-1) = _
    rw [getD_set (by simpa using h) hv.1]
    rw [List.getD_eq_getElem?_getD, List.getElem?_replicate]
    split
    · rfl
    · split <;> rfl
  have hD : ∀ v, Pos g.length v → (dinit (C := C) (g.length : Int) start).D v = if v = start then 0 else ⊤ := by
    intro v hv
    show ((List.replicate ((g.length : Int)).toNat (⊤ : C)).set start.toNat 0).getD v.toNat ⊤ = _
    rw [getD_set (by simpa using h) hv.1]
    rw [List.getD_eq_getElem?_getD, List.getElem?_replicate]
    split
    · rfl
    · split <;> rfl
  have hs0 : start ≠ -1 := by have := h.1; omega
  refine ⟨by simp [dinit], by simp [dinit], h, by rw [hP _ h, if_pos rfl], by rw [hD _ h, if_pos rfl], by simp [dinit],
    by simp [dinit], ?_, ?_, ?_, by simp [dinit], ?_⟩
  · intro v hv hp
    rw [hP _ hv] at hp
    split at hp
    · rename_i he; subst he
      exact ⟨[v], .here (by rw [hD _ hv, if_pos rfl]), by simp⟩
    · exact absurd rfl hp
  · intro v hv hp _
    rw [hP _ hv] at hp
    split at hp
    · rename_i he; subst he
      rw [hD _ hv, if_pos rfl]; simp [dinit]
    · exact absurd rfl hp
  · intro x hx
    simp only [dinit, List.mem_singleton] at hx
    subst hx
    refine ⟨h, ?_, ?_⟩
    · rw [hP _ h, if_pos rfl]; exact hs0
    · rw [hD _ h, if_pos rfl]
  · intro v hv hp
    rw [hP _ hv] at hp
    rw [hD _ hv]
    split at hp
    · exact absurd hp hs0
    · rename_i hne; rw [if_neg hne]

/-- One edge. -/
theorem relax_inv {g : Graph V C} {start : Int} {st : DSt C} (h : DInv g start st) {top : Int} {d : C} {e : Edge C}
    (htop : top ∈ st.explored) (hd : st.D top = d) (hle : ∀ u ∈ st.explored, st.D u ≤ d)
    (he : Pos g.length e.src) (hne : e.src ≠ top) (hw : 0 ≤ e.weight) (hedge : InEdge g e.src top e.weight) :
    ∃ st', relax top d st e = .ok st' ∧ DInv g start st' ∧ st'.explored = st.explored ∧
      (∀ u ∈ st.explored, st'.D u = st.D u) ∧ (∀ v, Pos g.length v → st'.D v ≤ st.D v) ∧ st'.D e.src ≤ d + e.weight ∧
      (∀ x ∈ st'.queue, x ∈ st.queue ∨ d ≤ x.2) := by
  unfold relax
  rw [atInt_pos (by rw [h.lenD]; exact he) ⊤, Res.ok_bind]
  have hdw : d ≤ d + e.weight := CostLaws.le_add _ _ hw
  split
  · rename_i hlt
    have hlt' : d + e.weight < st.D e.src := hlt
    have hnex : e.src ∉ st.explored := fun hm => absurd (lt_of_le_of_lt hdw hlt') (not_lt.mpr (hle _ hm))
    rw [setAt_pos (by rw [h.lenP]; exact he), Res.ok_bind, setAt_pos (by rw [h.lenD]; exact he), Res.ok_bind]
    refine ⟨_, rfl, ?_, rfl, ?_, ?_, ?_, ?_⟩
    rotate_left
    all_goals
      have hPs : ∀ v, Pos g.length v → DSt.P ⟨st.prev.set e.src.toNat top, st.dist.set e.src.toNat (d + e.weight),
          if e.src ∈ st.explored then st.queue else (e.src, d + e.weight) :: st.queue, st.explored⟩ v =
          if v = e.src then top else st.P v := fun v hv => getD_set (by rw [h.lenP]; exact he) hv.1 _ _
      have hDs : ∀ v, Pos g.length v → DSt.D ⟨st.prev.set e.src.toNat top, st.dist.set e.src.toNat (d + e.weight),
          if e.src ∈ st.explored then st.queue else (e.src, d + e.weight) :: st.queue, st.explored⟩ v =
          if v = e.src then d + e.weight else st.D v := fun v hv => getD_set (by rw [h.lenD]; exact he) hv.1 _ _
      have hPe : ∀ u ∈ st.explored, u ≠ e.src := fun u hu hc => hnex (hc ▸ hu)
    · intro u hu
      rw [hDs u (h.expl u hu).1, if_neg (hPe u hu)]
    · intro v hv
      rw [hDs v hv]
      split
      · rename_i hc; rw [hc]; exact le_of_lt hlt'
      · exact le_refl _
    · rw [hDs _ he, if_pos rfl]
    · intro x hx
      rw [if_neg hnex] at hx
      rcases List.mem_cons.mp hx with rfl | hx
      · exact .inr hdw
      · exact .inl hx
    · have htop1 : top ≠ -1 := by have := (h.expl top htop).1.1; omega
      have hsne : e.src ≠ start := by
        intro hc
        have := h.startD
        rw [← hc] at this
        have h0 : (0 : C) ≤ d := by
          have hs : start ∈ st.explored := by
            obtain ⟨l, hb, hall⟩ := h.path top (h.expl top htop).1 (h.expl top htop).2
            by_cases hst : start = top
            · exact hst ▸ htop
            · exact hall start hb.start_mem hst
          have := hle _ hs
          rwa [h.startD] at this
        rw [this] at hlt'
        exact absurd (lt_of_le_of_lt (le_trans h0 hdw) hlt') (lt_irrefl _)
      refine ⟨by simp [h.lenP], by simp [h.lenD], h.startPos, ?_, ?_, ?_, h.nodup, ?_, ?_, ?_, ?_, ?_⟩
      · rw [hPs _ h.startPos, if_neg (Ne.symm hsne)]; exact h.startP
      · rw [hDs _ h.startPos, if_neg (Ne.symm hsne)]; exact h.startD
      · intro u hu
        refine ⟨(h.expl u hu).1, ?_⟩
        rw [hPs u (h.expl u hu).1, if_neg (hPe u hu)]
        exact (h.expl u hu).2
      · intro v hv hp
        by_cases hc : v = e.src
        · subst hc
          obtain ⟨l, hb, hall⟩ := h.path top (h.expl top htop).1 (h.expl top htop).2
          have hl : ∀ u ∈ l, u ∈ st.explored := by
            intro u hu
            by_cases hut : u = top
            · exact hut ▸ htop
            · exact hall u hu hut
          refine ⟨e.src :: l, .step (w := e.weight) (p := top) hsne hv ?_ hedge ?_ (hb.congr ?_), ?_⟩
          · rw [hPs _ hv, if_pos rfl]
          · rw [hDs _ hv, if_pos rfl, hDs _ (h.expl top htop).1, if_neg (hPe top htop), hd]
          · intro u hu
            have := h.expl u (hl u hu)
            exact ⟨by rw [hDs u this.1, if_neg (hPe u (hl u hu))], by rw [hPs u this.1, if_neg (hPe u (hl u hu))]⟩
          · intro u hu hne
            rcases List.mem_cons.mp hu with rfl | hu
            · exact absurd rfl hne
            · exact hl u hu
        · rw [hPs _ hv, if_neg hc] at hp
          obtain ⟨l, hb, hall⟩ := h.path v hv hp
          refine ⟨l, hb.congr ?_, hall⟩
          intro u hu
          have hu' : u ≠ e.src ∧ Pos g.length u := by
            by_cases huv : u = v
            · subst huv; exact ⟨hc, hv⟩
            · exact ⟨hPe u (hall u hu huv), (h.expl u (hall u hu huv)).1⟩
          exact ⟨by rw [hDs u hu'.2, if_neg hu'.1], by rw [hPs u hu'.2, if_neg hu'.1]⟩
      · intro v hv hp hnv
        show (v, DSt.D _ v) ∈ (if e.src ∈ st.explored then st.queue else (e.src, d + e.weight) :: st.queue)
        rw [hDs v hv, if_neg hnex]
        by_cases hc : v = e.src
        · rw [if_pos hc, hc]; simp
        · rw [if_neg hc]
          rw [hPs _ hv, if_neg hc] at hp
          exact List.mem_cons_of_mem _ (h.waiting v hv hp hnv)
      · intro x hx
        have hx' : x ∈ (e.src, d + e.weight) :: st.queue := by dsimp only at hx; rw [if_neg hnex] at hx; exact hx
        rcases List.mem_cons.mp hx' with rfl | hx'
        · exact ⟨he, by rw [hPs _ he, if_pos rfl]; exact htop1, by rw [hDs _ he, if_pos rfl]⟩
        · obtain ⟨q1, q2, q3⟩ := h.queued x hx'
          refine ⟨q1, ?_, ?_⟩
          · rw [hPs _ q1]; split
            · exact htop1
            · exact q2
          · rw [hDs _ q1]; split
            · rename_i hc; rw [hc] at q3; exact le_trans (le_of_lt hlt') q3
            · exact q3
      · intro u hu x hx
        have hx' : x ∈ (e.src, d + e.weight) :: st.queue := by dsimp only at hx; rw [if_neg hnex] at hx; exact hx
        rw [hDs u (h.expl u hu).1, if_neg (hPe u hu)]
        rcases List.mem_cons.mp hx' with rfl | hx'
        · exact le_trans (hle u hu) hdw
        · exact h.order u hu x hx'
      · intro v hv hp
        rw [hPs _ hv] at hp
        rw [hDs _ hv]
        split at hp
        · exact absurd hp htop1
        · rename_i hc; rw [if_neg hc]; exact h.unseen v hv hp
  · rename_i hge
    exact ⟨st, rfl, h, rfl, fun _ _ => rfl, fun _ _ => le_refl _, not_lt.mp hge, fun x hx => .inl hx⟩

theorem relaxAll_inv {g : Graph V C} {start : Int} (es : List (Edge C)) {st : DSt C} (h : DInv g start st) {top : Int} {d : C}
    (htop : top ∈ st.explored) (hd : st.D top = d) (hle : ∀ u ∈ st.explored, st.D u ≤ d)
    (hes : ∀ e ∈ es, Pos g.length e.src ∧ e.src ≠ top ∧ 0 ≤ e.weight ∧ InEdge g e.src top e.weight) :
    ∃ st', relaxAll top d es st = .ok st' ∧ DInv g start st' ∧ st'.explored = st.explored ∧
      (∀ u ∈ st.explored, st'.D u = st.D u) ∧ (∀ v, Pos g.length v → st'.D v ≤ st.D v) ∧
      (∀ e ∈ es, st'.D e.src ≤ d + e.weight) := by
  induction es generalizing st with
  | nil => exact ⟨st, rfl, h, rfl, fun _ _ => rfl, fun _ _ => le_refl _, by simp⟩
  | cons e es ih =>
    obtain ⟨p1, p2, p3, p4⟩ := hes e (by simp)
    obtain ⟨s1, a1, a2, a3, a4, a5, a6, _⟩ := relax_inv h htop hd hle p1 p2 p3 p4
    obtain ⟨s2, b1, b2, b3, b4, b5, b6⟩ := ih a2 (a3 ▸ htop) (by rw [a4 _ htop]; exact hd)
      (by intro u hu; rw [a3] at hu; rw [a4 u hu]; exact hle u hu) (fun e he => hes e (by simp [he]))
    refine ⟨s2, by unfold relaxAll; rw [a1]; exact b1, b2, b3.trans a3, ?_, ?_, ?_⟩
    · intro u hu; rw [b4 u (a3 ▸ hu), a4 u hu]
    · intro v hv; exact le_trans (b5 v hv) (a5 v hv)
    · intro e' he'
      rcases List.mem_cons.mp he' with rfl | he'
      · exact le_trans (b5 _ p1) a6
      · exact b6 e' he'

/-- Graph with valid linkage and non-negative weights, as the search sees it. -/
structure Good (g : Graph V C) : Prop where
  link : ValidLinkage g
  nonneg : ∀ (i : Nat) (n : Node V C), g[i]? = some n → ∀ e ∈ n.ins, 0 ≤ e.weight

/-- Full loop invariant. -/
structure Full (g : Graph V C) (start : Int) (st : DSt C) : Prop where
  inv : DInv g start st
  relaxed : ∀ u ∈ st.explored, Relaxed g st u

theorem Good.pos {g : Graph V C} (hg : Good g) {t u : Int} {w : C} (h : InEdge g t u w) :
    Pos g.length t ∧ t ≠ u ∧ 0 ≤ w := by
  obtain ⟨i, n, rfl, hn, e, he, rfl, rfl⟩ := h
  obtain ⟨_, j, m, hj, hne, hm, _⟩ := (hg.link i n hn).1 e he
  refine ⟨?_, by rw [hj]; omega, hg.nonneg i n hn e he⟩
  have : j < g.length := by
    by_contra hc
    rw [List.getElem?_eq_none (by omega)] at hm
    cases hm
  exact ⟨by omega, by omega⟩

/-- One iteration succeeds and keeps the invariant; either the queue shrinks or a node is explored. -/
theorem visit_inv {g : Graph V C} (hg : Good g) {size : Int} {get : Int → Res (Node V C)} (ha : Access g size get)
    {start : Int} {st : DSt C} (h : Full g start st) {top : Int × C} {rest : List (Int × C)} (hp : DPop st.queue top rest) :
    ∃ st', visit get st top rest = .ok st' ∧ Full g start st' ∧
      ((st'.explored = st.explored ∧ st'.queue.length < st.queue.length) ∨
        (top.1 ∉ st.explored ∧ st'.explored = top.1 :: st.explored)) := by
  have hmem : ∀ x ∈ rest, x ∈ st.queue := fun x hx => hp.1.mem_iff.mpr (by simp [hx])
  have htopq : top ∈ st.queue := hp.1.mem_iff.mpr (by simp)
  have hI := h.inv
  unfold visit
  by_cases hex : top.1 ∈ st.explored
  · rw [if_pos hex]
    refine ⟨_, rfl, ⟨⟨hI.lenP, hI.lenD, hI.startPos, hI.startP, hI.startD, hI.expl, hI.nodup, ?_, ?_,
      fun x hx => hI.queued x (hmem x hx), fun u hu x hx => hI.order u hu x (hmem x hx), hI.unseen⟩, h.relaxed⟩, .inl ⟨rfl, ?_⟩⟩
    · intro v hv hpv
      obtain ⟨l, hb, hall⟩ := hI.path v hv hpv
      exact ⟨l, hb.congr (fun _ _ => ⟨rfl, rfl⟩), hall⟩
    · intro v hv hpv hnv
      have := hp.1.mem_iff.mp (hI.waiting v hv hpv hnv)
      rcases List.mem_cons.mp this with heq | hr
      · exact absurd (by rw [← heq] at hex; exact hex) hnv
      · exact hr
    · have := hp.1.length_eq
      simp only [List.length_cons] at this
      show rest.length < _
      omega
  · rw [if_neg hex]
    obtain ⟨tpos, tP, tD⟩ := hI.queued top htopq
    have hDtop : st.D top.1 = top.2 := by
      refine le_antisymm tD ?_
      have := hp.1.mem_iff.mp (hI.waiting top.1 tpos tP hex)
      rcases List.mem_cons.mp this with heq | hr
      · rw [← heq]
      · exact hp.2 _ hr
    have hget : ∃ n, get top.1 = .ok n ∧ g[top.1.toNat]? = some n := by
      have hlt : top.1.toNat < g.length := by have := tpos.2; have := tpos.1; omega
      refine ⟨g[top.1.toNat], ?_, List.getElem?_eq_getElem hlt⟩
      have := ha.2 top.1.toNat _ (List.getElem?_eq_getElem hlt)
      rwa [Int.toNat_of_nonneg tpos.1] at this
    obtain ⟨n, hn, hgn⟩ := hget
    rw [hn, Res.ok_bind]
    have hI1 : DInv g start ⟨st.prev, st.dist, rest, top.1 :: st.explored⟩ := by
      refine ⟨hI.lenP, hI.lenD, hI.startPos, hI.startP, hI.startD, ?_, List.nodup_cons.mpr ⟨hex, hI.nodup⟩, ?_, ?_,
        fun x hx => hI.queued x (hmem x hx), ?_, hI.unseen⟩
      · intro u hu
        rcases List.mem_cons.mp hu with rfl | hu
        · exact ⟨tpos, tP⟩
        · exact hI.expl u hu
      · intro v hv hpv
        obtain ⟨l, hb, hall⟩ := hI.path v hv hpv
        exact ⟨l, hb.congr (fun _ _ => ⟨rfl, rfl⟩), fun u hu hne => List.mem_cons_of_mem _ (hall u hu hne)⟩
      · intro v hv hpv hnv
        have hnv' : v ∉ st.explored := fun hc => hnv (List.mem_cons_of_mem _ hc)
        have := hp.1.mem_iff.mp (hI.waiting v hv hpv hnv')
        rcases List.mem_cons.mp this with heq | hr
        · exact absurd (by rw [← heq]; simp) hnv
        · exact hr
      · intro u hu x hx
        rcases List.mem_cons.mp hu with rfl | hu
        · show st.D top.1 ≤ _
          rw [hDtop]; exact hp.2 x hx
        · exact hI.order u hu x (hmem x hx)
    have htop' : top.1 = (top.1.toNat : Int) := (Int.toNat_of_nonneg tpos.1).symm
    obtain ⟨st', s1, s2, s3, s4, s5, s6⟩ := relaxAll_inv n.ins hI1 (top := top.1) (d := top.2) (by simp) hDtop
      (by
        intro u hu
        rcases List.mem_cons.mp hu with rfl | hu
        · exact tD
        · exact hI.order u hu top htopq)
      (by
        intro e he
        have hie : InEdge g e.src top.1 e.weight := ⟨_, n, htop', hgn, e, he, rfl, rfl⟩
        exact ⟨(hg.pos hie).1, (hg.pos hie).2.1, (hg.pos hie).2.2, hie⟩)
    refine ⟨st', s1, ⟨s2, ?_⟩, .inr ⟨hex, s3⟩⟩
    intro u hu t w hie
    rw [s3] at hu
    have htp := (hg.pos hie).1
    rcases List.mem_cons.mp hu with rfl | hu'
    · obtain ⟨i, n', hi, hn', e, he, rfl, rfl⟩ := hie
      have : n' = n := by
        have : i = top.1.toNat := by omega
        rw [this, hgn] at hn'
        cases hn'; rfl
      subst this
      have e4 : st'.D top.1 = top.2 := (s4 top.1 (by simp)).trans hDtop
      rw [e4]
      exact s6 e he
    · rw [s4 u (by simp [hu'])]
      exact le_trans (s5 t htp) (h.relaxed u hu' t w hie)

theorem full_init {g : Graph V C} (start : Int) (h : Pos g.length start) :
    Full g start (dinit (C := C) (g.length : Int) start) := ⟨dinit_inv g start h, by simp [dinit]⟩

theorem Full.steps {g : Graph V C} (hg : Good g) {size : Int} {get : Int → Res (Node V C)} (ha : Access g size get)
    {start : Int} {a b : DSt C} (h : Full g start a) (hs : DSteps get a b) : Full g start b := by
  induction hs with
  | refl => exact h
  | step h1 _ ih =>
    cases h1 with
    | mk hp hv =>
      obtain ⟨st', e1, e2, _⟩ := visit_inv hg ha h hp
      rw [hv] at e1
      cases e1
      exact ih e2

/-- The loop terminates. -/
theorem dsteps_acc {g : Graph V C} (hg : Good g) {size : Int} {get : Int → Res (Node V C)} (ha : Access g size get)
    {start : Int} {st : DSt C} (h : Full g start st) : Acc (fun b a => DStep get a b) st := by
  have main : ∀ (n m : Nat) (st : DSt C), Full g start st → g.length - st.explored.length = n → st.queue.length = m →
      Acc (fun b a => DStep get a b) st := by
    intro n
    induction n using Nat.strong_induction_on with
    | _ n ihn =>
      intro m
      induction m using Nat.strong_induction_on with
      | _ m ihm =>
        intro st hF hn hm
        constructor
        intro b hstep
        cases hstep with
        | mk hp hv =>
          obtain ⟨st', e1, e2, e3⟩ := visit_inv hg ha hF hp
          rw [hv] at e1
          cases e1
          rcases e3 with ⟨e3, e4⟩ | ⟨e3, e4⟩
          · exact ihm _ (hm ▸ e4) _ e2 (by rw [e3]; exact hn) rfl
          · have hb : b.explored.length ≤ g.length := by
              have hsub : b.explored ⊆ irange 0 g.length := by
                intro u hu
                have := (e2.inv.expl u hu).1
                exact mem_irange.mpr ⟨this.1, this.2⟩
              have := (List.subperm_of_subset e2.inv.nodup hsub).length_le
              rw [length_irange] at this
              omega
            have : b.explored.length = st.explored.length + 1 := by rw [e4]; rfl
            exact ihn _ (by omega) _ _ e2 rfl rfl
  exact main _ _ st h rfl rfl

end CRU.GraphSearch
