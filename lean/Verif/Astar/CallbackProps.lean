import Verif.Astar.CallbackLemmas
/-
  C113: A* search with functions that keep state and that may throw.
-/
namespace CRU.Astar.Callbacks
open CRU.Astar
set_option linter.unusedSectionVars false

variable {S C ε : Type} [DecidableEq S] [LinearOrder C] [Add C] [Zero C] [OrderTop C]
variable {F : Fns S C ε} {first : Bool} {starts : List (S × C)}

/-- The calls of the loop over the starts: one goal check per start. -/
def checks (l : List (S × C)) (as : List Bool) : Hist S C ε := List.zipWith (fun s a => Event.goal s.1 (.ok a)) l as

theorem bestStarts_does {W : World S C ε} (hF : Fits F W) (l : List (S × C)) (hl : ∀ x ∈ l, x ∈ starts) (best : Option (S × C)) {h : Hist S C ε}
    (hc : Calm h) (hh : History F first starts h) {Lib : Exc → Hist S C ε → Prop} :
    Does F first starts h (bestStarts W best l h) (fun b h' => ∃ as : List Bool, as.length = l.length ∧ h' = h ++ checks l as ∧
      bestCost b ≤ bestCost best ∧ (∀ (i : Nat) (x : S × C), l[i]? = some x → as[i]? = some true → bestCost b ≤ x.2) ∧
      (b = best ∨ ∃ (i : Nat) (x : S × C), b = some x ∧ l[i]? = some x ∧ as[i]? = some true ∧ x.2 < ⊤)) Lib := by
  induction l generalizing best h with
  | nil => exact ret_does hc hh _ ⟨[], rfl, by simp [checks], le_refl _, by simp, .inl rfl⟩
  | cons s l ih =>
    unfold bestStarts
    refine (askGoal_does hF hc hh (.inl ⟨s.2, hl s (by simp)⟩)).bind (fun g h1 _ _ hc1 hh1 hg => ?_)
    subst hg
    refine (ih (fun x hx => hl x (by simp [hx])) _ hc1 hh1).post (fun b h' _ _ _ ⟨as, k1, k2, k3, k4, k5⟩ => ?_) (fun _ _ h => h)
    have hstep : bestCost (if g = true then if s.2 < bestCost best then some s else best else best) ≤ bestCost best := by
      split
      · split
        · rename_i h2; exact le_of_lt h2
        · exact le_refl _
      · exact le_refl _
    refine ⟨g :: as, by simp [k1], ?_, le_trans k3 hstep, ?_, ?_⟩
    · rw [k2]; simp [checks]
    · intro i x hx ha
      cases i with
      | zero =>
        simp only [List.getElem?_cons_zero, Option.some.injEq] at hx ha
        subst hx ha
        rw [if_pos rfl] at k3
        split at k3
        · exact k3
        · rename_i h2; exact le_trans k3 (not_lt.mp h2)
      | succ i => exact k4 i x (by simpa using hx) (by simpa using ha)
    · rcases k5 with k5 | ⟨i, x, h2, h3, h4, h5⟩
      · split at k5
        · rename_i hg
          split at k5
          · rename_i h2
            exact .inr ⟨0, s, k5, rfl, by simp [hg], lt_of_lt_of_le h2 le_top⟩
          · exact .inl k5
        · exact .inl k5
      · exact .inr ⟨i + 1, x, h2, by simpa using h3, by simpa using h4, h5⟩

/-- The search after its initialization. -/
theorem init_good {W : World S C ε} (hF : Fits F W) {h : Hist S C ε} (hc : Calm h) (hh : History F first starts h)
    (hn : ∀ s t w, ¬ PEdge (soFar W.limit h) s t w) {Lib : Exc → Hist S C ε → Prop} :
    Does F first starts h (pushStarts W ⟨[], fun _ => none, fun _ => none⟩ starts h) (fun st h' => Good F first W.limit starts (st, h')) Lib := by
  refine (pushStarts_does hF starts (fun _ h => h) _ hc hh).post (fun st h' _ hc' hh' ⟨ho, hst⟩ => ?_) (fun _ _ h => h)
  have h1 : plainSt st = init (soFar W.limit h') starts := hst h'
  obtain ⟨h2, h3⟩ := init_inv (soFar W.limit h') starts
  rw [← h1] at h2 h3
  have h4 : st.explored = fun _ => none := h3
  refine ⟨⟨h2.ex, h2.q, ?_, ?_, ?_⟩, hc', hh'⟩
  · intro s hs; dsimp only at hs; rw [h4] at hs; exact absurd rfl hs
  · intro s c hs; exact ⟨c, (covered_plain st s c).mp (h2.starts s c hs)⟩
  · intro s t w he; exact absurd (ho.edge he) (hn s t w)

variable [CostLaws C]

theorem mkResult_cases (path : List S) (c : C) : (mkResult path c = .throw .invalidArgument ∧ c = ⊤) ∨ (mkResult path c = .ok (path, c) ∧ (path ≠ [] → c ≠ ⊤)) := by
  unfold mkResult
  split
  · rename_i h; exact .inl ⟨rfl, h.2⟩
  · rename_i h; exact .inr ⟨rfl, fun h1 h2 => h ⟨h1, h2⟩⟩

/-- What the search gives when it has found a goal. -/
theorem extract_good {W : World S C ε} {st : St S C} {h : Hist S C ε} (hi : LInv W.limit starts st h) {top : Elem S C}
    {rest : List (Elem S C)} (hp : Pop st.queue top rest) (hb : exploredBetter st.explored top.state top.cost = false) :
    (∃ l, (∃ c', Walk starts (PEdge (soFar W.limit h)) (top.state :: l).reverse c' ∧ c' ≤ top.cost) ∧
      Extract (accept W st top rest).explored top.state (mkResult (top.state :: l).reverse top.cost) ∧
      ∀ r, Extract (accept W st top rest).explored top.state r → r = mkResult (top.state :: l).reverse top.cost) ∧
    ∃ l, Walk starts (PEdge (soFar W.limit h)) (l ++ [top.state]) top.cost := by
  obtain ⟨a1, _, _⟩ := hi.accepted hp hb
  refine ⟨?_, ?_⟩
  · obtain ⟨l, hl, c', hw, hle⟩ := a1.chain soFar_nonneg (upd_self st.explored top.state (some (top.cost, top.back)))
    refine ⟨l, ⟨c', hw.walk, hle⟩, ?_, ?_⟩
    · have := Extract.found (show (accept W st top rest).explored top.state = _ from upd_self st.explored top.state (some (top.cost, top.back))) hl
      simpa using this
    · intro r hr
      cases hr with
      | notFound h => unfold accept at h; dsimp only at h; rw [upd_self] at h; cases h
      | found h hc =>
        unfold accept at h hc
        dsimp only at h hc
        rw [upd_self] at h
        cases h
        have := Chain.det hc hl
        subst this
        simp
  · obtain ⟨l, h1, _⟩ := accepted_walk soFar_nonneg (top := plain top) hb (hi.q.elems (plain top) (List.mem_map_of_mem hp.mem_top))
    exact ⟨l.reverse, by simpa [plain] using h1.walk⟩

/-- How a search can end, given what it asked and was told. -/
inductive Ending (starts : List (S × C)) (h : Hist S C ε) : Except (Fail ε) (List S × C) → Prop
  /-- a path: it begins in a start, every step was offered, the goal check accepted its last state; what was offered costs at most what is
  reported, which is finite -/
  | path {path : List S} {c cost : C} {g : S} (hcalm : Calm h) (hw : Walk starts (Offered h) path c) (hle : c ≤ cost) (hlast : path.getLast? = some g)
      (hg : Event.goal g (.ok true) ∈ h) (hfin : cost < ⊤) : Ending starts h (.ok (path, cost))
  /-- no path: the goal check refused, and the children were asked for, every start and every state that was offered -/
  | none (hcalm : Calm h) (hall : ∀ s, Known starts h s → Event.goal s (.ok false) ∈ h ∧ Asked h s) : Ending starts h (.ok ([], ⊤))
  /-- the exception of the last call -/
  | thrown {x : ε} {ev : Event S C ε} {pre : Hist S C ε} (he : h = pre ++ [ev]) (ht : ev.thrown = some x) : Ending starts h (.error (.user x))
  | noStarts (hs : starts = []) (hn : h = []) : Ending starts h (.error (.lib .invalidArgument))
  /-- the goal was reached with an infinite cost -/
  | infinite {path : List S} {g : S} (hcalm : Calm h) (hw : Walk starts (Offered h) path ⊤) (hlast : path.getLast? = some g)
      (hg : Event.goal g (.ok true) ∈ h) : Ending starts h (.error (.lib .invalidArgument))
  /-- the distance function answered with a negative number -/
  | negative {pre : Hist S C ε} {s t : S} {w : C} (hcalm : Calm h) (he : h = pre ++ [.dist s t (.ok w)]) (hw : w < 0) :
      Ending starts h (.error (.lib .invalidArgument))

theorem Does.failed {α : Type} {h h' : Hist S C ε} {x : Fail ε} {Post : α → Hist S C ε → Prop} {Lib : Exc → Hist S C ε → Prop}
    (hd : Does F first starts h ((.error x, h') : Except (Fail ε) α × Hist S C ε) Post Lib) (hL : ∀ x h, Lib x h → Negative x h) :
    History F first starts h' ∧ Ending starts h' (.error x) := by
  cases x with
  | user x =>
    obtain ⟨h0, h1, pre, ev, h2, h3⟩ := hd
    exact ⟨h1, .thrown h2 h3⟩
  | lib x =>
    obtain ⟨_, h1, h2, h3⟩ := hd
    obtain ⟨rfl, pre, s, t, w, h4, h5⟩ := hL _ _ h3
    exact ⟨h2, .negative h1 h4 h5⟩
  | ub => exact hd.elim

theorem offered_edge (hN : first = true → Nonneg F) {b : Bool} {h : Hist S C ε} (hh : History F first starts h) {s t : S} {w : C}
    (ho : Offered h s t w) : PEdge (soFar b h) s t w := by
  rcases ho with ⟨l, h1, h2⟩ | ⟨_, _, h1, h2⟩
  · refine (soFar_iff _ _ _ _ _).mpr ⟨?_, .inl ⟨l, h1, h2⟩⟩
    obtain ⟨pre, post, rfl⟩ := List.append_of_mem h1
    obtain ⟨k1, k2⟩ := (hh pre _ post rfl).answer
    exact hN k1 pre s l k2.symm (t, w) h2
  · exact (soFar_iff _ _ _ _ _).mpr ⟨h2, .inr h1⟩

theorem checks_edge {b : Bool} (l : List (S × C)) (as : List Bool) (s t : S) (w : C) : ¬ PEdge (soFar b (checks l as : Hist S C ε)) s t w := by
  rw [soFar_iff]
  rintro ⟨_, ⟨k, h1, _⟩ | h1⟩ <;>
  · unfold checks at h1
    obtain ⟨i, hi⟩ := List.mem_iff_getElem?.mp h1
    rw [List.getElem?_zipWith] at hi
    split at hi <;> cases hi

theorem run_right {W : World S C ε} (hF : Fits F W) (hK : KidsSpec F first starts W) (hN : first = true → Nonneg F) {r : Except (Fail ε) (List S × C)} {h : Hist S C ε}
    (hr : AstarRun W starts r h) : History F first starts h ∧ Ending starts h r := by
  have hbest := bestStarts_does (starts := starts) (first := first) hF starts (fun _ h => h) none (h := []) (by intro e he; simp at he) history_nil
    (Lib := fun _ _ => False)
  cases hr with
  | noStarts hs => exact ⟨history_nil, .noStarts hs rfl⟩
  | checkThrows hs hb =>
    rw [hb] at hbest
    exact hbest.failed (fun _ _ h => h.elim)
  | @early s h hs hb =>
    rw [hb] at hbest
    obtain ⟨_, h2, h3, as, h4, h5, h6, h7, h8⟩ := hbest
    refine ⟨h3, ?_⟩
    rcases h8 with h8 | ⟨i, x, h8, h9, h10, h11⟩
    · cases h8
    · cases h8
      rw [List.nil_append] at h5
      have hmem : Event.goal s.1 (.ok true) ∈ h := by
        rw [h5]
        refine List.mem_of_getElem? (i := i) ?_
        unfold checks
        rw [List.getElem?_zipWith, h9, h10]
      have hin : (s.1, s.2) ∈ starts := List.mem_of_getElem? h9
      rcases mkResult_cases [s.1] s.2 with ⟨e1, e2⟩ | ⟨e1, e2⟩
      · exact absurd e2 h11.ne
      · rw [e1]
        exact .path h2 (.start hin) (le_refl _) rfl hmem h11
  | initThrows hs hb hi =>
    rw [hb] at hbest
    obtain ⟨_, h2, h3, as, h4, h5, _⟩ := hbest
    rw [List.nil_append] at h5
    have := init_good hF h2 h3 (by rw [h5]; exact checks_edge _ _) (Lib := fun _ _ => False)
    rw [hi] at this
    exact this.failed (fun _ _ h => h.elim)
  | @search _ st1 _ _ h0 _ _ hs hb hi hrun he =>
    rw [hb] at hbest
    obtain ⟨_, h2, h3, as, h4, h5, _⟩ := hbest
    rw [List.nil_append] at h5
    have hgood := init_good hF h2 h3 (by rw [h5]; exact checks_edge _ _) (Lib := fun _ _ => False)
    rw [hi] at hgood
    obtain ⟨_, _, _, hgood⟩ := hgood
    obtain ⟨⟨hinv, hc, hh⟩, _⟩ := hgood.steps hF hK hrun
    cases he with
    | empty hq =>
      refine ⟨hh, .none hc (fun s hs => ?_)⟩
      have hcov : ∃ k, Covered st1 s k := by
        rcases hs with ⟨c, hs⟩ | ⟨p, w, ho⟩
        · exact hinv.starts s c hs
        · exact hinv.closed p s w (offered_edge hN hh ho)
      obtain ⟨k, hk | ⟨e, he, _⟩⟩ := hcov
      · obtain ⟨cq, bq, h6, _⟩ := hk
        exact hinv.asked s (by rw [h6]; simp)
      · rw [hq] at he; simp at he
    | goalThrows hp hb hg =>
      have := askGoal_does hF hc hh (hinv.known hh hp.mem_top) (Lib := fun _ _ => False)
      rw [hg] at this
      exact this.failed (fun _ _ h => h.elim)
    | @goal _ _ _ r0 top rest hp hb hg hx =>
      have := askGoal_does hF hc hh (hinv.known hh hp.mem_top) (Lib := fun _ _ => False)
      rw [hg] at this
      obtain ⟨h6, h7, h8, rfl⟩ := this
      refine ⟨h8, ?_⟩
      obtain ⟨⟨l, ⟨c', hw, hle⟩, _, huniq⟩, l2, hw2⟩ := extract_good hinv hp hb
      have hmono : ∀ s t w, PEdge (soFar W.limit h0) s t w → Offered (h0 ++ [.goal top.state (.ok true)]) s t w :=
        fun s t w he => (soFar_offered hh he).mono h6
      have hm : Event.goal top.state (.ok true) ∈ h0 ++ [Event.goal top.state (.ok true)] := by simp
      rw [huniq _ hx]
      rcases mkResult_cases (top.state :: l).reverse top.cost with ⟨e1, e2⟩ | ⟨e1, e2⟩
      · rw [e1]
        rw [e2] at hw2
        exact .infinite h7 (hw2.mono hmono) (by simp) hm
      · rw [e1]
        exact .path h7 (hw.mono hmono) hle (by simp) hm (lt_top_iff_ne_top.mpr (e2 (by simp)))
    | childrenThrow hp hb hg hk =>
      have := askGoal_does hF hc hh (hinv.known hh hp.mem_top) (Lib := fun _ _ => False)
      rw [hg] at this
      obtain ⟨h6, h7, h8, rfl⟩ := this
      have h9 := expand_does hF hK hinv hc hh hp hb h7 h8
      rw [hk] at h9
      exact h9.failed (fun _ _ h => h)

end CRU.Astar.Callbacks
