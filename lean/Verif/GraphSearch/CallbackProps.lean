import Verif.GraphSearch.CallbackLemmas
import Verif.Astar.Depth
/-
  C114: graph search with functions that keep state and that may throw: how a search ends.
-/
namespace CRU.GraphSearch.Callbacks
open CRU.Graph CRU.Astar
open CRU.Astar.Callbacks (Fail ofRes dups plain plainSt covered_plain mkResult_cases)
set_option linter.unusedSectionVars false

variable {V C ε : Type} [LinearOrder C] [Add C] [Zero C] [OrderTop C]
variable {T : Task V C ε}

theorem bestStarts_does {W : World V C ε} (hF : Fits T W) (l : List (Int × C)) (hl : ∀ x ∈ l, x ∈ T.starts) (best : Option (Int × C)) {h : Hist C ε}
    (hc : Calm h) (hh : History T h) :
    Does T h (bestStarts W best l h) (fun b h' => Quiet h h' ∧ (b = best ∨ ∃ x, b = some x ∧ x ∈ l ∧ Judged T h' x.1 true ∧ x.2 < ⊤)) Never := by
  induction l generalizing best h with
  | nil => exact ret_does hc hh _ ⟨.refl h, .inl rfl⟩
  | cons s l ih =>
    unfold bestStarts
    refine (hF.goal s.1 h hc hh (.inl ⟨s.2, hl s (by simp)⟩)).bind (fun g h1 _ _ hc1 hh1 hg => ?_)
    refine (ih (fun x hx => hl x (by simp [hx])) _ hc1 hh1).post (fun b h' hp _ _ ⟨k1, k2⟩ => ⟨hg.1.trans k1, ?_⟩) (fun _ _ h => h)
    rcases k2 with k2 | ⟨x, h2, h3, h4⟩
    · split at k2
      · rename_i hg1
        split at k2
        · rename_i h2
          exact .inr ⟨s, k2, by simp, by have := hg.2.mono hp; rwa [hg1] at this, lt_of_lt_of_le h2 le_top⟩
        · exact .inl k2
      · exact .inl k2
    · exact .inr ⟨x, h2, by simp [h3], h4⟩

/-- The search after its initialization. -/
theorem init_good {W : World V C ε} (hF : Fits T W) {h : Hist C ε} (hc : Calm h) (hh : History T h) (hq : Quiet [] h) :
    Does T h (pushStarts W ⟨[], fun _ => none, fun _ => none⟩ T.starts h) (fun st h' => Good T W.limit (st, h') ∧ st.explored = (fun _ => none) ∧
      ∀ e ∈ (plainSt st).queue, (e.state, e.cost) ∈ T.starts) Never := by
  refine (pushStarts_does hF T.starts (fun _ h => h) _ hc hh).post (fun st h' _ hc' hh' ⟨ho, hst⟩ => ?_) (fun _ _ h => h)
  have h1 : plainSt st = init (soFar T W.limit h') T.starts := hst h'
  obtain ⟨h2, h3⟩ := init_inv (soFar T W.limit h') T.starts
  rw [← h1] at h2 h3
  have h4 : st.explored = fun _ => none := h3
  have hno : ∀ s t w, ¬ PEdge (soFar T W.limit h') s t w := by
    intro s t w he
    have := (hq.trans ho).edge he
    rw [soFar_iff] at this
    obtain ⟨_, _, _, _, h5⟩ := this
    simp at h5
  refine ⟨⟨⟨h2.ex, h2.q, ?_, ?_, ?_⟩, hc', hh'⟩, h4, ?_⟩
  · intro s hs; dsimp only at hs; rw [h4] at hs; exact absurd rfl hs
  · intro s c hs; exact ⟨c, (covered_plain st s c).mp (h2.starts s c hs)⟩
  · intro s t w he; exact absurd he (hno s t w)
  · intro e he
    rcases h2.q.elems e he with ⟨_, k, _⟩ | ⟨p, l, cold, w, _, _, _, _, h5, _⟩
    · exact k
    · exact absurd h5 (hno _ _ _)

variable [CostLaws C]

/-- What the search gives when it has found a goal. -/
theorem extract_good {W : World V C ε} {st : St Int C} {h : Hist C ε} (hi : LInv T W.limit st h) {top : Elem Int C}
    {rest : List (Elem Int C)} (hp : Pop st.queue top rest) (hb : exploredBetter st.explored top.state top.cost = false) :
    (∃ l, (∃ c', Walk T.starts (PEdge (soFar T W.limit h)) (top.state :: l).reverse c' ∧ c' ≤ top.cost) ∧
      Extract (accept W st top rest).explored top.state (mkResult (top.state :: l).reverse top.cost) ∧
      ∀ r, Extract (accept W st top rest).explored top.state r → r = mkResult (top.state :: l).reverse top.cost) ∧
    ∃ l, Walk T.starts (PEdge (soFar T W.limit h)) (l ++ [top.state]) top.cost := by
  obtain ⟨a1, _, _⟩ := hi.accepted hp hb
  refine ⟨?_, ?_⟩
  · obtain ⟨l, hl, c', hw, hle⟩ := a1.chain soFar_nonneg (upd_self st.explored top.state (some (top.cost, top.back)))
    refine ⟨l, ⟨c', hw.walk, hle⟩, ?_, ?_⟩
    · have := Extract.found (show (accept W st top rest).explored top.state = _ from upd_self st.explored top.state (some (top.cost, top.back))) hl
      simpa using this
    · intro r hr
      cases hr with
      | notFound h => unfold accept at h; dsimp only at h; rw [upd_self] at h; cases h
      | found h hc =>
        unfold accept at h hc
        dsimp only at h hc
        rw [upd_self] at h
        cases h
        have := Chain.det hc hl
        subst this
        simp
  · obtain ⟨l, h1, _⟩ := accepted_walk soFar_nonneg (top := plain top) hb (hi.q.elems (plain top) (List.mem_map_of_mem hp.mem_top))
    exact ⟨l.reverse, by simpa [plain] using h1.walk⟩

/-- How a search can end, given what it asked and was told. -/
inductive Ending (T : Task V C ε) (h : Hist C ε) : Except (Fail ε) (List Int × C) → Prop
  /-- a path: it begins in a start, every step is an edge of the graph that was found valid in this search, the goal check accepted its last node;
  the distances that were answered sum up to at most the cost that is reported, which is finite -/
  | path {path : List Int} {c cost : C} {g : Int} (hcalm : Calm h) (hw : Walk T.starts (Offered T h) path c) (hle : c ≤ cost)
      (hlast : path.getLast? = some g) (hg : Judged T h g true) (hfin : cost < ⊤) : Ending T h (.ok (path, cost))
  /-- no path: the goal check refused, and all out-edges were checked of, every start and every node to which a valid edge was found -/
  | none (hcalm : Calm h) (hall : ∀ s, Known T h s → Judged T h s false ∧ Asked T h s) : Ending T h (.ok ([], ⊤))
  /-- the exception of the last call -/
  | thrown {x : ε} {ev : Event C ε} {pre : Hist C ε} (he : h = pre ++ [ev]) (ht : ev.thrown = some x) : Ending T h (.error (.user x))
  | noStarts (hs : T.starts = []) (hn : h = []) : Ending T h (.error (.lib .invalidArgument))
  /-- the goal was reached with an infinite cost -/
  | infinite {path : List Int} {g : Int} (hcalm : Calm h) (hw : Walk T.starts (Offered T h) path ⊤) (hlast : path.getLast? = some g)
      (hg : Judged T h g true) : Ending T h (.error (.lib .invalidArgument))
  /-- a start, or the end of an edge, is not a node of the graph -/
  | noNode {x : Fail ε} (hcalm : Calm h) (hx : NoNode T x h) : Ending T h (.error x)

theorem Does.failed {α : Type} {h h' : Hist C ε} {x : Fail ε} {Post : α → Hist C ε → Prop} {Lib : Fail ε → Hist C ε → Prop}
    (hd : Does T h ((.error x, h') : Except (Fail ε) α × Hist C ε) Post Lib) (hL : ∀ x h, Lib x h → NoNode T x h) :
    h <+: h' ∧ History T h' ∧ Ending T h' (.error x) := by
  cases x with
  | user x =>
    obtain ⟨h0, h1, pre, ev, h2, h3⟩ := hd
    exact ⟨h0, h1, .thrown h2 h3⟩
  | lib x => exact ⟨hd.1, hd.2.2.1, .noNode hd.2.1 (hL _ _ hd.2.2.2)⟩
  | ub => exact ⟨hd.1, hd.2.2.1, .noNode hd.2.1 (hL _ _ hd.2.2.2)⟩

theorem ends_right {W : World V C ε} (hF : Fits T W) (hN : Nonneg T) {a : St Int C × Hist C ε} (hgood : Good T W.limit a)
    {r : Except (Fail ε) (List Int × C)} {h : Hist C ε} (he : Ends W a r h) : a.2 <+: h ∧ History T h ∧ Ending T h r := by
  obtain ⟨hinv, hc, hh⟩ := hgood
  cases he with
  | @empty st h hq =>
    refine ⟨List.prefix_refl _, hh, .none hc (fun s hs => ?_)⟩
    have hcov : ∃ k, Covered st s k := by
      rcases hs with ⟨c, hs⟩ | ⟨p, w, ho⟩
      · exact hinv.starts s c hs
      · exact hinv.closed p s w (offered_soFar hN hh ho)
    obtain ⟨k, hk | ⟨e, he, _⟩⟩ := hcov
    · obtain ⟨cq, bq, h6, _⟩ := hk
      exact hinv.asked s (by rw [h6]; simp)
    · rw [hq] at he; simp at he
  | @goalThrows st h0 _ _ top rest hp hb hg =>
    have := hF.goal top.state h0 hc hh (hinv.known hh hp.mem_top)
    rw [hg] at this
    exact this.failed (fun _ _ h => h.elim)
  | @goal st h0 h1 r0 top rest hp hb hg hx =>
    have := hF.goal top.state h0 hc hh (hinv.known hh hp.mem_top)
    rw [hg] at this
    obtain ⟨h6, h7, h8, _, h9⟩ := this
    refine ⟨h6, h8, ?_⟩
    obtain ⟨⟨l, ⟨c', hw, hle⟩, _, huniq⟩, l2, hw2⟩ := extract_good hinv hp hb
    have hmono : ∀ s t w, PEdge (soFar T W.limit h0) s t w → Offered T h s t w := fun s t w he => (soFar_offered hh he).mono h6
    rw [huniq _ hx]
    rcases mkResult_cases (top.state :: l).reverse top.cost with ⟨e1, e2⟩ | ⟨e1, e2⟩
    · rw [e1]
      rw [e2] at hw2
      exact .infinite h7 (hw2.mono hmono) (by simp) h9
    · rw [e1]
      exact .path h7 (hw.mono hmono) hle (by simp) h9 (lt_top_iff_ne_top.mpr (e2 (by simp)))
  | @edgesThrow st h0 h1 h2 x top rest hp hb hg hk =>
    have := hF.goal top.state h0 hc hh (hinv.known hh hp.mem_top)
    rw [hg] at this
    obtain ⟨h6, h7, h8, h9, h10⟩ := this
    have h11 := expand_does hF hN (hinv.mono h9) h7 h8 hp hb h10
    rw [hk] at h11
    obtain ⟨k1, k2⟩ := h11.failed (fun _ _ h => h)
    exact ⟨h6.trans k1, k2⟩

theorem run_right {W : World V C ε} (hF : Fits T W) (hN : Nonneg T) {r : Except (Fail ε) (List Int × C)} {h : Hist C ε}
    (hr : AstarRun W T.starts r h) : History T h ∧ Ending T h r := by
  have hbest := bestStarts_does hF T.starts (fun _ h => h) none (h := []) calm_nil history_nil
  cases hr with
  | noStarts hs => exact ⟨history_nil, .noStarts hs rfl⟩
  | checkThrows hs hb =>
    rw [hb] at hbest
    exact (hbest.failed (fun _ _ h => h.elim)).2
  | @early s h hs hb =>
    rw [hb] at hbest
    obtain ⟨_, h2, h3, _, h8⟩ := hbest
    refine ⟨h3, ?_⟩
    rcases h8 with h8 | ⟨x, h8, h9, h10, h11⟩
    · cases h8
    · cases h8
      rcases mkResult_cases [s.1] s.2 with ⟨e1, e2⟩ | ⟨e1, e2⟩
      · exact absurd e2 h11.ne
      · rw [e1]
        exact .path h2 (.start h9) (le_refl _) rfl h10 h11
  | initThrows hs hb _ hi =>
    rw [hb] at hbest
    obtain ⟨_, h2, h3, h4, _⟩ := hbest
    have := init_good hF h2 h3 h4
    rw [hi] at this
    exact (this.failed (fun _ _ h => h.elim)).2
  | search hs hb _ hi hrun he =>
    rw [hb] at hbest
    obtain ⟨_, h2, h3, h4, _⟩ := hbest
    have hgood := init_good hF h2 h3 h4
    rw [hi] at hgood
    obtain ⟨_, _, _, hgood, _⟩ := hgood
    exact (ends_right hF hN (hgood.steps hF hN hrun).1 he).2

/-! ### Termination -/

theorem progress {W : World V C ε} (a : St Int C × Hist C ε) (hg : Good T W.limit a) : (∃ b, Step W a b) ∨ ∃ r h, Ends W a r h := by
  obtain ⟨st, h⟩ := a
  by_cases hq : st.queue = []
  · exact .inr ⟨_, _, .empty hq⟩
  · obtain ⟨top, rest, hp⟩ := exists_pop st.queue hq
    cases hb : exploredBetter st.explored top.state top.cost with
    | true => exact .inl ⟨_, .skip hp hb⟩
    | false =>
      generalize hr : W.goal top.state h = r
      obtain ⟨r, h1⟩ := r
      cases r with
      | error x => exact .inr ⟨_, _, .goalThrows hp hb hr⟩
      | ok g =>
        cases g with
        | true =>
          obtain ⟨⟨l, _, hx, _⟩, _⟩ := extract_good hg.inv hp hb
          exact .inr ⟨_, _, .goal hp hb hr hx⟩
        | false =>
          generalize hk : expandTop W top (accept W st top rest) h1 = r
          obtain ⟨r, h2⟩ := r
          cases r with
          | error x => exact .inr ⟨_, _, .edgesThrow hp hb hr hk⟩
          | ok st' => exact .inl ⟨_, .expand hp hb hr hk⟩

/-- The nodes that can be reached are among `N`. -/
structure Closed (T : Task V C ε) (N : List Int) : Prop where
  starts : ∀ x ∈ T.starts, x.1 ∈ N
  edges : ∀ s ∈ N, ∀ e, EdgeOf T s e → e.dst ∈ N

theorem steps_acc {W : World V C ε} (hF : Fits T W) (hN : Nonneg T) {N : List Int} (hc : Closed T N)
    (m : Multiset Nat) (a : St Int C × Hist C ε) (hg : Good T W.limit a)
    (hm : Fuel T.starts (PEdge (soFar T W.limit a.2)) N.length a.1.explored (plainSt a.1).queue m) : Acc (fun b a => Step W a b) a := by
  induction m using less_wf.induction generalizing a with
  | _ m ih =>
    constructor
    intro b hstep
    have hg' := (hg.step hF hN hstep).1
    cases hstep with
    | @skip st h top rest hp hb =>
      obtain ⟨d, m', _, h2, rfl⟩ := hm.pop (hp.1.map plain)
      exact ih m' (less_cons _ _) _ hg' h2
    | @expand st st' h h1 h2 top rest hp hb hgo hk =>
      obtain ⟨hi, hc0, hh⟩ := hg
      have h3 := hF.goal top.state h hc0 hh (hi.known hh hp.mem_top)
      rw [hgo] at h3
      obtain ⟨_, h5, h6, h7, h8⟩ := h3
      have h9 := expand_does hF hN (hi.mono h7) h5 h6 hp hb h8
      rw [hk] at h9
      obtain ⟨k1, _, _, _, n, ks, k5, k6, k7⟩ := h9
      have hpre : h <+: h2 := h7.pre.trans k1
      have hcl : ∀ s ∈ N, ∀ t w, PEdge (soFar T W.limit h2) s t w → t ∈ N := by
        intro s hs t w he
        obtain ⟨_, e, e1, rfl, _⟩ := (soFar_iff _ _ _ _ _).mp he
        exact hc.edges s hs e e1
      obtain ⟨new, q1, q3⟩ := pushKids_queue (soFar T W.limit h2) top.state top.cost ks (plainSt (accept W st top rest))
      have hm' := hm.mono (edge' := PEdge (soFar T W.limit h2)) (fun _ _ _ he => soFar_mono hpre he)
      obtain ⟨m', hlt, hf⟩ := hm'.expand soFar_nonneg (le_refl _) hc.starts hcl (hp.1.map plain) (top := plain top) hb
        (fun e he => by
          obtain ⟨x, hx, e1, e2⟩ := q3 e he
          exact ⟨x.2, by rw [e1]; exact (soFar_flag true W.limit h2 _ _ _).mp (k6.edges x hx), e2⟩)
      refine ih m' hlt _ hg' ?_
      have e1 : (plainSt st').queue = new ++ rest.map plain := by rw [k7 h2, q1]; rfl
      have e2 : st'.explored = (accept W st top rest).explored := by
        have := congrArg St.explored (k7 h2)
        rw [pushKids_explored] at this
        exact this
      dsimp only
      rw [e1, e2]
      exact hf

theorem run_ends {W : World V C ε} (hF : Fits T W) (hN : Nonneg T) {N : List Int} (hc : Closed T N) :
    (∃ r h, AstarRun W T.starts r h) ∧
    ¬ ∃ f : Nat → St Int C × Hist C ε, (∃ best h, bestStarts W none T.starts [] = (.ok best, h) ∧ noEarly best ∧
      pushStarts W ⟨[], fun _ => none, fun _ => none⟩ T.starts h = (.ok (f 0).1, (f 0).2)) ∧ ∀ n, Step W (f n) (f (n + 1)) := by
  have hbest := bestStarts_does hF T.starts (fun _ h => h) none (h := []) calm_nil history_nil
  have good : ∀ best h st h1, bestStarts W none T.starts [] = (.ok best, h) → pushStarts W ⟨[], fun _ => none, fun _ => none⟩ T.starts h = (.ok st, h1) →
      Good T W.limit (st, h1) ∧ Acc (fun b a => Step W a b) (st, h1) := by
    intro best h st h1 e1 e2
    rw [e1] at hbest
    obtain ⟨_, h2, h3, h4, _⟩ := hbest
    have hgood := init_good hF h2 h3 h4
    rw [e2] at hgood
    obtain ⟨_, _, _, hg, hex, hq⟩ := hgood
    obtain ⟨m, hm⟩ := Fuel.start (starts := T.starts) (edge := PEdge (soFar T W.limit h1)) N.length st.explored
      (fun e he => ⟨1, .inl ⟨hq e he, rfl⟩⟩)
    exact ⟨hg, steps_acc hF hN hc m _ hg hm⟩
  constructor
  · by_cases hs : T.starts = []
    · exact ⟨_, _, .noStarts hs⟩
    · generalize e1 : bestStarts W none T.starts [] = r
      obtain ⟨r, h⟩ := r
      cases r with
      | error x => exact ⟨_, _, .checkThrows hs e1⟩
      | ok b =>
        by_cases hn : noEarly b
        · generalize e2 : pushStarts W ⟨[], fun _ => none, fun _ => none⟩ T.starts h = r
          obtain ⟨r, h1⟩ := r
          cases r with
          | error x => exact ⟨_, _, .initThrows hs e1 hn e2⟩
          | ok st =>
            obtain ⟨hg, hacc⟩ := good b h st h1 e1 e2
            have fin : ∀ a, Acc (fun b a => Step W a b) a → Good T W.limit a → ∃ b r h, Steps W a b ∧ Ends W b r h := by
              intro a ha
              induction ha with
              | intro a _ ih =>
                intro hg
                rcases progress a hg with ⟨b, hs⟩ | ⟨r, h, he⟩
                · obtain ⟨c, r, h, h1, h2⟩ := ih b hs (hg.step hF hN hs).1
                  exact ⟨c, r, h, .step hs h1, h2⟩
                · exact ⟨a, r, h, .refl _, he⟩
            obtain ⟨b, r, h2, h3, h4⟩ := fin _ hacc hg
            exact ⟨r, h2, .search hs e1 hn e2 h3 h4⟩
        · unfold noEarly at hn
          push Not at hn
          obtain ⟨s, rfl, h0⟩ := hn
          exact ⟨_, _, .early hs e1 h0⟩
  · rintro ⟨f, ⟨best, h, e1, _, e2⟩, hs⟩
    have hacc := (good best h _ _ e1 e2).2
    have : ∀ a, Acc (fun b a => Step W a b) a → ∀ n, f n = a → False := by
      intro a ha
      induction ha with
      | intro a _ ih => intro n hn; exact ih (f (n + 1)) (hn ▸ hs n) (n + 1) rfl
    exact this _ hacc 0 rfl

end CRU.GraphSearch.Callbacks
