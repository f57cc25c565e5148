import Verif.Astar.CallbackProps
import Verif.Astar.Depth
/-
  C113: the theorems.
-/
namespace CRU.Astar.Callbacks
open CRU.Astar
set_option linter.unusedSectionVars false

variable {S C ε : Type} [DecidableEq S] [LinearOrder C] [Add C] [Zero C] [OrderTop C] [CostLaws C]
variable {F : Fns S C ε} {first : Bool} {starts : List (S × C)}

theorem fits1 (F : Fns S C ε) (b : Bool) : Fits F (world1 F b) := ⟨rfl, rfl⟩
theorem fits2 (F : Fns S C ε) (b : Bool) : Fits F (world2 F b) := ⟨rfl, rfl⟩

/-- C113, first overload: whatever state the functions keep and whatever they throw, the calls are a right sequence (`History`), and the search
ends in one of the ways of `Ending`. -/
theorem C113_search (hnn : Nonneg F) (limit : Bool) {r : Except (Fail ε) (List S × C)} {h : Hist S C ε}
    (hr : AstarRun (world1 F limit) starts r h) : History F true starts h ∧ Ending starts h r :=
  run_right (fits1 F limit) (kids1 hnn limit) (fun _ => hnn) hr

/-- C113, second overload. -/
theorem C113_search_valid (limit : Bool) {r : Except (Fail ε) (List S × C)} {h : Hist S C ε}
    (hr : AstarRun (world2 F limit) starts r h) : History F false starts h ∧ Ending starts h r :=
  run_right (fits2 F limit) (kids2 limit) (by simp) hr

/-- C113, third overload: a path from the start to the goal state; none only if every offered state was expanded, and none was the goal state. -/
theorem C113_single (start target : S) (gen : Hist S C ε → S → Except ε (List S)) (valid : Hist S C ε → S → S → Except ε Bool)
    (dist : Hist S C ε → S → S → Except ε C) (heur : Hist S C ε → S → S → Except ε C) (limit : Bool) {path : List S} {cost : C} {h : Hist S C ε}
    (hr : AstarRun (world2 (toGoal target gen valid dist heur) limit) [(start, 0)] (.ok (path, cost)) h) :
    (path ≠ [] ∧ path.getLast? = some target ∧ cost < ⊤ ∧ ∃ c, c ≤ cost ∧ Walk [(start, 0)] (Offered h) path c) ∨
    (path = [] ∧ cost = ⊤ ∧ ∀ s, Known [(start, (0 : C))] h s → s ≠ target ∧ Asked h s) := by
  obtain ⟨h1, h2⟩ := C113_search_valid limit hr
  have answer : ∀ s a, Event.goal s a ∈ h → a = .ok (decide (s = target)) := by
    intro s a hm
    obtain ⟨pre, post, rfl⟩ := List.append_of_mem hm
    exact (h1 pre _ post rfl).answer
  cases h2 with
  | path hcalm hw hle hlast hg hfin =>
    refine .inl ⟨?_, ?_, hfin, _, hle, hw⟩
    · rintro rfl; cases hlast
    · have := answer _ _ hg
      simp only [Except.ok.injEq] at this
      rw [hlast, of_decide_eq_true this.symm]
  | none hcalm hall =>
    refine .inr ⟨rfl, rfl, fun s hs => ⟨?_, (hall s hs).2⟩⟩
    have := answer _ _ (hall s hs).1
    simp only [Except.ok.injEq] at this
    exact of_decide_eq_false this.symm

/-! ### The loop over the starts -/

theorem Does.grows {α : Type} {h h' : Hist S C ε} {r : Except (Fail ε) α} {Post : α → Hist S C ε → Prop} {Lib : Exc → Hist S C ε → Prop}
    (hd : Does F first starts h (r, h') Post Lib) : h <+: h' := by
  cases r with
  | ok a => exact hd.1
  | error x =>
    cases x with
    | lib x => exact hd.1
    | user x => exact hd.1
    | ub => exact hd.elim

theorem ask_grows {α : Type} {f : Hist S C ε → Except ε α} {ev : Except ε α → Event S C ε} {h h' : Hist S C ε} {r : Except (Fail ε) α}
    (ha : ask f ev h = (r, h')) : h <+: h' := by
  unfold ask at ha
  split at ha <;> cases ha <;> exact List.prefix_append _ _

theorem bestStarts_length (W : World S C ε) (l : List (S × C)) (best : Option (S × C)) (h : Hist S C ε) :
    (bestStarts W best l h).2.length ≤ h.length + l.length := by
  induction l generalizing best h with
  | nil => simp [bestStarts, ret]
  | cons s l ih =>
    change (seq (ask (fun h => W.goal h s.1) (Event.goal s.1)) _ h).2.length ≤ _
    unfold seq ask
    dsimp only
    cases W.goal h s.1 with
    | ok a =>
      dsimp only
      refine le_trans (ih _ _) ?_
      simp only [List.length_append, List.length_cons, List.length_nil]; omega
    | error x => simp

theorem goal_start {W : World S C ε} (hF : Fits F W) (hK : KidsSpec F first starts W) {i : Nat} {s : S} {c : C}
    (hi : starts[i]? = some (s, c)) (hfin : c < ⊤) {r : Except (Fail ε) (List S × C)} {h : Hist S C ε} (hr : AstarRun W starts r h)
    (hg : h[i]? = some (.goal s (.ok true))) :
    (∃ x, r = .error (.user x) ∧ h.length ≤ starts.length) ∨ ∃ y ∈ starts, r = .ok ([y.1], y.2) ∧ y.2 ≤ c ∧ h.length = starts.length := by
  have hbest := bestStarts_does (starts := starts) (first := first) hF starts (fun _ h => h) none (h := []) (by intro e he; simp at he) history_nil
    (Lib := fun _ _ => False)
  have key : ∀ (as : List Bool) (h0 : Hist S C ε), as.length = starts.length → h0 = [] ++ checks starts as → h0 <+: h → as[i]? = some true := by
    intro as h0 h1 h2 h3
    obtain ⟨t, rfl⟩ := h3
    have hlt : i < starts.length := by
      by_contra hc
      rw [List.getElem?_eq_none (not_lt.mp hc)] at hi
      cases hi
    have hlen : i < (checks starts as : Hist S C ε).length := by unfold checks; rw [List.length_zipWith]; omega
    rw [h2, List.nil_append, List.getElem?_append_left hlen] at hg
    unfold checks at hg
    rw [List.getElem?_zipWith, hi] at hg
    cases ha : as[i]? with
    | none => rw [ha] at hg; cases hg
    | some a =>
      rw [ha] at hg
      simp only [Option.some.injEq, Event.goal.injEq, true_and, Except.ok.injEq] at hg
      rw [hg]
  cases hr with
  | noStarts hs => simp at hg
  | @checkThrows x h hs hb =>
    left
    have hlen := bestStarts_length W starts none []
    rw [hb] at hbest hlen
    cases x with
    | user x => exact ⟨x, rfl, by simpa using hlen⟩
    | lib x => exact hbest.2.2.2.elim
    | ub => exact hbest.elim
  | @early y h hs hb =>
    right
    rw [hb] at hbest
    obtain ⟨_, _, _, as, h4, h5, _, h7, h8⟩ := hbest
    rcases h8 with h8 | ⟨j, x, h8, h9, _, h11⟩
    · cases h8
    · cases h8
      refine ⟨y, List.mem_of_getElem? h9, ?_, h7 i _ hi (key as h h4 h5 (List.prefix_refl _)), ?_⟩
      · rcases mkResult_cases [y.1] y.2 with ⟨_, e2⟩ | ⟨e1, _⟩
        · exact absurd e2 h11.ne
        · rw [e1]; rfl
      · rw [h5]; simp [checks, h4]
  | initThrows hs hb hi' =>
    exfalso
    rw [hb] at hbest
    obtain ⟨_, h2, h3, as, h4, h5, _, h7, _⟩ := hbest
    have hgood := init_good hF h2 h3 (by rw [h5]; exact checks_edge _ _) (Lib := fun _ _ => False)
    rw [hi'] at hgood
    exact absurd hfin (not_lt.mpr (h7 i _ hi (key as _ h4 h5 hgood.grows)))
  | search hs hb hi' hrun he =>
    exfalso
    rw [hb] at hbest
    obtain ⟨_, h2, h3, as, h4, h5, _, h7, _⟩ := hbest
    have hgood := init_good hF h2 h3 (by rw [h5]; exact checks_edge _ _) (Lib := fun _ _ => False)
    rw [hi'] at hgood
    obtain ⟨hp1, _, _, hgood⟩ := hgood
    obtain ⟨⟨hinv, hc, hh⟩, hp2⟩ := hgood.steps hF hK hrun
    refine absurd hfin (not_lt.mpr (h7 i _ hi (key as _ h4 h5 (hp1.trans (hp2.trans ?_)))))
    cases he with
    | empty hq => exact List.prefix_refl _
    | goalThrows hp hb hg => exact ask_grows hg
    | goal hp hb hg hx => exact ask_grows hg
    | childrenThrow hp hb hg hk =>
      have := askGoal_does hF hc hh (hinv.known hh hp.mem_top) (Lib := fun _ _ => False)
      rw [hg] at this
      obtain ⟨h6, h7, h8, rfl⟩ := this
      have h9 := expand_does hF hK hinv hc hh hp hb h7 h8
      rw [hk] at h9
      exact h6.trans h9.grows

/-- C113: if the goal check accepts a start of finite cost, the search makes no other calls than the goal checks of the starts and gives the
cheapest start that was accepted (unless the goal check throws for a later start). -/
theorem C113_goal_start (first : Bool) (hnn : first = true → Nonneg F) (limit : Bool) {i : Nat} {s : S} {c : C}
    (hi : starts[i]? = some (s, c)) (hfin : c < ⊤) {r : Except (Fail ε) (List S × C)} {h : Hist S C ε}
    (hr : AstarRun (world first F limit) starts r h) (hg : h[i]? = some (.goal s (.ok true))) :
    (∃ x, r = .error (.user x) ∧ h.length ≤ starts.length) ∨ ∃ y ∈ starts, r = .ok ([y.1], y.2) ∧ y.2 ≤ c ∧ h.length = starts.length := by
  cases first with
  | true => exact goal_start (fits1 F limit) (kids1 (hnn rfl) limit) hi hfin hr hg
  | false => exact goal_start (fits2 F limit) (kids2 limit) hi hfin hr hg

/-! ### Functions without state and exceptions -/

/-- The functions answer like the pure ones of `P`, and never throw; only the code that computes the children may refuse. -/
structure Pure (W : World S C ε) (P : Problem S C) : Prop where
  goal : ∀ h s, W.goal h s = .ok (P.goal s)
  heur : ∀ h s, W.heur h s = .ok (P.h s)
  children : ∀ s h, ∃ h', W.children s h = (ofRes (P.expand s), h')
  limit : W.limit = P.limit

theorem askGoal_pure {W : World S C ε} {P : Problem S C} (hP : Pure W P) (s : S) (h : Hist S C ε) :
    ask (fun h => W.goal h s) (Event.goal s) h = (.ok (P.goal s), h ++ [.goal s (.ok (P.goal s))]) := by
  unfold ask; dsimp only; rw [hP.goal]

theorem askHeur_pure {W : World S C ε} {P : Problem S C} (hP : Pure W P) (s : S) (h : Hist S C ε) :
    ask (fun h => W.heur h s) (Event.heur s) h = (.ok (P.h s), h ++ [.heur s (.ok (P.h s))]) := by
  unfold ask; dsimp only; rw [hP.heur]

theorem bind_ok {α β : Type} {m : Run S C ε α} {f : α → Run S C ε β} {h h1 : Hist S C ε} {a : α} (hm : m h = (.ok a, h1)) :
    (m >>= f) h = f a h1 := by
  change seq m f h = _
  unfold seq; rw [hm]

theorem bind_err {α β : Type} {m : Run S C ε α} {f : α → Run S C ε β} {h h1 : Hist S C ε} {x : Fail ε} (hm : m h = (.error x, h1)) :
    (m >>= f) h = (.error x, h1) := by
  change seq m f h = _
  unfold seq; rw [hm]

theorem bestStarts_pure {W : World S C ε} {P : Problem S C} (hP : Pure W P) (l : List (S × C)) (best : Option (S × C)) (h : Hist S C ε) :
    ∃ h', bestStarts W best l h = (.ok (l.foldl (bestStep P.goal) best), h') := by
  induction l generalizing best h with
  | nil => exact ⟨h, rfl⟩
  | cons s l ih =>
    unfold bestStarts
    rw [bind_ok (askGoal_pure hP s.1 h)]
    exact ih _ _

theorem queueBetter_dups {P : Problem S C} {b : Bool} (hb : b = P.limit) (m : S → Option C) (s : S) (c : C) :
    queueBetter (dups b) m s c = queueBetter P m s c := by subst hb; rfl

theorem push_dups {P : Problem S C} {b : Bool} (hb : b = P.limit) (st : St S C) (e : Elem S C) : push (dups b) st e = push P st e := by
  subst hb; rfl

theorem erased_dups {P : Problem S C} {b : Bool} (hb : b = P.limit) (m : S → Option C) (s : S) : erased (dups b) m s = erased P m s := by
  subst hb; rfl

theorem pushStarts_pure {W : World S C ε} {P : Problem S C} (hP : Pure W P) (l : List (S × C)) (st : St S C) (h : Hist S C ε) :
    ∃ h', pushStarts W st l h = (.ok (l.foldl (pushStart P) st), h') := by
  induction l generalizing st h with
  | nil => exact ⟨h, rfl⟩
  | cons s l ih =>
    unfold pushStarts
    rw [queueBetter_dups hP.limit, List.foldl_cons]
    unfold pushStart
    split
    · exact ih _ _
    · rw [bind_ok (askHeur_pure hP s.1 h), push_dups hP.limit]
      exact ih _ _

theorem pushKids_pure {W : World S C ε} {P : Problem S C} (hP : Pure W P) (s : S) (c : C) (l : List (S × C)) (st : St S C) (h : Hist S C ε) :
    ∃ h', pushKids W s c st l h = (.ok (l.foldl (pushKid P s c) st), h') := by
  induction l generalizing st h with
  | nil => exact ⟨h, rfl⟩
  | cons k l ih =>
    unfold pushKids
    rw [queueBetter_dups hP.limit, List.foldl_cons]
    unfold pushKid
    split
    · exact ih _ _
    · rw [bind_ok (askHeur_pure hP k.1 h), push_dups hP.limit]
      exact ih _ _

theorem expandTop_pure {W : World S C ε} {P : Problem S C} (hP : Pure W P) (top : Elem S C) (st : St S C) (h : Hist S C ε) :
    ∃ h', expandTop W top st h = (match P.expand top.state with
      | .ok kids => .ok (kids.foldl (pushKid P top.state top.cost) st)
      | .throw x => .error (.lib x)
      | .ub => .error .ub, h') := by
  obtain ⟨h1, hk⟩ := hP.children top.state h
  unfold expandTop
  cases hx : P.expand top.state with
  | ok kids =>
    rw [hx] at hk
    obtain ⟨h2, h3⟩ := pushKids_pure hP top.state top.cost kids st h1
    exact ⟨h2, by rw [bind_ok hk, h3]⟩
  | throw x => rw [hx] at hk; exact ⟨h1, bind_err hk⟩
  | ub => rw [hx] at hk; exact ⟨h1, bind_err hk⟩

theorem accept_pure {W : World S C ε} {P : Problem S C} (hP : Pure W P) (st : St S C) (top : Elem S C) (rest : List (Elem S C)) :
    accept W st top rest = ⟨rest, erased P st.members top.state, upd st.explored top.state (some (top.cost, top.back))⟩ := by
  unfold accept; rw [erased_dups hP.limit]

theorem step_pure {W : World S C ε} {P : Problem S C} (hP : Pure W P) {a b : St S C × Hist S C ε} (hs : Step W a b) : CRU.Astar.Step P a.1 b.1 := by
  cases hs with
  | skip hp hb =>
    dsimp only
    rw [erased_dups hP.limit]
    exact .skip hp hb
  | @expand st st' h h1 h2 top rest hp hb hg hk =>
    rw [askGoal_pure hP] at hg
    simp only [Prod.mk.injEq, Except.ok.injEq] at hg
    obtain ⟨h', he⟩ := expandTop_pure hP top (accept W st top rest) h1
    rw [he, accept_pure hP] at hk
    cases hx : P.expand top.state with
    | ok kids =>
      rw [hx] at hk
      simp only [Prod.mk.injEq, Except.ok.injEq] at hk
      rw [← hk.1]
      exact .expand hp hb hg.1 hx
    | throw x => rw [hx] at hk; cases hk
    | ub => rw [hx] at hk; cases hk

theorem pure_step {W : World S C ε} {P : Problem S C} (hP : Pure W P) {a b : St S C} (hs : CRU.Astar.Step P a b) (h : Hist S C ε) :
    ∃ h', Step W (a, h) (b, h') := by
  cases hs with
  | skip hp hb =>
    refine ⟨h, ?_⟩
    rw [← erased_dups hP.limit]
    exact .skip hp hb
  | @expand top rest kids hp hb hg hk =>
    obtain ⟨h', he⟩ := expandTop_pure hP top (accept W a top rest) (h ++ [.goal top.state (.ok false)])
    rw [hk] at he
    refine ⟨h', ?_⟩
    rw [← accept_pure hP]
    refine .expand hp hb ?_ he
    rw [askGoal_pure hP, hg]

theorem steps_pure {W : World S C ε} {P : Problem S C} (hP : Pure W P) {a b : St S C × Hist S C ε} (hs : Steps W a b) :
    CRU.Astar.Steps P a.1 b.1 := by
  induction hs with
  | refl => exact .refl _
  | step h1 _ ih => exact .step (step_pure hP h1) ih

theorem pure_steps {W : World S C ε} {P : Problem S C} (hP : Pure W P) {a b : St S C} (hs : CRU.Astar.Steps P a b) (h : Hist S C ε) :
    ∃ h', Steps W (a, h) (b, h') := by
  induction hs generalizing h with
  | refl => exact ⟨h, .refl _⟩
  | step h1 _ ih =>
    obtain ⟨h2, h3⟩ := pure_step hP h1 h
    obtain ⟨h4, h5⟩ := ih h2
    exact ⟨h4, .step h3 h5⟩

theorem ofRes_inj {α : Type} {r r' : Res α} (h : (ofRes r : Except (Fail ε) α) = ofRes r') : r = r' := by
  cases r <;> cases r' <;> cases h <;> rfl

theorem ends_pure {W : World S C ε} {P : Problem S C} (hP : Pure W P) {a : St S C × Hist S C ε} {r : Except (Fail ε) (List S × C)} {h : Hist S C ε}
    (he : Ends W a r h) : ∃ r', r = ofRes r' ∧ CRU.Astar.Ends P a.1 r' := by
  cases he with
  | empty hq => exact ⟨.ok ([], ⊤), rfl, .empty hq⟩
  | goalThrows hp hb hg => rw [askGoal_pure hP] at hg; cases hg
  | @goal st h h1 r top rest hp hb hg hx =>
    rw [askGoal_pure hP] at hg
    simp only [Prod.mk.injEq, Except.ok.injEq] at hg
    exact ⟨r, rfl, .goal hp hb hg.1 hx⟩
  | @childrenThrow st h h1 h2 x top rest hp hb hg hk =>
    rw [askGoal_pure hP] at hg
    simp only [Prod.mk.injEq, Except.ok.injEq] at hg
    obtain ⟨h', he⟩ := expandTop_pure hP top (accept W st top rest) h1
    rw [he] at hk
    cases hx : P.expand top.state with
    | ok kids => rw [hx] at hk; cases hk
    | throw y =>
      rw [hx] at hk
      simp only [Prod.mk.injEq, Except.error.injEq] at hk
      exact ⟨.throw y, by rw [← hk.1]; rfl, .throws hp hb hg.1 hx⟩
    | ub =>
      rw [hx] at hk
      simp only [Prod.mk.injEq, Except.error.injEq] at hk
      exact ⟨.ub, by rw [← hk.1]; rfl, .ub hp hb hg.1 hx⟩

theorem pure_ends {W : World S C ε} {P : Problem S C} (hP : Pure W P) {a : St S C} {r : Res (List S × C)} (he : CRU.Astar.Ends P a r)
    (h : Hist S C ε) : ∃ h', Ends W (a, h) (ofRes r) h' := by
  cases he with
  | empty hq => exact ⟨h, .empty hq⟩
  | goal hp hb hg hx => exact ⟨_, .goal hp hb (by rw [askGoal_pure hP, hg]) hx⟩
  | @throws top rest e hp hb hg hk =>
    obtain ⟨h', he⟩ := expandTop_pure hP top (accept W a top rest) (h ++ [.goal top.state (.ok false)])
    rw [hk] at he
    exact ⟨h', .childrenThrow hp hb (by rw [askGoal_pure hP, hg]) he⟩
  | @ub top rest hp hb hg hk =>
    obtain ⟨h', he⟩ := expandTop_pure hP top (accept W a top rest) (h ++ [.goal top.state (.ok false)])
    rw [hk] at he
    exact ⟨h', .childrenThrow hp hb (by rw [askGoal_pure hP, hg]) he⟩

theorem run_pure {W : World S C ε} {P : Problem S C} (hP : Pure W P) (starts : List (S × C)) (r : Except (Fail ε) (List S × C)) :
    (∃ h, AstarRun W starts r h) ↔ ∃ r', r = ofRes r' ∧ CRU.Astar.AstarRun P starts r' := by
  obtain ⟨hb, hbest⟩ := bestStarts_pure hP starts none []
  constructor
  · rintro ⟨h, hr⟩
    cases hr with
    | noStarts hs => exact ⟨.throw .invalidArgument, rfl, .noStarts hs⟩
    | checkThrows hs hb' => rw [hbest] at hb'; cases hb'
    | @early s h hs hb' =>
      rw [hbest] at hb'
      simp only [Prod.mk.injEq, Except.ok.injEq] at hb'
      exact ⟨_, rfl, .early hs hb'.1⟩
    | @initThrows x h0 h1 hs hb' hi =>
      obtain ⟨h2, hp⟩ := pushStarts_pure hP starts ⟨[], fun _ => none, fun _ => none⟩ h0
      rw [hp] at hi; cases hi
    | @search st st' h0 h1 h2 h3 r hs hb' hi hrun he =>
      rw [hbest] at hb'
      simp only [Prod.mk.injEq, Except.ok.injEq] at hb'
      obtain ⟨h4, hp⟩ := pushStarts_pure hP starts ⟨[], fun _ => none, fun _ => none⟩ h0
      rw [hp] at hi
      simp only [Prod.mk.injEq, Except.ok.injEq] at hi
      obtain ⟨r', hr, he'⟩ := ends_pure hP he
      refine ⟨r', hr, .search hs hb'.1 ?_ he'⟩
      have := steps_pure hP hrun
      rw [← hi.1] at this
      exact this
  · rintro ⟨r', rfl, hr⟩
    cases hr with
    | noStarts hs => exact ⟨_, .noStarts hs⟩
    | @early s hs h => exact ⟨_, .early hs (by rw [hbest, show starts.foldl (bestStep P.goal) none = _ from h])⟩
    | search hs h hrun he =>
      obtain ⟨h2, hp⟩ := pushStarts_pure hP starts ⟨[], fun _ => none, fun _ => none⟩ hb
      obtain ⟨h3, h4⟩ := pure_steps hP hrun h2
      obtain ⟨h5, h6⟩ := pure_ends hP he h3
      exact ⟨_, .search hs (by rw [hbest, show starts.foldl (bestStep P.goal) none = _ from h]) hp h4 h6⟩

/-- Functions that depend on nothing but their arguments and do not throw. -/
def pureFns (goal : S → Bool) (heur : S → C) (kids : S → List (S × C)) (gen : S → List S) (valid : S → S → Bool) (dist : S → S → C) :
    Fns S C ε :=
  ⟨fun _ s => .ok (goal s), fun _ s => .ok (heur s), fun _ s => .ok (kids s), fun _ s => .ok (gen s), fun _ s t => .ok (valid s t),
    fun _ s t => .ok (dist s t)⟩

theorem filterKids_pure (valid : S → S → Bool) (dist : S → S → C) (s : S) (l : List S) (h : Hist S C ε) :
    ∃ h', filterKids (fun _ s t => .ok (valid s t)) (fun _ s t => .ok (dist s t)) s l h = (ofRes (validChildren valid dist s l), h') := by
  induction l generalizing h with
  | nil => exact ⟨h, rfl⟩
  | cons t l ih =>
    unfold filterKids
    rw [bind_ok (show ask (fun _ => Except.ok (valid s t)) (Event.valid s t) h = (.ok (valid s t), h ++ [.valid s t (.ok (valid s t))]) from rfl)]
    unfold validChildren
    cases valid s t with
    | false => exact ih _
    | true =>
      rw [if_pos rfl, if_pos rfl,
        bind_ok (show ask (fun _ => Except.ok (dist s t)) (Event.dist s t) _ = (.ok (dist s t), _ ++ [.dist s t (.ok (dist s t))]) from rfl)]
      unfold mkStateWithCost
      split
      · exact ⟨_, rfl⟩
      · obtain ⟨h', hk⟩ := ih (h ++ [.valid s t (.ok true)] ++ [.dist s t (.ok (dist s t))])
        rw [bind_ok (show (fun h => (ofRes (Res.ok (t, dist s t)), h) : Run S C ε (S × C)) _ = (.ok (t, dist s t), _) from rfl)]
        cases hv : validChildren valid dist s l with
        | ok ks => rw [hv] at hk; exact ⟨h', by rw [bind_ok hk]; rfl⟩
        | throw x => rw [hv] at hk; exact ⟨h', by rw [bind_err hk]; rfl⟩
        | ub => rw [hv] at hk; exact ⟨h', by rw [bind_err hk]; rfl⟩

/-- C113, first overload: with functions that keep no state and throw nothing the outcomes are those of C19 to C21. -/
theorem C113_as_without (goal : S → Bool) (heur : S → C) (kids : S → List (S × C)) (gen : S → List S) (valid : S → S → Bool) (dist : S → S → C)
    (limit : Bool) (starts : List (S × C)) (r : Except (Fail ε) (List S × C)) :
    (∃ h, AstarRun (world1 (pureFns goal heur kids gen valid dist) limit) starts r h) ↔
    ∃ r', r = ofRes r' ∧ CRU.Astar.AstarRun ⟨goal, fun s => .ok (kids s), heur, limit⟩ starts r' :=
  run_pure ⟨fun _ _ => rfl, fun _ _ => rfl, fun _ _ => ⟨_, rfl⟩, rfl⟩ starts r

/-- C113, second overload. -/
theorem C113_as_without_valid (goal : S → Bool) (heur : S → C) (kids : S → List (S × C)) (gen : S → List S) (valid : S → S → Bool)
    (dist : S → S → C) (limit : Bool) (starts : List (S × C)) (r : Except (Fail ε) (List S × C)) :
    (∃ h, AstarRun (world2 (pureFns goal heur kids gen valid dist) limit) starts r h) ↔
    ∃ r', r = ofRes r' ∧ CRU.Astar.AstarRun (problem2 goal gen valid dist heur limit) starts r' :=
  run_pure ⟨fun _ _ => rfl, fun _ _ => rfl, fun s h => by
    obtain ⟨h', hk⟩ := filterKids_pure valid dist s (gen s) (h ++ [.gen s (.ok (gen s))])
    refine ⟨h', ?_⟩
    change (ask (fun _ => Except.ok (gen s)) (Event.gen s) >>= _) h = _
    rw [bind_ok (show ask (fun _ => Except.ok (gen s)) (Event.gen s) h = (.ok (gen s), h ++ [.gen s (.ok (gen s))]) from rfl)]
    exact hk, rfl⟩ starts r

/-! ### Termination -/

/-- The states that can be reached are among `N`, whatever the functions answer at different times. -/
structure Within (F : Fns S C ε) (first : Bool) (starts : List (S × C)) (N : List S) : Prop where
  first_states : ∀ x ∈ starts, x.1 ∈ N
  offers : ∀ h, History F first starts h → ∀ s ∈ N, ∀ t w, Offered h s t w → t ∈ N

theorem pushKids_queue' (W : World S C ε) (s : S) (c : C) (l : List (S × C)) (st st' : St S C) (h h' : Hist S C ε)
    (hk : pushKids W s c st l h = (.ok st', h')) : h <+: h' ∧ st'.explored = st.explored ∧
      ∃ new, st'.queue = new ++ st.queue ∧ ∀ e ∈ new, ∃ x ∈ l, e.state = x.1 ∧ e.cost = c + x.2 := by
  induction l generalizing st h with
  | nil => cases hk; exact ⟨List.prefix_refl _, rfl, [], rfl, by simp⟩
  | cons k l ih =>
    unfold pushKids at hk
    split at hk
    · obtain ⟨h0, h1, new, h2, h3⟩ := ih _ _ hk
      refine ⟨h0, h1, new, h2, fun e he => ?_⟩
      obtain ⟨x, hx, h4⟩ := h3 e he
      exact ⟨x, by simp [hx], h4⟩
    · change seq _ _ h = _ at hk
      unfold seq at hk
      split at hk
      · rename_i v hx ha
        obtain ⟨h0, h1, new, h2, h3⟩ := ih _ _ hk
        have hpre : h <+: hx := by
          unfold ask at ha
          split at ha <;> cases ha
          exact List.prefix_append _ _
        refine ⟨hpre.trans h0, h1, new ++ [⟨k.1, some s, c + k.2, c + k.2 + v⟩], by rw [h2]; simp [push], fun e he => ?_⟩
        rcases List.mem_append.mp he with he | he
        · obtain ⟨x, hx, h4⟩ := h3 e he
          exact ⟨x, by simp [hx], h4⟩
        · simp only [List.mem_singleton] at he
          subst he
          exact ⟨k, by simp, rfl, rfl⟩
      · cases hk

theorem expandTop_queue {W : World S C ε} (hK : KidsSpec F first starts W) {top : Elem S C} {st st' : St S C} {h h' : Hist S C ε} (hc : Calm h)
    (hh : History F first starts h) (hg : ∃ pre, h = pre ++ [.goal top.state (.ok false)])
    (hk : expandTop W top st h = (.ok st', h')) : st'.explored = st.explored ∧ ∃ new h2, h2 <+: h' ∧ st'.queue = new ++ st.queue ∧
      ∀ e ∈ new, ∃ w, PEdge (soFar true h2) top.state e.state w ∧ e.cost = top.cost + w := by
  change seq _ _ h = _ at hk
  unfold seq at hk
  have h0 := hK top.state h hc hh hg
  split at hk
  · rename_i ks h2 e2
    rw [e2] at h0
    obtain ⟨k0, h1, new, k2, k3⟩ := pushKids_queue' _ _ _ _ _ _ _ _ hk
    refine ⟨h1, new, h2, k0, k2, fun e he => ?_⟩
    obtain ⟨x, hx, x1, x2⟩ := k3 e he
    exact ⟨x.2, by rw [x1]; exact h0.2.2.2.1 x hx, x2⟩
  · cases hk

theorem steps_fuel {W : World S C ε} (hF : Fits F W) (hK : KidsSpec F first starts W) {N : List S} (hN : Within F first starts N)
    (m : Multiset Nat) (a : St S C × Hist S C ε) (hg : Good F first W.limit starts a)
    (hm : Fuel starts (PEdge (soFar true a.2)) N.length a.1.explored (plainSt a.1).queue m) : Acc (fun b a => Step W a b) a := by
  induction m using less_wf.induction generalizing a with
  | _ m ih =>
    constructor
    intro b hstep
    have hg' := (hg.step hF hK hstep).1
    have hpre := (hg.step hF hK hstep).2
    cases hstep with
    | @skip st h top rest hp hb =>
      obtain ⟨d, m', _, h2, rfl⟩ := hm.pop (hp.1.map plain)
      exact ih m' (less_cons _ _) _ hg' h2
    | @expand st st' h h1 h3 top rest hp hb hgo hk =>
      obtain ⟨hi, hc0, hh⟩ := hg
      have h4 := askGoal_does hF hc0 hh (hi.known hh hp.mem_top) (Lib := fun _ _ => False)
      rw [hgo] at h4
      obtain ⟨_, h5, h6, rfl⟩ := h4
      obtain ⟨e2, new, h2, hp2, e1, hnew⟩ := expandTop_queue hK h5 h6 ⟨h, rfl⟩ hk
      dsimp only at hk hpre hg' ⊢
      have hcl : ∀ s ∈ N, ∀ t w, PEdge (soFar true h3) s t w → t ∈ N := fun s hs t w he =>
        hN.offers h3 hg'.right s hs t w (soFar_offered hg'.right he)
      have hm' := hm.mono (edge' := PEdge (soFar true h3)) (fun _ _ _ he => soFar_mono hpre he)
      obtain ⟨m', hlt, hf⟩ := hm'.expand soFar_nonneg (le_refl _) hN.first_states hcl (hp.1.map plain) (top := plain top) hb
        (new := new.map plain) (fun e he => by
          obtain ⟨x, hx, rfl⟩ := List.mem_map.mp he
          obtain ⟨w, w1, w2⟩ := hnew x hx
          exact ⟨w, soFar_mono hp2 w1, w2⟩)
      refine ih m' hlt _ hg' ?_
      have e3 : (plainSt st').queue = new.map plain ++ rest.map plain := by
        change st'.queue.map plain = _
        rw [e1, List.map_append]; rfl
      dsimp only
      rw [e2, e3]
      exact hf

theorem steps_acc' {W : World S C ε} (hF : Fits F W) (hK : KidsSpec F first starts W) {N : List S} (hN : Within F first starts N)
    (a : St S C × Hist S C ε) (hg : Good F first W.limit starts a) : Acc (fun b a => Step W a b) a := by
  obtain ⟨m, hm⟩ := Fuel.start (starts := starts) (edge := PEdge (soFar true a.2)) N.length a.1.explored (q := (plainSt a.1).queue) (fun e he => by
    rcases hg.inv.q.elems e he with ⟨_, k1, _⟩ | ⟨p, l, cold, w, _, k1, k2, k3, k4, k5, _⟩
    · exact ⟨1, .inl ⟨k1, rfl⟩⟩
    · exact ⟨_, .inr ⟨p, l, cold, w, RWalk.weaken (fun _ _ _ => (soFar_flag _ _ _ _ _ _).mp) k1, k2, k3, (soFar_flag _ _ _ _ _ _).mp k4, k5, rfl⟩⟩)
  exact steps_fuel hF hK hN m a hg hm

theorem progress' {W : World S C ε} (a : St S C × Hist S C ε) (hg : Good F first W.limit starts a) :
    (∃ b, Step W a b) ∨ ∃ r h, Ends W a r h := by
  obtain ⟨st, h⟩ := a
  by_cases hq : st.queue = []
  · exact .inr ⟨_, _, .empty hq⟩
  · obtain ⟨top, rest, hp⟩ := exists_pop st.queue hq
    cases hb : exploredBetter st.explored top.state top.cost with
    | true => exact .inl ⟨_, .skip hp hb⟩
    | false =>
      generalize hr : ask (fun h => W.goal h top.state) (Event.goal top.state) h = r
      obtain ⟨r, h1⟩ := r
      cases r with
      | error x => exact .inr ⟨_, _, .goalThrows hp hb hr⟩
      | ok g =>
        cases g with
        | true =>
          obtain ⟨⟨l, _, hx, _⟩, _⟩ := extract_good hg.inv hp hb
          exact .inr ⟨_, _, .goal hp hb hr hx⟩
        | false =>
          generalize hk : expandTop W top (accept W st top rest) h1 = r
          obtain ⟨r, h2⟩ := r
          cases r with
          | error x => exact .inr ⟨_, _, .childrenThrow hp hb hr hk⟩
          | ok st' => exact .inl ⟨_, .expand hp hb hr hk⟩

theorem steps_end' {W : World S C ε} (hF : Fits F W) (hK : KidsSpec F first starts W) {N : List S} (hN : Within F first starts N)
    (a : St S C × Hist S C ε) (hg : Good F first W.limit starts a) : ∃ b r h, Steps W a b ∧ Ends W b r h := by
  have hacc := steps_acc' hF hK hN a hg
  induction hacc with
  | intro a _ ih =>
    rcases progress' a hg with ⟨b, hs⟩ | ⟨r, h, he⟩
    · obtain ⟨c, r, h, h1, h2⟩ := ih b hs (hg.step hF hK hs).1
      exact ⟨c, r, h, .step hs h1, h2⟩
    · exact ⟨a, r, h, .refl _, he⟩

theorem run_ends {W : World S C ε} (hF : Fits F W) (hK : KidsSpec F first starts W) {N : List S} (hN : Within F first starts N) :
    (∃ r h, AstarRun W starts r h) ∧
    ¬ ∃ f : Nat → St S C × Hist S C ε, (∃ h, bestStarts W none starts [] = (.ok none, h) ∧
      pushStarts W ⟨[], fun _ => none, fun _ => none⟩ starts h = (.ok (f 0).1, (f 0).2)) ∧ ∀ n, Step W (f n) (f (n + 1)) := by
  have hbest := bestStarts_does (starts := starts) (first := first) hF starts (fun _ h => h) none (h := []) (by intro e he; simp at he) history_nil
    (Lib := fun _ _ => False)
  have good : ∀ h st h1, bestStarts W none starts [] = (.ok none, h) → pushStarts W ⟨[], fun _ => none, fun _ => none⟩ starts h = (.ok st, h1) →
      Good F first W.limit starts (st, h1) := by
    intro h st h1 e1 e2
    rw [e1] at hbest
    obtain ⟨_, h2, h3, as, h4, h5, _⟩ := hbest
    have hgood := init_good hF h2 h3 (by rw [h5]; exact checks_edge _ _) (Lib := fun _ _ => False)
    rw [e2] at hgood
    exact hgood.2.2.2
  constructor
  · by_cases hs : starts = []
    · exact ⟨_, _, .noStarts hs⟩
    · generalize e1 : bestStarts W none starts [] = r
      obtain ⟨r, h⟩ := r
      cases r with
      | error x => exact ⟨_, _, .checkThrows hs e1⟩
      | ok b =>
        cases b with
        | some s => exact ⟨_, _, .early hs e1⟩
        | none =>
          generalize e2 : pushStarts W ⟨[], fun _ => none, fun _ => none⟩ starts h = r
          obtain ⟨r, h1⟩ := r
          cases r with
          | error x => exact ⟨_, _, .initThrows hs e1 e2⟩
          | ok st =>
            obtain ⟨b, r, h2, h3, h4⟩ := steps_end' hF hK hN _ (good h st h1 e1 e2)
            exact ⟨r, h2, .search hs e1 e2 h3 h4⟩
  · rintro ⟨f, ⟨h, e1, e2⟩, hs⟩
    have hacc := steps_acc' hF hK hN (f 0) (good h _ _ e1 e2)
    have : ∀ a, Acc (fun b a => Step W a b) a → ∀ n, f n = a → False := by
      intro a ha
      induction ha with
      | intro a _ ih => intro n hn; exact ih (f (n + 1)) (hn ▸ hs n) (n + 1) rfl
    exact this _ hacc 0 rfl

/-- C113: if the states that are ever offered come from a finite list, the search ends, with every tie-breaking: which children a state has, how many
times they are offered and what they cost may be different at every call. -/
theorem C113_ends (first : Bool) (hnn : first = true → Nonneg F) (limit : Bool) {N : List S} (hN : Within F first starts N) :
    (∃ r h, AstarRun (world first F limit) starts r h) ∧
    ¬ ∃ f : Nat → St S C × Hist S C ε, (∃ h, bestStarts (world first F limit) none starts [] = (.ok none, h) ∧
      pushStarts (world first F limit) ⟨[], fun _ => none, fun _ => none⟩ starts h = (.ok (f 0).1, (f 0).2)) ∧
      ∀ n, Step (world first F limit) (f n) (f (n + 1)) := by
  cases first with
  | true => exact run_ends (fits1 F limit) (kids1 (hnn rfl) limit) hN
  | false => exact run_ends (fits2 F limit) (kids2 limit) hN

/-! ### Non-vacuity -/
namespace Demo

/-- Functions that count the calls: the goal check accepts any state from the sixth call on if `patient`, the function that gives children throws
from the seventh call on. -/
def counting (patient : Bool) : Fns Nat ℕ∞ String :=
  ⟨fun h _ => .ok (patient && decide (5 ≤ h.length)), fun _ _ => .ok 0, fun h s => if 6 ≤ h.length then .error "tired" else .ok [(s + 1, 1)],
    fun _ s => .ok [s + 1], fun _ _ _ => .ok true, fun h _ _ => if 6 ≤ h.length then .error "tired" else .ok 1⟩

theorem counting_nonneg (b : Bool) : Nonneg (counting b) := fun _ _ _ _ _ _ => zero_le

/-- The calls before the second goal check of the loop. -/
def calls : Hist Nat ℕ∞ String := [.goal 0 (.ok false), .heur 0 (.ok 0), .goal 0 (.ok false), .kids 0 (.ok [(1, 1)]), .heur 1 (.ok 0)]

theorem first_steps (b : Bool) : Steps (world1 (counting b) true) (⟨[⟨0, none, 0, 0⟩], upd (fun _ => none) 0 (some 0), fun _ => none⟩,
    [.goal 0 (.ok false), .heur 0 (.ok 0)])
    (⟨[⟨1, some 0, 0 + 1, 0 + 1 + 0⟩], upd (upd (upd (fun _ => none) 0 (some 0)) 0 none) 1 (some (0 + 1)), upd (fun _ => none) 0 (some (0, none))⟩, calls) := by
  refine .step (.expand (h1 := [.goal 0 (.ok false), .heur 0 (.ok 0), .goal 0 (.ok false)]) (top := ⟨0, none, 0, 0⟩) (rest := [])
    ⟨List.Perm.refl _, by simp⟩ rfl ?_ ?_) (.refl _)
  · cases b <;> rfl
  · cases b <;> rfl

theorem patient_run : AstarRun (world1 (counting true) true) [(0, 0)] (.ok ([0, 1], 0 + 1)) (calls ++ [.goal 1 (.ok true)]) := by
  refine .search (by simp) (h := [.goal 0 (.ok false)]) rfl rfl (first_steps true) ?_
  have := Ends.goal (W := world1 (counting true) true) (h := calls) (h1 := calls ++ [.goal 1 (.ok true)])
    (st := ⟨[⟨1, some 0, 0 + 1, 0 + 1 + 0⟩], upd (upd (upd (fun _ => none) 0 (some 0)) 0 none) 1 (some (0 + 1)), upd (fun _ => none) 0 (some (0, none))⟩)
    (top := ⟨1, some 0, 0 + 1, 0 + 1 + 0⟩) (rest := []) ⟨List.Perm.refl _, by simp⟩ rfl rfl
    (Extract.found (c := 0 + 1) (b := some 0) (r := .ok [0]) rfl (.cons (c := 0) (b := none) rfl .nil))
  exact this

theorem tired_run : AstarRun (world1 (counting false) true) [(0, 0)] (.error (.user "tired"))
    (calls ++ [.goal 1 (.ok false), .kids 1 (.error "tired")]) := by
  refine .search (by simp) (h := [.goal 0 (.ok false)]) rfl rfl (first_steps false) ?_
  exact .childrenThrow (h1 := calls ++ [.goal 1 (.ok false)]) (top := ⟨1, some 0, 0 + 1, 0 + 1 + 0⟩) (rest := []) ⟨List.Perm.refl _, by simp⟩ rfl rfl rfl

example := C113_search (counting_nonneg true) true patient_run
example := C113_search (counting_nonneg false) true tired_run

/-- The second overload: the distance function throws. -/
theorem tired_valid : AstarRun (world2 (counting false) false) [(0, 0)] (.error (.user "tired"))
    [.goal 0 (.ok false), .heur 0 (.ok 0), .goal 0 (.ok false), .gen 0 (.ok [1]), .valid 0 1 (.ok true), .dist 0 1 (.ok 1), .heur 1 (.ok 0),
      .goal 1 (.ok false), .gen 1 (.ok [2]), .valid 1 2 (.ok true), .dist 1 2 (.error "tired")] := by
  refine .search (by simp) (h := [.goal 0 (.ok false)]) rfl rfl (.step (.expand
    (h1 := [.goal 0 (.ok false), .heur 0 (.ok 0), .goal 0 (.ok false)]) (top := ⟨0, none, 0, 0⟩) (rest := []) ⟨List.Perm.refl _, by simp⟩ rfl rfl rfl) (.refl _)) ?_
  exact .childrenThrow (top := ⟨1, some 0, 0 + 1, 0 + 1 + 0⟩) (rest := []) ⟨List.Perm.refl _, by simp⟩ rfl rfl rfl

example := C113_search_valid false tired_valid

/-- The third overload. -/
theorem single_run : AstarRun (world2 (toGoal (3 : Nat) (fun _ _ => .ok []) (fun _ _ _ => .ok true) (fun _ _ _ => .ok (1 : ℕ∞)) (fun _ _ _ => .ok 0)) true)
    [(3, 0)] (.ok ([3], 0)) ([.goal 3 (.ok true)] : Hist Nat ℕ∞ String) := by
  have := AstarRun.early (W := world2 (toGoal (3 : Nat) (fun _ _ => .ok []) (fun _ _ _ => .ok true) (fun _ _ _ => .ok (1 : ℕ∞)) (fun _ _ _ => .ok 0)) true)
    (starts := [(3, 0)]) (s := (3, 0)) (h := ([.goal 3 (.ok true)] : Hist Nat ℕ∞ String)) (by simp) rfl
  exact this
example := C113_single 3 3 _ _ _ _ true single_run

/-- A start that is accepted. -/
example := C113_goal_start (F := toGoal (3 : Nat) (fun _ _ => .ok []) (fun _ _ _ => .ok true) (fun _ _ _ => .ok (1 : ℕ∞)) (fun _ _ _ => .ok 0))
  (ε := String) false (by simp) true (starts := [(3, 0)]) (i := 0) rfl (by simp) (h := [.goal 3 (.ok true)]) (.early (s := (3, 0)) (by simp) rfl) rfl

/-- Three states; the children of 0 are 1 and itself, as many times and as far away as calls were made. -/
example := C113_ends (F := ⟨fun _ s => .ok (decide (s = 2)), fun _ _ => .ok (0 : ℕ∞), fun h s => .ok (if s = 0 then
    List.replicate h.length (1, (h.length : ℕ∞)) ++ [(0, 0)] else [(2, 1)]), fun _ _ => .ok [], fun _ _ _ => .ok true, fun _ _ _ => .ok 1⟩)
    (ε := String) true (fun _ _ _ _ _ _ _ => zero_le) true (starts := [(0, 0)]) (N := [0, 1, 2]) (by
  refine ⟨by simp, fun h hh s _ t w ho => ?_⟩
  rcases ho with ⟨l, h1, h2⟩ | ⟨⟨l, h1, _⟩, _⟩
  · obtain ⟨pre, post, rfl⟩ := List.append_of_mem h1
    have := (hh pre _ post rfl).answer.2
    simp only [Except.ok.injEq] at this
    subst this
    split at h2
    · rcases List.mem_append.mp h2 with h2 | h2
      · have h3 := (List.mem_replicate.mp h2).2
        simp only [Prod.mk.injEq] at h3; rw [h3.1]; simp
      · simp only [List.mem_singleton, Prod.mk.injEq] at h2; rw [h2.1]; simp
    · simp only [List.mem_singleton, Prod.mk.injEq] at h2; rw [h2.1]; simp
  · obtain ⟨pre, post, rfl⟩ := List.append_of_mem h1
    exact absurd (hh pre _ post rfl).answer.1 (by simp))

end Demo

end CRU.Astar.Callbacks
