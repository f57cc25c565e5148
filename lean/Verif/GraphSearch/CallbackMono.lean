import Verif.GraphSearch.CallbackMain
/-
  A search that no function has ended with an exception does what it does with any functions that have the same answers.
-/
namespace CRU.GraphSearch.Callbacks
open CRU.Graph CRU.Astar
open CRU.Astar.Callbacks (Fail ofRes dups)
set_option linter.unusedSectionVars false

variable {V C ε α β : Type}

/-- `m'` does what `m` does, unless `m` ends with an exception of a function given by the user. -/
def Follows (m' m : Run C ε α) : Prop := ∀ h, (∃ x h', m h = (.error (.user x), h')) ∨ m' h = m h

theorem bindOk {m : Run C ε α} {f : α → Run C ε β} {h h1 : Hist C ε} {a : α} (hm : m h = (.ok a, h1)) : (m >>= f) h = f a h1 := by
  change seq m f h = _
  unfold seq; rw [hm]

theorem bindErr {m : Run C ε α} {f : α → Run C ε β} {h h1 : Hist C ε} {x : Fail ε} (hm : m h = (.error x, h1)) :
    (m >>= f) h = (.error x, h1) := by
  change seq m f h = _
  unfold seq; rw [hm]

theorem Follows.refl (m : Run C ε α) : Follows m m := fun _ => .inr rfl

theorem Follows.bind {m m' : Run C ε α} {f f' : α → Run C ε β} (h : Follows m' m) (hf : ∀ a, Follows (f' a) (f a)) : Follows (m' >>= f') (m >>= f) := by
  intro h0
  rcases h h0 with ⟨x, h', hm⟩ | hm
  · exact .inl ⟨x, h', bindErr hm⟩
  · rcases hr : m h0 with ⟨r, h1⟩
    cases r with
    | ok a => rw [bindOk hr, bindOk (hm.trans hr)]; exact hf a h1
    | error x => right; rw [bindErr hr, bindErr (hm.trans hr)]

theorem Follows.ask {f f' : Hist C ε → Except ε α} {ev : Except ε α → Event C ε} (hf : ∀ h a, f h = .ok a → f' h = .ok a) :
    Follows (ask f' ev) (ask f ev) := by
  intro h
  unfold CRU.GraphSearch.Callbacks.ask
  cases hr : f h with
  | ok a => right; rw [hf h a hr]
  | error x => exact .inl ⟨x, _, rfl⟩

/-- If `m` did not end with such an exception, then `m'` has done the same. -/
theorem Follows.same {m m' : Run C ε α} (hf : Follows m' m) {h h1 : Hist C ε} {r : Except (Fail ε) α} (hm : m h = (r, h1))
    (hr : ∀ x, r ≠ .error (.user x)) : m' h = (r, h1) := by
  rcases hf h with ⟨x, h', h2⟩ | h2
  · rw [hm] at h2; cases h2; exact absurd rfl (hr x)
  · rw [h2, hm]

variable [LinearOrder C] [Add C] [Zero C] [OrderTop C] [CostLaws C]

/-- The same search with functions that have the same answers. -/
structure FollowsW (W' W : World V C ε) : Prop where
  get : W'.get = W.get
  limit : W'.limit = W.limit
  goal : ∀ i, Follows (W'.goal i) (W.goal i)
  heur : ∀ i, Follows (W'.heur i) (W.heur i)
  valid : ∀ h e a, W.valid h e = .ok a → W'.valid h e = .ok a
  dist : ∀ h e a, W.dist h e = .ok a → W'.dist h e = .ok a

section
variable {W W' : World V C ε}

theorem bestStarts_follows (hW : FollowsW W' W) (l : List (Int × C)) (best : Option (Int × C)) :
    Follows (bestStarts W' best l) (bestStarts W best l) := by
  induction l generalizing best with
  | nil => exact .refl _
  | cons s l ih => exact (hW.goal s.1).bind fun g => ih _

theorem pushStarts_follows (hW : FollowsW W' W) (l : List (Int × C)) (st : St Int C) : Follows (pushStarts W' st l) (pushStarts W st l) := by
  induction l generalizing st with
  | nil => exact .refl _
  | cons s l ih =>
    unfold pushStarts
    rw [hW.limit]
    split
    · exact ih _
    · exact (hW.heur s.1).bind fun v => ih _

theorem pushEdges_follows (hW : FollowsW W' W) (p : Int) (c : C) (l : List (Edge C)) (st : St Int C) :
    Follows (pushEdges W' p c st l) (pushEdges W p c st l) := by
  induction l generalizing st with
  | nil => exact .refl _
  | cons e l ih =>
    unfold pushEdges
    refine (Follows.ask fun h a => hW.valid h e a).bind fun v => ?_
    split
    · refine (Follows.ask fun h a => hW.dist h e a).bind fun d => ?_
      rw [hW.limit]
      split
      · exact ih _
      · exact (hW.heur e.dst).bind fun hv => ih _
    · exact ih _

theorem expandTop_follows (hW : FollowsW W' W) (top : Elem Int C) (st : St Int C) : Follows (expandTop W' top st) (expandTop W top st) := by
  unfold expandTop
  rw [hW.get]
  exact (Follows.refl _).bind fun n => pushEdges_follows hW _ _ _ _

theorem accept_follows (hW : FollowsW W' W) (st : St Int C) (top : Elem Int C) (rest : List (Elem Int C)) :
    accept W' st top rest = accept W st top rest := by
  unfold accept; rw [hW.limit]

theorem step_follows (hW : FollowsW W' W) {a b : St Int C × Hist C ε} (h : Step W a b) : Step W' a b := by
  cases h with
  | skip hp hb => rw [← hW.limit]; exact .skip hp hb
  | expand hp hb hg hk =>
    refine .expand hp hb ((hW.goal _).same hg (by simp)) ?_
    rw [accept_follows hW]
    exact (expandTop_follows hW _ _).same hk (by simp)

theorem steps_follows (hW : FollowsW W' W) {a b : St Int C × Hist C ε} (h : Steps W a b) : Steps W' a b := by
  induction h with
  | refl => exact .refl _
  | step h1 _ ih => exact .step (step_follows hW h1) ih

theorem ends_follows (hW : FollowsW W' W) {a : St Int C × Hist C ε} {r : Except (Fail ε) (List Int × C)} {h : Hist C ε} (he : Ends W a r h)
    (hr : ∀ x, r ≠ .error (.user x)) : Ends W' a r h := by
  cases he with
  | empty hq => exact .empty hq
  | @goalThrows st h h1 x top rest hp hb hg =>
    exact .goalThrows hp hb ((hW.goal _).same hg (fun y hy => by cases hy; exact hr y rfl))
  | goal hp hb hg hx =>
    refine .goal hp hb ((hW.goal _).same hg (by simp)) ?_
    rw [accept_follows hW]
    exact hx
  | @edgesThrow st h h1 h2 x top rest hp hb hg hk =>
    refine .edgesThrow hp hb ((hW.goal _).same hg (by simp)) ?_
    rw [accept_follows hW]
    exact (expandTop_follows hW _ _).same hk (fun y hy => by cases hy; exact hr y rfl)

theorem run_follows (hW : FollowsW W' W) {starts : List (Int × C)} {r : Except (Fail ε) (List Int × C)} {h : Hist C ε}
    (hrun : AstarRun W starts r h) (hr : ∀ x, r ≠ .error (.user x)) : AstarRun W' starts r h := by
  have key : ∀ {α : Type} {x : Fail ε}, (∀ y, (.error x : Except (Fail ε) (List Int × C)) ≠ .error (.user y)) →
      ∀ y, (.error x : Except (Fail ε) α) ≠ .error (.user y) := by
    intro α x hx y hy
    cases hy
    exact hx y rfl
  cases hrun with
  | noStarts hs => exact .noStarts hs
  | checkThrows hs hb => exact .checkThrows hs ((bestStarts_follows hW _ _).same hb (key hr))
  | early hs hb h0 => exact .early hs ((bestStarts_follows hW _ _).same hb (by simp)) h0
  | initThrows hs hb hn hi =>
    exact .initThrows hs ((bestStarts_follows hW _ _).same hb (by simp)) hn ((pushStarts_follows hW _ _).same hi (key hr))
  | search hs hb hn hi hrun he =>
    exact .search hs ((bestStarts_follows hW _ _).same hb (by simp)) hn ((pushStarts_follows hW _ _).same hi (by simp))
      (steps_follows hW hrun) (ends_follows hW he hr)

end

theorem bestHeur_follows {f f' : Hist C ε → Int → Int → Except ε C} (hf : ∀ h i g a, f h i g = .ok a → f' h i g = .ok a) (i : Int) (l : List Int)
    (best : C) : Follows (bestHeur f' i best l) (bestHeur f i best l) := by
  induction l generalizing best with
  | nil => exact .refl _
  | cons g l ih => exact (Follows.ask fun h a => hf h i g a).bind fun v => ih _

/-- The second overload with functions that keep no state: a search that no function has ended with an exception does what it does with functions
that do not throw and have the same answers (C23). -/
theorem lazy_follows {size : Int} {get : Int → Res (Node V C)} {starts goals : List Int} {F : Fns C ε} {limit : Bool}
    {heurTo : Int → Int → C} {valid : Edge C → Bool} {dist : Edge C → C} (hh : ∀ h i g a, F.heurTo h i g = .ok a → heurTo i g = a)
    (hv : ∀ h e a, F.valid h e = .ok a → valid e = a) (hd : ∀ h e a, F.dist h e = .ok a → dist e = a)
    {r : Except (Fail ε) (List Int × C)} {h : Hist C ε} (hrun : LazyCalls size get starts goals F limit r h) (hr : ∀ x, r ≠ .error (.user x)) :
    ∃ r', r = ofRes r' ∧ LazyRun size get starts goals valid dist heurTo limit r' := by
  refine (C114_as_without_lazy (ε := ε) size get (fun _ => false) (fun _ => ⊤) heurTo valid dist limit starts goals r).mp ⟨h, ?_⟩
  cases hrun with
  | badIndex hb => exact .badIndex hb
  | run hb hrun =>
    refine .run hb (run_follows ?_ hrun hr)
    exact ⟨rfl, rfl, fun _ => .refl _, fun i => bestHeur_follows (fun h i g a he => by
        show Except.ok (heurTo i g) = _; rw [hh h i g a he]) i goals ⊤,
      fun h e a he => by show Except.ok (valid e) = _; rw [hv h e a he], fun h e a he => by show Except.ok (dist e) = _; rw [hd h e a he]⟩

end CRU.GraphSearch.Callbacks
