import Verif.NaN.Base
import Verif.Astar.Model
import Mathlib.Data.List.Chain
/-
  C103: A* when costs or heuristic values are NaNs.
-/
namespace CRU.NaN
open CRU.Astar
set_option linter.unusedSectionVars false

section AnyArithmetic
variable {S C : Type} [DecidableEq S] [LT C] [LE C] [DecidableLT C] [DecidableLE C] [DecidableEq C] [Add C] [Zero C] [Top C]

/-- simple_astar_search.hpp:357-358 `queue.top(); queue.pop();` on a heap whose comparisons mean nothing: any element. (With NaNs among the values the
comparator of the queue is not a strict weak ordering and the standard leaves `std::priority_queue` undefined; this is what is left of it if it still
stores the elements that were pushed.) -/
def PopAny (q : List (Elem S C)) (top : Elem S C) (rest : List (Elem S C)) : Prop := q.Perm (top :: rest)

/-- simple_astar_search.hpp:354-422, one iteration of the search loop with any pop. -/
inductive StepAny (P : Problem S C) : St S C → St S C → Prop
  | skip {st : St S C} {top : Elem S C} {rest : List (Elem S C)} (hp : PopAny st.queue top rest)
      (hb : exploredBetter st.explored top.state top.cost = true) :
      StepAny P st ⟨rest, erased P st.members top.state, st.explored⟩
  | expand {st : St S C} {top : Elem S C} {rest : List (Elem S C)} {kids : List (S × C)} (hp : PopAny st.queue top rest)
      (hb : exploredBetter st.explored top.state top.cost = false) (hg : P.goal top.state = false)
      (hk : P.expand top.state = .ok kids) :
      StepAny P st (kids.foldl (pushKid P top.state top.cost)
        ⟨rest, erased P st.members top.state, upd st.explored top.state (some (top.cost, top.back))⟩)

/-- simple_astar_search.hpp:354-433: the search loop with any pop ends in state `st` with result `r` (a value). -/
inductive EndsAny (P : Problem S C) : St S C → Res (List S × C) → Prop
  | empty {st : St S C} (h : st.queue = []) : EndsAny P st (.ok ([], ⊤))
  | goal {st : St S C} {top : Elem S C} {rest : List (Elem S C)} {r : Res (List S × C)} (hp : PopAny st.queue top rest)
      (hb : exploredBetter st.explored top.state top.cost = false) (hg : P.goal top.state = true)
      (hx : Extract (upd st.explored top.state (some (top.cost, top.back))) top.state r) : EndsAny P st r
  | throws {st : St S C} {top : Elem S C} {rest : List (Elem S C)} {e : Exc} (hp : PopAny st.queue top rest)
      (hb : exploredBetter st.explored top.state top.cost = false) (hg : P.goal top.state = false)
      (hk : P.expand top.state = .throw e) : EndsAny P st (.throw e)
  | ub {st : St S C} {top : Elem S C} {rest : List (Elem S C)} (hp : PopAny st.queue top rest)
      (hb : exploredBetter st.explored top.state top.cost = false) (hg : P.goal top.state = false)
      (hk : P.expand top.state = .ub) : EndsAny P st .ub

/-- simple_astar_search.hpp:227-434 `PerformAstarSearch` with any pops: `r` is a possible outcome. -/
inductive AstarRunAny (P : Problem S C) (starts : List (S × C)) : Res (List S × C) → Prop
  | noStarts (h : starts = []) : AstarRunAny P starts (.throw .invalidArgument)
  | early {s : S × C} (hs : starts ≠ []) (h : bestStart P.goal starts = some s) : AstarRunAny P starts (mkResult [s.1] s.2)
  | search {st : St S C} {r : Res (List S × C)} (hs : starts ≠ []) (h : bestStart P.goal starts = none)
      (hrun : Relation.ReflTransGen (StepAny P) (init P starts) st) (he : EndsAny P st r) : AstarRunAny P starts r

/-- Every run is one of these. -/
theorem run_any {P : Problem S C} {starts : List (S × C)} {r : Res (List S × C)} (h : AstarRun P starts r) : AstarRunAny P starts r := by
  have st : ∀ {a b}, Step P a b → StepAny P a b := by
    intro a b h
    cases h with
    | skip hp hb => exact .skip hp.1 hb
    | expand hp hb hg hk => exact .expand hp.1 hb hg hk
  have sts : ∀ {a b}, Steps P a b → Relation.ReflTransGen (StepAny P) a b := by
    intro a b h
    induction h with
    | refl => exact .refl
    | step h _ ih => exact .head (st h) ih
  cases h with
  | noStarts h => exact .noStarts h
  | early hs h => exact .early hs h
  | search hs h hrun he =>
    refine .search hs h (sts hrun) ?_
    cases he with
    | empty h => exact .empty h
    | goal hp hb hg hx => exact .goal hp.1 hb hg hx
    | throws hp hb hg hk => exact .throws hp.1 hb hg hk
    | ub hp hb hg hk => exact .ub hp.1 hb hg hk

/-- `t` is one of the valid children of `s`. -/
def Child (P : Problem S C) (s t : S) : Prop := ∃ kids w, P.expand s = .ok kids ∧ (t, w) ∈ kids

/-- A back pointer that says the truth: none from a start, else a state with this child. -/
def BackOk (P : Problem S C) (starts : List (S × C)) (s : S) : Option S → Prop
  | none => ∃ c, (s, c) ∈ starts
  | some p => Child P p s

/-- What holds in every state of the search, whatever the arithmetic. -/
structure BackInv (P : Problem S C) (starts : List (S × C)) (st : St S C) : Prop where
  queue : ∀ e ∈ st.queue, BackOk P starts e.state e.back
  explored : ∀ s c b, st.explored s = some (c, b) → BackOk P starts s b

theorem bestStart_mem (goal : S → Bool) (starts : List (S × C)) {s : S × C} (h : bestStart goal starts = some s) :
    s ∈ starts ∧ goal s.1 = true := by
  have : ∀ (l : List (S × C)) (cur : Option (S × C)), l.foldl (bestStep goal) cur = some s →
      (s ∈ l ∧ goal s.1 = true) ∨ cur = some s := by
    intro l
    induction l with
    | nil => intro cur h; exact .inr h
    | cons x l ih =>
      intro cur h
      rcases ih _ h with ⟨h1, h2⟩ | h1
      · exact .inl ⟨List.mem_cons_of_mem _ h1, h2⟩
      · unfold bestStep at h1
        split at h1
        · rename_i hg
          split at h1
          · cases h1; exact .inl ⟨List.mem_cons_self, hg⟩
          · exact .inr h1
        · exact .inr h1
  rcases this starts none h with h | h
  · exact h
  · cases h

theorem init_back (P : Problem S C) (starts : List (S × C)) : BackInv P starts (init P starts) := by
  have : ∀ (l : List (S × C)) (st : St S C), (∀ s ∈ l, s ∈ starts) → BackInv P starts st → BackInv P starts (l.foldl (pushStart P) st) := by
    intro l
    induction l with
    | nil => intro st _ h; exact h
    | cons x l ih =>
      intro st hl h
      refine ih _ (fun s hs => hl s (List.mem_cons_of_mem _ hs)) ?_
      unfold pushStart
      split
      · exact h
      · refine ⟨?_, h.explored⟩
        intro e he
        simp only [push, List.mem_cons] at he
        rcases he with rfl | he
        · exact ⟨x.2, hl x List.mem_cons_self⟩
        · exact h.queue e he
  exact this starts _ (fun _ h => h) ⟨by simp, by simp⟩

theorem kids_back {P : Problem S C} {starts : List (S × C)} {p : S} {pc : C} : ∀ (kids : List (S × C)) (st : St S C),
    (∀ k ∈ kids, Child P p k.1) → BackInv P starts st → BackInv P starts (kids.foldl (pushKid P p pc) st) := by
  intro kids
  induction kids with
  | nil => intro st _ h; exact h
  | cons x l ih =>
    intro st hl h
    refine ih _ (fun s hs => hl s (List.mem_cons_of_mem _ hs)) ?_
    unfold pushKid
    split
    · exact h
    · refine ⟨?_, h.explored⟩
      intro e he
      simp only [push, List.mem_cons] at he
      rcases he with rfl | he
      · exact hl x List.mem_cons_self
      · exact h.queue e he

theorem upd_back {P : Problem S C} {starts : List (S × C)} {ex : S → Option (C × Option S)} {top : Elem S C}
    (h : ∀ s c b, ex s = some (c, b) → BackOk P starts s b) (ht : BackOk P starts top.state top.back) :
    ∀ s c b, upd ex top.state (some (top.cost, top.back)) s = some (c, b) → BackOk P starts s b := by
  intro s c b e
  unfold upd at e
  split at e
  · rename_i hs; cases e; rw [hs]; exact ht
  · exact h s c b e

theorem step_back {P : Problem S C} {starts : List (S × C)} {a b : St S C} (h : StepAny P a b) (hi : BackInv P starts a) : BackInv P starts b := by
  cases h with
  | skip hp hb => exact ⟨fun e he => hi.queue e (hp.symm.subset (List.mem_cons_of_mem _ he)), hi.explored⟩
  | @expand top rest kids hp hb hg hk =>
    refine kids_back kids _ (fun k hk' => ⟨kids, k.2, hk, hk'⟩) ⟨fun e he => hi.queue e (hp.symm.subset (List.mem_cons_of_mem _ he)), ?_⟩
    exact upd_back hi.explored (hi.queue _ (hp.symm.subset List.mem_cons_self))

/-- Following true back pointers. -/
theorem chain_back {P : Problem S C} {starts : List (S × C)} {ex : S → Option (C × Option S)}
    (h : ∀ s c b, ex s = some (c, b) → BackOk P starts s b) {o : Option S} {r : Res (List S)} (hc : Chain ex o r) :
    ∀ l, r = .ok l → ∀ s, BackOk P starts s o →
      ((s :: l).reverse.IsChain (Child P)) ∧ ∃ s0 c, (s :: l).reverse.head? = some s0 ∧ (s0, c) ∈ starts := by
  induction hc with
  | nil =>
    rintro l ⟨⟩ s ⟨c, hs⟩
    exact ⟨by simp, s, c, rfl, hs⟩
  | @cons p c b l' hp hc ih =>
    rintro l ⟨⟩ s hs
    obtain ⟨h1, s0, c0, h2, h3⟩ := ih l' rfl p (h _ _ _ hp)
    refine ⟨?_, s0, c0, ?_, h3⟩
    · rw [List.reverse_cons]
      refine List.isChain_append.mpr ⟨h1, by simp, ?_⟩
      intro x hx y hy
      rw [List.getLast?_reverse] at hx
      simp only [List.head?_cons, Option.mem_def, Option.some.injEq] at hx hy
      subst hx hy
      exact hs
    · rw [List.reverse_cons, List.head?_append, h2]; rfl
  | consThrow hp hc ih => rintro l ⟨⟩
  | missing hp => rintro l ⟨⟩

/-- **C103.** A path returned by A* is a real path whatever the arithmetic of the costs (NaNs, no order laws, any pops from the queue): it
begins in one of the starts, each state is one of the valid children generated for the one before, and it ends in a goal. -/
theorem C103_astar_path_is_real (P : Problem S C) (starts : List (S × C)) (path : List S) (c : C)
    (hr : AstarRunAny P starts (.ok (path, c))) (hne : path ≠ []) :
    (∃ s c0, path.head? = some s ∧ (s, c0) ∈ starts) ∧
    path.IsChain (fun a b => ∃ kids w, P.expand a = .ok kids ∧ (b, w) ∈ kids) ∧
    ∃ g, path.getLast? = some g ∧ P.goal g = true := by
  generalize hx : (Res.ok (path, c) : Res (List S × C)) = r at hr
  cases hr with
  | noStarts h => cases hx
  | @early s hs h =>
    unfold mkResult at hx
    split at hx
    · cases hx
    · cases hx
      obtain ⟨h1, h2⟩ := bestStart_mem P.goal starts h
      exact ⟨⟨s.1, s.2, rfl, h1⟩, by simp, s.1, rfl, h2⟩
  | search hs h hrun he =>
    have hinv : ∀ st, Relation.ReflTransGen (StepAny P) (init P starts) st → BackInv P starts st := by
      intro st hst
      induction hst with
      | refl => exact init_back P starts
      | tail _ h ih => exact step_back h ih
    have hi := hinv _ hrun
    subst hx
    generalize hx : (Res.ok (path, c) : Res (List S × C)) = r at he
    cases he with
    | empty h => cases hx; exact absurd rfl hne
    | throws hp hb hg hk => cases hx
    | ub hp hb hg hk => cases hx
    | @goal top rest _ hp hb hg hxx =>
      subst hx
      generalize hx : (Res.ok (path, c) : Res (List S × C)) = r at hxx
      have htop := hi.queue _ (hp.symm.subset List.mem_cons_self)
      cases hxx with
      | notFound h => cases hx; exact absurd rfl hne
      | @found c' b r hf hc =>
        have hb' := upd_back hi.explored htop
        cases r with
        | throw e => cases hx
        | ub => cases hx
        | ok l =>
          have hx' : Res.ok (path, c) = mkResult (top.state :: l).reverse c' := hx
          unfold mkResult at hx'
          split at hx'
          · cases hx'
          · injection hx' with hx'
            injection hx' with hx1 hx2
            subst hx1
            obtain ⟨h1, s0, c0, h2, h3⟩ := chain_back hb' hc l rfl top.state (hb' _ _ _ hf)
            exact ⟨⟨s0, c0, h2, h3⟩, h1, top.state, by rw [List.getLast?_reverse]; rfl, hg⟩

end AnyArithmetic

/-- Two states, each the neighbour of the other, whose distance is a NaN; the goal is elsewhere. -/
def loopProblem (limit : Bool) : Problem Nat (Dbl ℕ∞) := problem3 7 (fun s => [1 - s]) (fun _ _ => true) (fun _ _ => .nan) (fun _ _ => .num 0) limit

/-- The states of the search on `loopProblem`. -/
structure LoopInv (st : St Nat (Dbl ℕ∞)) : Prop where
  one : ∃ e, st.queue = [e] ∧ e.state < 2 ∧ exploredBetter st.explored e.state e.cost = false

theorem loop_expand (limit : Bool) (s : Nat) : (loopProblem limit).expand s = .ok [(1 - s, .nan)] := by
  simp only [loopProblem, problem3, problem2, validChildren, if_true, mkStateWithCost, Dbl.nan_lt, if_false]
  rfl

theorem not_better_nan (ex : Nat → Option (Dbl ℕ∞ × Option Nat)) (s : Nat) : exploredBetter ex s .nan = false := by
  unfold exploredBetter
  split
  · simp
  · rfl

theorem loop_kids (limit : Bool) (p : Nat) (pc : Dbl ℕ∞) (st : St Nat (Dbl ℕ∞)) (hq : st.queue = []) (hp : p < 2) :
    LoopInv ([(1 - p, Dbl.nan)].foldl (pushKid (loopProblem limit) p pc) st) := by
  have hb : queueBetter (loopProblem limit) st.members (1 - p) .nan = false := by
    unfold queueBetter
    split
    · split
      · simp
      · rfl
    · rfl
  refine ⟨?_⟩
  simp only [List.foldl_cons, List.foldl_nil, pushKid, Dbl.add_nan, not_better_nan, hb, Bool.or_self, Bool.false_eq_true, if_false,
    push, hq]
  exact ⟨_, rfl, by dsimp only; omega, not_better_nan _ _⟩

theorem loop_init (limit : Bool) : LoopInv (init (loopProblem limit) [(0, 0)]) := by
  cases limit <;> exact ⟨_, rfl, by decide, rfl⟩

theorem loop_step {limit : Bool} {a b : St Nat (Dbl ℕ∞)} (h : Step (loopProblem limit) a b) (ha : LoopInv a) : LoopInv b := by
  obtain ⟨e, hq, hs, hb⟩ := ha.one
  have pop : ∀ {top rest}, Pop a.queue top rest → top = e ∧ rest = [] := by
    intro top rest hp
    have h1 := hp.1
    rw [hq] at h1
    have := List.singleton_perm.mp h1
    simp only [List.cons.injEq] at this
    exact ⟨this.1.symm, this.2.symm⟩
  cases h with
  | skip hp hb' =>
    obtain ⟨rfl, rfl⟩ := pop hp
    rw [hb] at hb'; cases hb'
  | expand hp hb' hg hk =>
    obtain ⟨rfl, rfl⟩ := pop hp
    rw [loop_expand] at hk
    cases hk
    exact loop_kids limit _ _ _ rfl hs

/-- **C103.** A* need not end when a distance is a NaN, although there are only two states and costs are checked on entry: the third
overload, from 0 to a state that cannot be reached, with neighbours 0 and 1 at distance NaN, goes on for ever, with or without
the limit on duplicates in the queue, and has no outcome. -/
theorem C103_astar_terminates_false (limit : Bool) :
    (∀ st, Steps (loopProblem limit) (init (loopProblem limit) [(0, 0)]) st → ∃ st', Step (loopProblem limit) st st') ∧
    ∀ r, ¬ AstarRun (loopProblem limit) [(0, 0)] r := by
  have steps : ∀ a b, Steps (loopProblem limit) a b → LoopInv a → LoopInv b := by
    intro a b h
    induction h with
    | refl => exact id
    | step h _ ih => exact fun ha => ih (loop_step h ha)
  have noGoal : ∀ s, s < 2 → (loopProblem limit).goal s = false := by
    intro s hs
    show decide (s = 7) = false
    simp; omega
  constructor
  · intro st hst
    obtain ⟨e, hq, hs, hb⟩ := (steps _ _ hst (loop_init limit)).one
    exact ⟨_, .expand (top := e) (rest := []) ⟨by rw [hq], by simp⟩ hb (noGoal _ hs) (loop_expand limit _)⟩
  · intro r hr
    cases hr with
    | noStarts h => cases h
    | early hs h => cases limit <;> cases h
    | @search st _ hs h hrun he =>
      obtain ⟨e, hq, hs, hb⟩ := (steps _ _ hrun (loop_init limit)).one
      have pop : ∀ {top rest}, Pop st.queue top rest → top = e := by
        intro top rest hp
        have h1 := hp.1
        rw [hq] at h1
        have := List.singleton_perm.mp h1
        simp only [List.cons.injEq] at this
        exact this.1.symm
      cases he with
      | empty h => rw [hq] at h; cases h
      | goal hp hb' hg hx => rw [pop hp, noGoal _ hs] at hg; cases hg
      | throws hp hb' hg hk => rw [pop hp, loop_expand] at hk; cases hk
      | ub hp hb' hg hk => rw [pop hp, loop_expand] at hk; cases hk

/-- From 0 to 1 along an edge with cost NaN. -/
def nanEdge : Problem Nat (Dbl ℕ∞) := problem3 1 (fun s => [1 - s]) (fun _ _ => true) (fun _ _ => .nan) (fun _ _ => .num 0) true

theorem nanEdge_run : AstarRun nanEdge [(0, 0)] (.ok ([0, 1], .nan)) := by
  refine .search (by simp) rfl (.step (.expand (top := ⟨0, none, 0, .num 0⟩) (rest := []) (kids := [(1, .nan)]) ⟨List.Perm.refl _, by simp⟩ rfl rfl ?_) (.refl _)) ?_
  · rfl
  · refine .goal (top := ⟨1, some 0, .nan, .nan⟩) (rest := []) ⟨List.Perm.refl _, by simp⟩ rfl rfl ?_
    exact .found (S := Nat) (C := Dbl ℕ∞) (c := .nan) (b := some 0) (r := .ok [0]) rfl (.cons (c := 0) (b := none) rfl .nil)

example : (∃ s c0, [0, 1].head? = some s ∧ (s, c0) ∈ [((0 : Nat), (0 : Dbl ℕ∞))]) ∧
    [0, 1].IsChain (fun a b => ∃ kids w, nanEdge.expand a = .ok kids ∧ (b, w) ∈ kids) ∧
    ∃ g, [0, 1].getLast? = some g ∧ nanEdge.goal g = true :=
  C103_astar_path_is_real nanEdge [(0, 0)] [0, 1] .nan (run_any nanEdge_run) (by simp)

end CRU.NaN
