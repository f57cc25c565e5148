import Verif.Rrt.ThrowProps
/-
  C104: as long as no user-supplied function throws, the planner with throwing functions is the planner of `Rrt.Model`, so
  that C38 holds of its results.
-/
namespace CRU.Rrt.Throw

variable {V S σ ε W α β : Type}

/-- `g` does what the optional callback `f` does whenever `f` returns. -/
def FollowsCb (g : Option (σ → Tree V → Int → Tree V × σ)) (f : Option (σ → Tree V → Int → (Option ε × Tree V) × σ)) : Prop :=
  match f, g with
  | some f, some g => ∀ s t i, (f s t i).1.1 = none → g s t i = ((f s t i).1.2, (f s t i).2)
  | none, none => True
  | _, _ => False

/-- Functions that never throw and do what those of `e` do whenever these return. -/
structure Follows (d : Rrt.Env σ V S) (e : Env σ ε V S) : Prop where
  sample : ∀ s a, (e.sample s).1 = .ok a → d.sample s = (a, (e.sample s).2)
  nearest : ∀ s t x a, (e.nearest s t x).1 = .ok a → d.nearest s t x = (a, (e.nearest s t x).2)
  propagate : ∀ s q x a, (e.propagate s q x).1 = .ok a → d.propagate s q x = (a, (e.propagate s q x).2)
  stateAdded : FollowsCb d.stateAdded e.stateAdded
  goalReached : ∀ s v a, (e.goalReached s v).1 = .ok a → d.goalReached s v = (a, (e.goalReached s v).2)
  goalCallback : FollowsCb d.goalCallback e.goalCallback
  terminate : ∀ s n a, (e.terminate s n).1 = .ok a → d.terminate s n = (a, (e.terminate s n).2)

/-- Variables and environment as in `Rrt.Model`. (simple_rrt_planner.hpp:688-697) -/
def st (w : Vars V) (s : σ) : St σ V := ⟨w.tree, w.goals, w.stats, s⟩

/-- The outcome `o` of the program with throwing functions is matched by the outcome `r` of the one without, unless a
user-supplied function threw. -/
def Matches (o : Option (Except (Thrown ε) Unit × Vars V × σ)) (r : Option (Out (St σ V))) : Prop :=
  match o with
  | none => r = none
  | some (.ok _, w, s) => r = some (st w s, none)
  | some (.error (.lib x), w, s) => r = some (st w s, some x)
  | some (.error (.user _), _, _) => True

variable {d : Rrt.Env σ V S} {e : Env σ ε V S}

theorem getNode_not_ub {t : Tree V} {i : Int} : getNode t i ≠ .ub := by
  unfold getNode atInt atChecked
  split
  · simp
  · split <;> simp

theorem call_cases (f : σ → Except ε α × σ) (w : W) (s : σ) :
    (∃ a, (f s).1 = .ok a ∧ call f w s = some (.ok a, w, (f s).2)) ∨
    (∃ x, (f s).1 = .error x ∧ call f w s = some (.error (.user x), w, (f s).2)) := by
  unfold call
  rcases f s with ⟨a | x, s1⟩
  · exact .inr ⟨_, rfl, rfl⟩
  · exact .inl ⟨_, rfl, rfl⟩

theorem optional_cases {cb : Option (σ → Tree V → Int → (Option ε × Tree V) × σ)} {g : Option (σ → Tree V → Int → Tree V × σ)}
    (h : FollowsCb g cb) (i : Int) (w : Vars V) (s : σ) :
    optional cb i w s = some (.ok (), { w with tree := (callStateAdded g s w.tree i).1 }, (callStateAdded g s w.tree i).2) ∨
    ∃ x w' s', optional cb i w s = some (.error (.user x), w', s') := by
  cases cb <;> cases g <;> simp only [FollowsCb] at h
  · exact .inl rfl
  · rename_i f g
    have := h s w.tree i
    simp only [optional, callRef, callStateAdded]
    rcases hq : f s w.tree i with ⟨⟨r, t⟩, s1⟩
    rw [hq] at this
    cases r with
    | none => rw [this rfl]; exact .inl rfl
    | some x => exact .inr ⟨_, _, _, rfl⟩

theorem initialCheck_sim (hf : Follows d e) (fuel : Nat) : ∀ idx w s,
    Matches (initialCheck e fuel idx w s) (Rrt.initialCheck d fuel idx (st w s)) := by
  induction fuel with
  | zero => intro idx w s; rfl
  | succ fuel ih =>
    intro idx w s
    unfold initialCheck Rrt.initialCheck
    simp only [bind_seq, seq, look]
    by_cases hi : idx < (w.tree.length : Int)
    · rw [if_pos hi, if_pos (show idx < ((st w s).tree.length : Int) from hi)]
      simp only [st]
      cases hn : getNode w.tree idx with
      | ub => exact absurd hn getNode_not_ub
      | throw x => rfl
      | ok n =>
        simp only [seq, lib, ret]
        rcases call_cases (W := Vars V) (fun s => e.goalReached s n.value) w s with ⟨a, h1, h2⟩ | ⟨x, h1, h2⟩
        · rw [h2, hf.goalReached s n.value a h1]
          cases a with
          | false => exact ih _ _ _
          | true =>
            simp only [seq, update, if_true]
            have hcb := hf.goalCallback
            cases hg : e.goalCallback with
            | none =>
              cases hd : d.goalCallback with
              | none => rfl
              | some cb => rw [hg, hd] at hcb; exact hcb.elim
            | some f =>
              cases hd : d.goalCallback with
              | none => rw [hg, hd] at hcb; exact hcb.elim
              | some cb =>
                rw [hg, hd] at hcb
                have := hcb (e.goalReached s n.value).2 w.tree idx
                simp only [untested, callRef]
                rcases hq : f (e.goalReached s n.value).2 w.tree idx with ⟨⟨r, t⟩, s1⟩
                rw [hq] at this
                cases r with
                | some x => trivial
                | none =>
                  simp only [this rfl]
                  exact ih _ _ _
        · rw [h2]; trivial
    · rw [if_neg hi, if_neg (show ¬ idx < ((st w s).tree.length : Int) from hi)]
      rfl

theorem addPropagated_not_ub {t : Tree V} {nearest : Int} {mapping : List Int} {v : V} {rel : Int} :
    (addPropagated t nearest mapping v rel).2 ≠ .ub := by
  have key : ∀ p, (addNodeAndConnect t v p).2 ≠ .ub := by
    intro p
    unfold addNodeAndConnect
    cases hg : getNode (t ++ [⟨v, p, []⟩]) p with
    | ub => exact absurd hg getNode_not_ub
    | ok n => simp only [hg]; simp
    | throw x => simp only [hg]; simp
  unfold addPropagated
  have : (if rel ≥ 0 then atInt mapping rel else Res.ok nearest) ≠ .ub := by
    unfold atInt atChecked
    split
    · split
      · simp
      · split <;> simp
    · simp
  split
  · exact key _
  · simp
  · exact absurd ‹_› this

theorem addAll_sim (hf : Follows d e) (nearest : Int) (ps : Propagation V) : ∀ mapping w s,
    Matches (addAll e nearest ps mapping w s) (some (Rrt.addAll d nearest ps mapping (st w s))) := by
  induction ps with
  | nil => intro mapping w s; rfl
  | cons p ps ih =>
    intro mapping w s
    obtain ⟨v, rel⟩ := p
    unfold addAll Rrt.addAll insert
    simp only [bind_seq, seq, look, update, st]
    rcases hp : addPropagated w.tree nearest mapping v rel with ⟨t1, r⟩
    have hub : r ≠ .ub := by have := addPropagated_not_ub (t := w.tree) (nearest := nearest) (mapping := mapping) (v := v) (rel := rel); rwa [hp] at this
    cases r with
    | ub => exact absurd rfl hub
    | throw x => rfl
    | ok i =>
      simp only [lib, ret]
      rcases optional_cases hf.stateAdded i { w with tree := t1 } s with h1 | ⟨x, w', s', h1⟩
      · rw [h1]
        simp only
        cases hn : getNode (callStateAdded d.stateAdded s t1 i).1 i with
        | ub => exact absurd hn getNode_not_ub
        | throw x => rfl
        | ok n =>
          simp only [lib, ret, seq]
          rcases call_cases (W := Vars V) (fun s => e.goalReached s n.value)
            { w with tree := (callStateAdded d.stateAdded s t1 i).1 } (callStateAdded d.stateAdded s t1 i).2 with ⟨a, h2, h3⟩ | ⟨x, h2, h3⟩
          · rw [h3, hf.goalReached _ n.value a h2]
            cases a with
            | false => exact ih _ _ _
            | true =>
              simp only [seq, update, if_true]
              rcases optional_cases hf.goalCallback i
                { w with tree := (callStateAdded d.stateAdded s t1 i).1, goals := w.goals ++ [i] }
                (e.goalReached (callStateAdded d.stateAdded s t1 i).2 n.value).2 with h4 | ⟨x, w', s', h4⟩
              · rw [h4]
                exact ih _ _ _
              · rw [h4]; trivial
          · rw [h3]; trivial
      · rw [h1]; trivial

theorem planStep_sim (hf : Follows d e) (w : Vars V) (s : σ) :
    Matches (planStep e w s) (some (Rrt.planStep d (st w s))) := by
  unfold planStep Rrt.planStep
  simp only [bind_seq, seq, look, update, st]
  rcases call_cases (W := Vars V) e.sample w s with ⟨x, h1, h2⟩ | ⟨x, h1, h2⟩
  · rw [h2, hf.sample s x h1]
    simp only
    rcases call_cases (W := Vars V) (fun s => e.nearest s w.tree x)
      { w with stats := { w.stats with total := w.stats.total + 1 } } (e.sample s).2 with ⟨nn, h3, h4⟩ | ⟨y, h3, h4⟩
    · rw [h4, hf.nearest _ w.tree x nn h3]
      simp only
      cases hn : getNode w.tree nn with
      | ub => exact absurd hn getNode_not_ub
      | throw x => rfl
      | ok q =>
        simp only [lib, ret]
        rcases call_cases (W := Vars V) (fun s => e.propagate s q.value x)
          { w with stats := { w.stats with total := w.stats.total + 1 } } (e.nearest (e.sample s).2 w.tree x).2 with ⟨ps, h5, h6⟩ | ⟨y, h5, h6⟩
        · rw [h6, hf.propagate _ q.value x ps h5]
          cases ps with
          | nil => rfl
          | cons p rest => exact addAll_sim hf nn (p :: rest) [] _ _
        · rw [h6]; trivial
    · rw [h4]; trivial
  · rw [h2]; trivial

theorem planLoop_sim (hf : Follows d e) (fuel : Nat) : ∀ w s,
    Matches (planLoop e fuel w s) (Rrt.planLoop d fuel (st w s)) := by
  induction fuel with
  | zero => intro w s; rfl
  | succ fuel ih =>
    intro w s
    unfold planLoop Rrt.planLoop
    simp only [bind_seq, seq, look, st]
    rcases call_cases (W := Vars V) (fun s => e.terminate s (w.tree.length : Int)) w s with ⟨b, h1, h2⟩ | ⟨x, h1, h2⟩
    · rw [h2, hf.terminate s _ b h1]
      cases b with
      | true => rfl
      | false =>
        simp only [seq, Bool.false_eq_true, if_false]
        have := planStep_sim hf w (e.terminate s (w.tree.length : Int)).2
        cases hp : planStep e w (e.terminate s (w.tree.length : Int)).2 with
        | none => rw [hp] at this; cases this
        | some r =>
          obtain ⟨o, w1, s1⟩ := r
          rw [hp] at this
          rcases o with (x | x) | u
          · simp only [Matches, Option.some.injEq, st] at this
            rw [this]
            rfl
          · trivial
          · simp only [Matches, Option.some.injEq, st] at this
            rw [this]
            exact ih _ _
    · rw [h2]; trivial

theorem extract_not_ub {t : Tree V} {fuel : Nat} : ∀ {gs : List Int}, extractSolutionPaths fuel t gs ≠ some .ub := by
  have h1 : ∀ (fuel : Nat) (p : Int) (acc : List V), extractLoop t fuel p acc ≠ some .ub := by
    intro fuel
    induction fuel with
    | zero => intro p acc; simp [extractLoop]
    | succ n ih =>
      intro p acc
      unfold extractLoop
      split
      · cases hg : getNode t p with
        | ub => exact absurd hg getNode_not_ub
        | ok n => exact ih _ _
        | throw x => simp
      · simp
  have h2 : ∀ g, extractSolutionPath fuel t g ≠ some .ub := by
    intro g
    unfold extractSolutionPath
    cases hg : getNode t g with
    | ub => exact absurd hg getNode_not_ub
    | throw x => simp
    | ok n =>
      simp only
      split
      · simp
      · exact h1 _ _ _
  intro gs
  induction gs with
  | nil => simp [extractSolutionPaths]
  | cons g gs ih =>
    unfold extractSolutionPaths
    split
    · split
      · simp
      · exact ih
    · simp
    · exact absurd ‹_› (h2 g)
    · simp

/-- C104. Runs in which no function given to the planner throws are exactly the runs of the planner of C38: for functions `d`
that never throw and do what those of `e` do whenever these return, results, the planner's own exceptions, final tree and
environment are the same. -/
theorem C104_normal (hf : Follows d e) (fuel : Nat) (t : Tree V) (s : σ) :
    (∀ t' s' r, rrtPlanMultiPath e fuel t s = some (.ok r, t', s') →
      Rrt.rrtPlanMultiPath d fuel t s = some ((t', s'), .ok r)) ∧
    (∀ t' s' x, rrtPlanMultiPath e fuel t s = some (.error (.lib x), t', s') →
      Rrt.rrtPlanMultiPath d fuel t s = some ((t', s'), .throw x)) ∧
    (rrtPlanMultiPath e fuel t s = none → Rrt.rrtPlanMultiPath d fuel t s = none) := by
  suffices h : match rrtPlanMultiPath e fuel t s with
      | none => Rrt.rrtPlanMultiPath d fuel t s = none
      | some (.ok r, t', s') => Rrt.rrtPlanMultiPath d fuel t s = some ((t', s'), .ok r)
      | some (.error (.lib x), t', s') => Rrt.rrtPlanMultiPath d fuel t s = some ((t', s'), .throw x)
      | some (.error (.user _), _, _) => True by
    refine ⟨fun t' s' r h1 => ?_, fun t' s' x h1 => ?_, fun h1 => ?_⟩ <;> rw [h1] at h <;> exact h
  unfold rrtPlanMultiPath planBody Rrt.rrtPlanMultiPath rrtRun
  simp only [bind_seq, seq, look]
  by_cases he : t.isEmpty = true
  · rw [if_pos he, if_pos he]; rfl
  · rw [if_neg he, if_neg he]
    simp only [seq]
    have h1 := initialCheck_sim hf fuel 0 { tree := t } s
    change Matches _ (Rrt.initialCheck d fuel 0 { tree := t, env := s }) at h1
    rcases h2 : initialCheck e fuel 0 { tree := t } s with _ | ⟨(x | x) | u, w1, s1⟩ <;> rw [h2] at h1 <;> simp only [Matches] at h1
    · rw [h1]; rfl
    · rw [h1]; rfl
    · trivial
    · rw [h1]
      simp only
      have h3 := planLoop_sim hf fuel w1 s1
      rcases h4 : planLoop e fuel w1 s1 with _ | ⟨(x | x) | u, w2, s2⟩ <;> rw [h4] at h3 <;> simp only [Matches] at h3
      · rw [h3]; rfl
      · rw [h3]; rfl
      · trivial
      · rw [h3]
        simp only [extract, bind_seq, seq, look, st]
        rcases h5 : extractSolutionPaths fuel w2.tree w2.goals with _ | (ps | x | _)
        · rfl
        · rfl
        · rfl
        · exact absurd h5 extract_not_ub

/-- The functions of `fullEnv` without the exception. -/
def roomyEnv : Rrt.Env (Option Nat) Nat Nat where
  sample s := (5, s)
  nearest s t _ := (t.length - 1, s)
  propagate s q _ := ([(q + 1, -1)], s)
  stateAdded := some fun s t _ => (t, s)
  goalReached s v := (v == 2, s)
  goalCallback := none
  terminate s _ := (false, s)

example : Follows roomyEnv fullEnv := by
  refine ⟨?_, ?_, ?_, ?_, ?_, trivial, ?_⟩
  · intro s a h; cases h; rfl
  · intro s t x a h; cases h; rfl
  · intro s t x a h; cases h; rfl
  · intro s t i h
    by_cases hl : t.length ≥ 4
    · simp [hl] at h
    · simp [hl]
  · intro s v a h; cases h; rfl
  · intro s n a h; cases h; rfl

end CRU.Rrt.Throw
