import Verif.Astar.Lemmas2
/-
  C19, C20, C21: A* search. The edges of the main overload are what the child function returns (`ChildEdge`); those of
  the second overload are generated children that pass the validity check, weighted by the distance function
  (`ValidEdge`).
-/
namespace CRU.Astar
set_option linter.unusedSectionVars false

variable {S C : Type} [DecidableEq S] [LinearOrder C] [Add C] [Zero C] [OrderTop C] [CostLaws C]

/-- Edge of the main overload: the child function returned `(t, w)` for `s`. -/
def ChildEdge (expand : S → Res (List (S × C))) (s t : S) (w : C) : Prop := ∃ kids, expand s = .ok kids ∧ (t, w) ∈ kids

/-- Edge of the second and third overloads. -/
def ValidEdge (gen : S → List S) (valid : S → S → Bool) (dist : S → S → C) (s t : S) (w : C) : Prop :=
  t ∈ gen s ∧ valid s t = true ∧ w = dist s t

/-- Costs carried by `StateWithCost` are non-negative: its constructor (193-200) throws otherwise. -/
def NonnegChildren (expand : S → Res (List (S × C))) : Prop := ∀ s t w, ChildEdge expand s t w → 0 ≤ w

/-- No start meets the goal, or a cheapest start does. -/
def StartProviso (goal : S → Bool) (starts : List (S × C)) : Prop :=
  (∀ x ∈ starts, goal x.1 = false) ∨ ∃ x ∈ starts, goal x.1 = true ∧ ∀ y ∈ starts, x.2 ≤ y.2

/-! ### Children of the second overload -/

theorem validChildren_ok {valid : S → S → Bool} {dist : S → S → C} {s : S} {l : List S} {kids : List (S × C)}
    (h : validChildren valid dist s l = .ok kids) (x : S × C) :
    (x ∈ kids ↔ x.1 ∈ l ∧ valid s x.1 = true ∧ x.2 = dist s x.1) ∧ (x ∈ kids → 0 ≤ x.2) := by
  induction l generalizing kids with
  | nil => cases h; simp
  | cons t ts ih =>
    unfold validChildren at h
    split at h
    · rename_i hv
      rw [Res.bind_eq_ok] at h
      obtain ⟨y, hy, h⟩ := h
      rw [Res.bind_eq_ok] at h
      obtain ⟨ys, hys, h⟩ := h
      cases h
      unfold mkStateWithCost at hy
      split at hy
      · cases hy
      · rename_i hn
        cases hy
        obtain ⟨i1, i2⟩ := ih hys
        constructor
        · rw [List.mem_cons, List.mem_cons, i1]
          constructor
          · rintro (rfl | ⟨a, b⟩)
            · exact ⟨.inl rfl, hv, rfl⟩
            · exact ⟨.inr a, b⟩
          · rintro ⟨rfl | a, b, c⟩
            · left; exact Prod.ext rfl c
            · exact .inr ⟨a, b, c⟩
        · intro hx
          rcases List.mem_cons.mp hx with rfl | hx
          · exact not_lt.mp hn
          · exact i2 hx
    · rename_i hv
      obtain ⟨i1, i2⟩ := ih h
      refine ⟨?_, i2⟩
      rw [i1, List.mem_cons]
      constructor
      · rintro ⟨a, b⟩; exact ⟨.inr a, b⟩
      · rintro ⟨rfl | a, b, c⟩
        · exact absurd b hv
        · exact ⟨a, b, c⟩

theorem validChildren_exists {valid : S → S → Bool} {dist : S → S → C} {s : S} {l : List S}
    (h : ∀ t ∈ l, valid s t = true → 0 ≤ dist s t) : ∃ kids, validChildren valid dist s l = .ok kids := by
  induction l with
  | nil => exact ⟨[], rfl⟩
  | cons t ts ih =>
    obtain ⟨ks, hk⟩ := ih (fun x hx => h x (by simp [hx]))
    unfold validChildren
    split
    · rename_i hv
      refine ⟨(t, dist s t) :: ks, ?_⟩
      unfold mkStateWithCost
      rw [if_neg (not_lt.mpr (h t (by simp) hv)), hk]
      rfl
    · exact ⟨ks, hk⟩

theorem validChildren_throw {valid : S → S → Bool} {dist : S → S → C} {s : S} {l : List S} :
    validChildren valid dist s l ≠ .ub ∧ ∀ e, validChildren valid dist s l = .throw e → e = .invalidArgument := by
  induction l with
  | nil => exact ⟨(by intro h; cases h), by intro e h; cases h⟩
  | cons t ts ih =>
    unfold validChildren
    split
    · unfold mkStateWithCost
      split
      · exact ⟨(by intro h; cases h), by intro e h; cases h; rfl⟩
      · cases hk : validChildren valid dist s ts with
        | ok ks => exact ⟨(by intro h; cases h), by intro e h; cases h⟩
        | throw e' =>
          refine ⟨(by intro h; cases h), ?_⟩
          intro e h
          have : (Res.throw e' : Res (List (S × C))) = .throw e := h
          cases this
          exact ih.2 _ hk
        | ub => exact absurd hk ih.1
    · exact ih

theorem pedge2_valid {goal : S → Bool} {gen : S → List S} {valid : S → S → Bool} {dist : S → S → C} {h : S → C}
    {limit : Bool} {s t : S} {w : C} (he : PEdge (problem2 goal gen valid dist h limit) s t w) :
    ValidEdge gen valid dist s t w ∧ 0 ≤ w := by
  obtain ⟨kids, hk, hm⟩ := he
  exact ⟨(validChildren_ok hk (t, w)).1.mp hm, (validChildren_ok hk (t, w)).2 hm⟩

theorem valid_pedge2 {goal : S → Bool} {gen : S → List S} {valid : S → S → Bool} {dist : S → S → C} {h : S → C}
    {limit : Bool} (hnn : ∀ s t w, ValidEdge gen valid dist s t w → 0 ≤ w) {s t : S} {w : C}
    (he : ValidEdge gen valid dist s t w) : PEdge (problem2 goal gen valid dist h limit) s t w := by
  obtain ⟨kids, hk⟩ := validChildren_exists (valid := valid) (dist := dist) (s := s) (l := gen s)
    (fun t ht hv => hnn s t _ ⟨ht, hv, rfl⟩)
  exact ⟨kids, hk, (validChildren_ok hk (t, w)).1.mpr he⟩

theorem Walk.mono {starts : List (S × C)} {e1 e2 : S → S → C → Prop} (h : ∀ s t w, e1 s t w → e2 s t w) {l : List S} {c : C}
    (hw : Walk starts e1 l c) : Walk starts e2 l c := by
  induction hw with
  | start h => exact .start h
  | step _ he ih => exact .step ih (h _ _ _ he)

theorem mkResult_ok {path p : List S} {c k : C} (h : mkResult path c = .ok (p, k)) (hp : path ≠ []) :
    p = path ∧ k = c ∧ c ≠ ⊤ := by
  unfold mkResult at h
  split at h
  · cases h
  · rename_i hn
    cases h
    exact ⟨rfl, rfl, fun hc => hn ⟨hp, hc⟩⟩

theorem mkResult_throw {path : List S} {c : C} {e : Exc} (h : mkResult path c = .throw e) :
    e = .invalidArgument ∧ c = ⊤ := by
  unfold mkResult at h
  split at h
  · rename_i hc; cases h; exact ⟨rfl, hc.2⟩
  · cases h

theorem mkResult_ub {path : List S} {c : C} : mkResult path c ≠ .ub := by
  unfold mkResult
  split <;> intro h <;> cases h

/-! ### C19 -/

/-- A successful run of the main overload. -/
theorem run_ok {P : Problem S C} (hnn : NonnegChildren P.expand) {starts : List (S × C)} {path : List S} {cost : C}
    (h : AstarRun P starts (.ok (path, cost))) (hne : path ≠ []) :
    (∃ c, Walk starts (ChildEdge P.expand) path c ∧ c ≤ cost) ∧ EndsInGoal P.goal path ∧ cost ≠ ⊤ := by
  generalize hr : Res.ok (path, cost) = r at h
  cases h with
  | noStarts h => cases hr
  | early hs h =>
    obtain ⟨rfl, rfl, hc⟩ := mkResult_ok hr.symm (by simp)
    obtain ⟨m1, m2, _⟩ := bestStart_some h
    exact ⟨⟨_, .start m1, le_refl _⟩, ⟨_, rfl, m2⟩, hc⟩
  | search hs h hrun he =>
    have hI := (init_inv P starts).1.steps hnn hrun
    cases he with
    | empty h => cases hr; exact absurd rfl hne
    | goal hp hb hg hx =>
      obtain ⟨l, ⟨c', hw, hle⟩, _, huniq⟩ := extract_spec hnn hI hp hb
      rw [← hr] at hx
      obtain ⟨rfl, rfl, hc⟩ := mkResult_ok (huniq _ hx).symm (by simp)
      exact ⟨⟨c', hw.walk, hle⟩, ⟨_, by simp, hg⟩, hc⟩
    | throws => cases hr
    | ub => cases hr

/-- C19, main overload: a returned non-empty path starts in a start, ends in a goal, uses only edges the child function
returned, and its accumulated cost is at most the reported (finite) cost — for every heuristic and every tie-breaking. -/
theorem C19_path_is_real {P : Problem S C} (hnn : NonnegChildren P.expand) {starts : List (S × C)} {path : List S}
    {cost : C} (h : AstarRun P starts (.ok (path, cost))) (hne : path ≠ []) :
    (∃ c, Walk starts (ChildEdge P.expand) path c ∧ c ≤ cost) ∧ EndsInGoal P.goal path ∧ cost ≠ ⊤ := run_ok hnn h hne

/-- C19, second overload: only generated children that passed the validity check, with the distance function's weights.
No assumption on the distance function: a negative distance makes the call throw. -/
theorem C19_path_is_valid (goal : S → Bool) (gen : S → List S) (valid : S → S → Bool) (dist : S → S → C) (h : S → C)
    (limit : Bool) {starts : List (S × C)} {path : List S} {cost : C}
    (hr : AstarRun (problem2 goal gen valid dist h limit) starts (.ok (path, cost))) (hne : path ≠ []) :
    (∃ c, Walk starts (ValidEdge gen valid dist) path c ∧ c ≤ cost) ∧ EndsInGoal goal path ∧ cost ≠ ⊤ := by
  obtain ⟨⟨c, hw, hc⟩, hg, ht⟩ := run_ok (fun s t w he => (pedge2_valid he).2) hr hne
  exact ⟨⟨c, hw.mono (fun s t w he => (pedge2_valid he).1), hc⟩, hg, ht⟩

/-- C19, third overload: from the single start to the single goal. -/
theorem C19_single_start_goal (start goal : S) (gen : S → List S) (valid : S → S → Bool) (dist : S → S → C) (h : S → S → C)
    (limit : Bool) {path : List S} {cost : C}
    (hr : AstarRun (problem3 goal gen valid dist h limit) [(start, 0)] (.ok (path, cost))) (hne : path ≠ []) :
    (∃ c, Walk [(start, 0)] (ValidEdge gen valid dist) path c ∧ c ≤ cost) ∧ path.getLast? = some goal := by
  obtain ⟨hw, ⟨g, hg, hgg⟩, _⟩ := C19_path_is_valid _ _ _ _ _ _ hr hne
  refine ⟨hw, ?_⟩
  rw [hg, of_decide_eq_true hgg]

/-- The outcomes of any run: the search itself never hits undefined behaviour and never throws anything but
`invalid_argument`; whatever else comes out was thrown by the child function. -/
theorem C19_failures {P : Problem S C} (hnn : NonnegChildren P.expand) {starts : List (S × C)} {r : Res (List S × C)}
    (h : AstarRun P starts r) :
    (r = .ub → ∃ s, P.expand s = .ub) ∧
    (∀ e, r = .throw e → e = .invalidArgument ∨ ∃ s, P.expand s = .throw e) := by
  cases h with
  | noStarts h => exact ⟨(by intro h; cases h), by intro e h; cases h; exact .inl rfl⟩
  | early hs h => exact ⟨fun h => absurd h mkResult_ub, fun e h => .inl (mkResult_throw h).1⟩
  | search hs h hrun he =>
    have hI := (init_inv P starts).1.steps hnn hrun
    cases he with
    | empty h => exact ⟨(by intro h; cases h), by intro e h; cases h⟩
    | goal hp hb hg hx =>
      obtain ⟨l, _, _, huniq⟩ := extract_spec hnn hI hp hb
      rw [huniq _ hx]
      exact ⟨fun h => absurd h mkResult_ub, fun e h => .inl (mkResult_throw h).1⟩
    | throws _ _ _ hk => exact ⟨(by intro h; cases h), by intro e h; cases h; exact .inr ⟨_, hk⟩⟩
    | ub _ _ _ hk => exact ⟨fun _ => ⟨_, hk⟩, by intro e h; cases h⟩

/-- The search throws only if there are no starts, if there is a path from a start to a goal whose cost is infinite, or if the child function
threw. -/
theorem C19_refusals {P : Problem S C} (hnn : NonnegChildren P.expand) {starts : List (S × C)} {e : Exc}
    (h : AstarRun P starts (.throw e)) :
    (e = .invalidArgument ∧ starts = []) ∨
    (e = .invalidArgument ∧ ∃ path, Walk starts (ChildEdge P.expand) path ⊤ ∧ EndsInGoal P.goal path) ∨ ∃ s, P.expand s = .throw e := by
  generalize hr : Res.throw e = r at h
  cases h with
  | noStarts h => cases hr; exact .inl ⟨rfl, h⟩
  | @early s hs h =>
    obtain ⟨he, hc⟩ := mkResult_throw hr.symm
    obtain ⟨m1, m2, _⟩ := bestStart_some h
    exact .inr (.inl ⟨he, [s.1], hc ▸ Walk.start m1, _, rfl, m2⟩)
  | search hs h hrun he =>
    have hI := (init_inv P starts).1.steps hnn hrun
    cases he with
    | empty h => cases hr
    | @goal top rest _ hp hb hg hx =>
      obtain ⟨l, _, _, huniq⟩ := extract_spec hnn hI hp hb
      rw [← hr] at hx
      obtain ⟨he, hc⟩ := mkResult_throw (huniq _ hx).symm
      refine .inr (.inl ⟨he, ?_⟩)
      rcases hI.q.elems top hp.mem_top with ⟨-, h1, -⟩ | ⟨p, l, cold, w, -, h1, -, -, h2, h3, -⟩
      · exact ⟨[top.state], hc ▸ Walk.start h1, _, rfl, hg⟩
      · have h4 := (RWalk.step h1 h2).walk
        rw [← h3, hc] at h4
        exact ⟨_, h4, _, by simp, hg⟩
    | throws _ _ _ hk => cases hr; exact .inr (.inr ⟨_, hk⟩)
    | ub => cases hr

/-- Second overload: every failure is `invalid_argument`. -/
theorem C19_failures_valid (goal : S → Bool) (gen : S → List S) (valid : S → S → Bool) (dist : S → S → C) (h : S → C)
    (limit : Bool) {starts : List (S × C)} {r : Res (List S × C)}
    (hr : AstarRun (problem2 goal gen valid dist h limit) starts r) :
    (∃ p, r = .ok p) ∨ r = .throw .invalidArgument := by
  obtain ⟨h1, h2⟩ := C19_failures (fun s t w he => (pedge2_valid he).2) hr
  cases r with
  | ok p => exact .inl ⟨p, rfl⟩
  | throw e =>
    right
    rcases h2 e rfl with rfl | ⟨s, hs⟩
    · rfl
    · rw [validChildren_throw.2 e hs]
  | ub =>
    obtain ⟨s, hs⟩ := h1 rfl
    exact absurd hs validChildren_throw.1

/-! ### C20 -/

theorem le_value {P : Problem S C} (hh : ∀ s, 0 ≤ P.h s) {starts : List (S × C)} (hst : ∀ x ∈ starts, (0 : C) ≤ x.2)
    {ex : S → Option (C × Option S)} {e : Elem S C} (h : ElemInv P starts ex e) : e.value ≤ e.cost + P.h e.state := by
  rcases h with ⟨_, h2, h3⟩ | ⟨p, l, cold, w, _, _, _, _, _, _, h7⟩
  · rw [h3]
    calc P.h e.state = 0 + P.h e.state := (CostLaws.zero_add _).symm
      _ ≤ e.cost + P.h e.state := CostLaws.add_le_add_right _ _ _ (hst _ h2)
  · rw [h7]

theorem elem_cost_nonneg {P : Problem S C} (hnn : NonnegChildren P.expand) {starts : List (S × C)}
    (hst : ∀ x ∈ starts, (0 : C) ≤ x.2) {ex : S → Option (C × Option S)} {e : Elem S C} (h : ElemInv P starts ex e) :
    0 ≤ e.cost := by
  rcases h with ⟨_, h2, _⟩ | ⟨p, l, cold, w, _, h2, _, _, h5, h6, _⟩
  · exact hst _ h2
  · rw [h6]; exact le_trans (rwalk_nonneg hst hnn h2) (CostLaws.le_add _ _ (hnn _ _ _ h5))

theorem run_optimal_of {P : Problem S C} (hnn : NonnegChildren P.expand) {starts : List (S × C)}
    (hst : ∀ x ∈ starts, (0 : C) ≤ x.2) (hadm : Admissible (ChildEdge P.expand) P.goal P.h)
    (hprov : ∀ s ∈ starts, P.goal s.1 = true → s.2 < ⊤ → (∀ x ∈ starts, P.goal x.1 = true → s.2 ≤ x.2) → ∀ x ∈ starts, s.2 ≤ x.2)
    {path : List S} {cost : C} (h : AstarRun P starts (.ok (path, cost)))
    (hne : path ≠ []) : ∀ p c, Walk starts (ChildEdge P.expand) p c → EndsInGoal P.goal p → cost ≤ c := by
  intro p c hw hg
  obtain ⟨g, hlast, hgg⟩ := hg
  have hrw := hw.rwalk
  obtain ⟨l, rfl⟩ : ∃ l, p = l ++ [g] := by
    refine ⟨p.dropLast, ?_⟩
    have hpne : p ≠ [] := by rintro rfl; simp at hlast
    rw [List.getLast?_eq_some_getLast hpne] at hlast
    cases hlast
    exact (List.dropLast_append_getLast hpne).symm
  rw [List.reverse_append] at hrw
  generalize hr : Res.ok (path, cost) = r at h
  cases h with
  | noStarts h => cases hr
  | early hs h =>
    obtain ⟨_, rfl, _⟩ := mkResult_ok hr.symm (by simp)
    obtain ⟨m1, m2, m3, m4⟩ := bestStart_some h
    obtain ⟨x, hx, hle⟩ := rwalk_ge_start hnn hrw
    exact le_trans (hprov _ m1 m2 m3 m4 x hx) hle
  | search hs h hrun he =>
    have hI := (init_inv P starts).1.steps hnn hrun
    cases he with
    | empty h => cases hr; exact absurd rfl hne
    | @goal top rest r hp hb hg' hx =>
      obtain ⟨l', _, _, huniq⟩ := extract_spec hnn hI hp hb
      rw [← hr] at hx
      obtain ⟨_, rfl, hc⟩ := mkResult_ok (huniq _ hx).symm (by simp)
      have htop := hI.q.elems top hp.mem_top
      have hle1 : top.cost ≤ top.value := by
        rcases htop with ⟨_, h2, _⟩ | ⟨_, _, _, _, _, _, _, _, _, _, h7⟩
        · exact absurd (bestStart_none h _ h2 hg') hc
        · rw [h7]; exact CostLaws.le_add _ _ (hadm _).1
      rcases frontier hI hrw with ⟨cq, bq, hq, _⟩ | ⟨e, he, l2, c2, hw2, hle2⟩
      · have := hI.nongoal g (by rw [hq]; simp)
        rw [hgg] at this; cases this
      · have hval : top.value ≤ e.value := by
          rcases hp.mem_cases he with rfl | he
          · exact le_refl _
          · exact hp.2 e he
        have hei := hI.q.elems e he
        have hadm' := (hadm e.state).2 e.cost _ c2 (elem_cost_nonneg hnn hst hei) hw2.walk ⟨g, by simp, hgg⟩
        exact le_trans hle1 (le_trans hval (le_trans (le_value (fun s => (hadm s).1) hst hei) (le_trans hadm' hle2)))
    | throws => cases hr
    | ub => cases hr

theorem run_optimal {P : Problem S C} (hnn : NonnegChildren P.expand) {starts : List (S × C)}
    (hst : ∀ x ∈ starts, (0 : C) ≤ x.2) (hadm : Admissible (ChildEdge P.expand) P.goal P.h)
    (hprov : StartProviso P.goal starts) {path : List S} {cost : C} (h : AstarRun P starts (.ok (path, cost)))
    (hne : path ≠ []) : ∀ p c, Walk starts (ChildEdge P.expand) p c → EndsInGoal P.goal p → cost ≤ c := by
  refine run_optimal_of hnn hst hadm (fun s h1 h2 _ h4 x hx => ?_) h hne
  rcases hprov with hp | ⟨y, hy, hyg, hmin⟩
  · have := hp _ h1; rw [h2] at this; cases this
  · exact le_trans (h4 y hy hyg) (hmin x hx)

/-- C20 (partial: `StartProviso`), main overload: the returned path is a cheapest one and its accumulated cost is exactly
the reported cost. Missing from the English property: runs in which a start already meets the goal but another start is
cheaper, where it is false (`C20_optimal_false`). -/
theorem C20_optimal_partial {P : Problem S C} (hnn : NonnegChildren P.expand) {starts : List (S × C)}
    (hst : ∀ x ∈ starts, (0 : C) ≤ x.2) (hadm : Admissible (ChildEdge P.expand) P.goal P.h)
    (hprov : StartProviso P.goal starts) {path : List S} {cost : C} (h : AstarRun P starts (.ok (path, cost)))
    (hne : path ≠ []) :
    Walk starts (ChildEdge P.expand) path cost ∧
      ∀ p c, Walk starts (ChildEdge P.expand) p c → EndsInGoal P.goal p → cost ≤ c := by
  have hopt := run_optimal hnn hst hadm hprov h hne
  obtain ⟨⟨c, hw, hc⟩, hg, _⟩ := run_ok hnn h hne
  have : c = cost := le_antisymm hc (hopt _ _ hw hg)
  exact ⟨this ▸ hw, hopt⟩

/-- C20 (partial: `StartProviso`), second overload, in terms of generated, valid, weighted edges. -/
theorem C20_optimal_valid_partial (goal : S → Bool) (gen : S → List S) (valid : S → S → Bool) (dist : S → S → C) (h : S → C)
    (limit : Bool) {starts : List (S × C)} (hst : ∀ x ∈ starts, (0 : C) ≤ x.2)
    (hnn : ∀ s t, t ∈ gen s → valid s t = true → 0 ≤ dist s t)
    (hadm : Admissible (ValidEdge gen valid dist) goal h) (hprov : StartProviso goal starts) {path : List S} {cost : C}
    (hr : AstarRun (problem2 goal gen valid dist h limit) starts (.ok (path, cost))) (hne : path ≠ []) :
    Walk starts (ValidEdge gen valid dist) path cost ∧
      ∀ p c, Walk starts (ValidEdge gen valid dist) p c → EndsInGoal goal p → cost ≤ c := by
  have hv : ∀ s t w, ValidEdge gen valid dist s t w → 0 ≤ w := by
    rintro s t w ⟨a, b, rfl⟩; exact hnn s t a b
  obtain ⟨h1, h2⟩ := C20_optimal_partial (P := problem2 goal gen valid dist h limit)
    (fun s t w he => (pedge2_valid he).2) hst
    (fun s => ⟨(hadm s).1, fun x p c hx hw hg => (hadm s).2 x p c hx (hw.mono (fun s t w he => (pedge2_valid he).1)) hg⟩)
    hprov hr hne
  exact ⟨h1.mono (fun s t w he => (pedge2_valid he).1),
    fun p c hw hg => h2 p c (hw.mono (fun s t w he => valid_pedge2 hv he)) hg⟩

/-- C20, what the search does when `StartProviso` fails: as soon as some start of finite cost meets the goal, the answer
is a one-state path, a cheapest of the starts that meet the goal; nothing is expanded and no cheaper path through
another start is considered. -/
theorem C20_goal_start {P : Problem S C} {starts : List (S × C)} (hgs : ∃ x ∈ starts, P.goal x.1 = true ∧ x.2 < ⊤)
    {r : Res (List S × C)} (h : AstarRun P starts r) :
    ∃ s ∈ starts, P.goal s.1 = true ∧ (∀ x ∈ starts, P.goal x.1 = true → s.2 ≤ x.2) ∧ r = .ok ([s.1], s.2) := by
  obtain ⟨x, hx, hg, hlt⟩ := hgs
  cases h with
  | noStarts h => subst h; simp at hx
  | @early s hs h =>
    obtain ⟨m1, m2, m3, m4⟩ := bestStart_some h
    exact ⟨s, m1, m2, m4, by simp [mkResult, m3.ne]⟩
  | search hs h => exact absurd (bestStart_none h x hx hg) hlt.ne

/-- C20, the other case: when no start of finite cost meets the goal, every path found is a cheapest one and its
accumulated cost is the reported one. With `C20_goal_start` this covers every list of starts. -/
theorem C20_no_goal_start {P : Problem S C} (hnn : NonnegChildren P.expand) {starts : List (S × C)}
    (hst : ∀ x ∈ starts, (0 : C) ≤ x.2) (hadm : Admissible (ChildEdge P.expand) P.goal P.h)
    (hgs : ∀ x ∈ starts, P.goal x.1 = true → x.2 = ⊤) {path : List S} {cost : C}
    (h : AstarRun P starts (.ok (path, cost))) (hne : path ≠ []) :
    Walk starts (ChildEdge P.expand) path cost ∧
      ∀ p c, Walk starts (ChildEdge P.expand) p c → EndsInGoal P.goal p → cost ≤ c := by
  have hopt := run_optimal_of hnn hst hadm (fun s h1 h2 h3 _ => absurd (hgs s h1 h2) h3.ne) h hne
  obtain ⟨⟨c, hw, hc⟩, hg, _⟩ := run_ok hnn h hne
  have : c = cost := le_antisymm hc (hopt _ _ hw hg)
  exact ⟨this ▸ hw, hopt⟩

/-- C20, exactly when the search is optimal: a path found is a cheapest one if and only if either no start of finite cost
meets the goal, or no path to the goal undercuts the cheapest start that does. -/
theorem C20_optimal_iff {P : Problem S C} (hnn : NonnegChildren P.expand) {starts : List (S × C)}
    (hst : ∀ x ∈ starts, (0 : C) ≤ x.2) (hadm : Admissible (ChildEdge P.expand) P.goal P.h) {path : List S} {cost : C}
    (h : AstarRun P starts (.ok (path, cost))) (hne : path ≠ []) :
    (∀ p c, Walk starts (ChildEdge P.expand) p c → EndsInGoal P.goal p → cost ≤ c) ↔
      ((∀ x ∈ starts, P.goal x.1 = true → x.2 = ⊤) ∨
        ∃ s ∈ starts, P.goal s.1 = true ∧ s.2 < ⊤ ∧
          ∀ p c, Walk starts (ChildEdge P.expand) p c → EndsInGoal P.goal p → s.2 ≤ c) := by
  constructor
  · intro hopt
    by_cases hgs : ∃ x ∈ starts, P.goal x.1 = true ∧ x.2 < ⊤
    · right
      obtain ⟨s, h1, h2, h3, h4⟩ := C20_goal_start hgs h
      obtain ⟨x, hx, hxg, hlt⟩ := hgs
      cases h4
      exact ⟨s, h1, h2, lt_of_le_of_lt (h3 x hx hxg) hlt, hopt⟩
    · left
      intro x hx hg
      by_contra hc
      exact hgs ⟨x, hx, hg, lt_of_le_of_ne le_top hc⟩
  · rintro (hgs | ⟨s, h1, h2, h3, h4⟩)
    · exact (C20_no_goal_start hnn hst hadm hgs h hne).2
    · obtain ⟨s', h1', h2', h3', h4'⟩ := C20_goal_start ⟨s, h1, h2, h3⟩ h
      cases h4'
      exact fun p c hw hg => le_trans (h3' s h1 h2) (h4 p c hw hg)

/-- C20, third overload: a single start with cost 0 always meets the proviso, so optimality is unconditional. -/
theorem C20_single_start_goal (start goal : S) (gen : S → List S) (valid : S → S → Bool) (dist : S → S → C) (h : S → S → C)
    (limit : Bool) (hnn : ∀ s t, t ∈ gen s → valid s t = true → 0 ≤ dist s t)
    (hadm : Admissible (ValidEdge gen valid dist) (fun s => decide (s = goal)) (fun s => h s goal)) {path : List S} {cost : C}
    (hr : AstarRun (problem3 goal gen valid dist h limit) [(start, 0)] (.ok (path, cost))) (hne : path ≠ []) :
    Walk [(start, 0)] (ValidEdge gen valid dist) path cost ∧
      ∀ p c, Walk [(start, 0)] (ValidEdge gen valid dist) p c → p.getLast? = some goal → cost ≤ c := by
  have hprov : StartProviso (fun s => decide (s = goal)) [(start, (0 : C))] := by
    by_cases hs : start = goal
    · exact .inr ⟨(start, 0), by simp, by simp [hs], by simp⟩
    · exact .inl (by simp [hs])
  obtain ⟨h1, h2⟩ := C20_optimal_valid_partial _ _ _ _ _ _ (by simp) hnn hadm hprov hr hne
  exact ⟨h1, fun p c hw hg => h2 p c hw ⟨goal, hg, by simp⟩⟩

/-! ### C21 -/

theorem run_empty {P : Problem S C} (hnn : NonnegChildren P.expand) {starts : List (S × C)} {cost : C}
    (h : AstarRun P starts (.ok ([], cost))) :
    cost = ⊤ ∧ ∀ p c, Walk starts (ChildEdge P.expand) p c → ¬ EndsInGoal P.goal p := by
  generalize hr : Res.ok ([], cost) = r at h
  cases h with
  | noStarts h => cases hr
  | early hs h => have := mkResult_ok hr.symm (by simp); simp at this
  | search hs h hrun he =>
    have hI := (init_inv P starts).1.steps hnn hrun
    cases he with
    | empty hq =>
      cases hr
      refine ⟨rfl, ?_⟩
      rintro p c hw ⟨g, hlast, hgg⟩
      have hrw := hw.rwalk
      have hpne : p ≠ [] := by rintro rfl; simp at hlast
      rw [List.getLast?_eq_some_getLast hpne] at hlast
      cases hlast
      rw [← List.dropLast_append_getLast hpne, List.reverse_append] at hrw
      rcases frontier hI hrw with ⟨cq, bq, hx, _⟩ | ⟨e, he, _⟩
      · have := hI.nongoal _ (by rw [hx]; simp)
        rw [hgg] at this; cases this
      · rw [hq] at he; simp at he
    | goal hp hb hg hx =>
      obtain ⟨l', _, _, huniq⟩ := extract_spec hnn hI hp hb
      rw [← hr] at hx
      have := mkResult_ok (huniq _ hx).symm (by simp)
      simp at this
    | throws => cases hr
    | ub => cases hr

/-- C21, completeness, main overload: an empty path comes with infinite cost and only if no goal is reachable. (No
finiteness needed.) -/
theorem C21_empty_means_unreachable {P : Problem S C} (hnn : NonnegChildren P.expand) {starts : List (S × C)} {cost : C}
    (h : AstarRun P starts (.ok ([], cost))) :
    cost = ⊤ ∧ ∀ p c, Walk starts (ChildEdge P.expand) p c → ¬ EndsInGoal P.goal p := run_empty hnn h

/-- C21, completeness, second overload. -/
theorem C21_empty_means_unreachable_valid (goal : S → Bool) (gen : S → List S) (valid : S → S → Bool) (dist : S → S → C)
    (h : S → C) (limit : Bool) {starts : List (S × C)} {cost : C}
    (hnn : ∀ s t, t ∈ gen s → valid s t = true → 0 ≤ dist s t)
    (hr : AstarRun (problem2 goal gen valid dist h limit) starts (.ok ([], cost))) :
    cost = ⊤ ∧ ∀ p c, Walk starts (ValidEdge gen valid dist) p c → ¬ EndsInGoal goal p := by
  have hv : ∀ s t w, ValidEdge gen valid dist s t w → 0 ≤ w := by
    rintro s t w ⟨a, b, rfl⟩; exact hnn s t a b
  obtain ⟨h1, h2⟩ := run_empty (fun s t w he => (pedge2_valid he).2) hr
  exact ⟨h1, fun p c hw hg => h2 p c (hw.mono (fun s t w he => valid_pedge2 hv he)) hg⟩

/-- `F` contains the starts and is closed under the child function: the reachable states are finitely many. -/
def FiniteReach (expand : S → Res (List (S × C))) (starts : List (S × C)) (F : List S) : Prop :=
  (∀ x ∈ starts, x.1 ∈ F) ∧ ∀ s ∈ F, ∀ t w, ChildEdge expand s t w → t ∈ F

/-- C21, termination: on finitely many reachable states the search loop cannot run forever, whatever the tie-breaking. -/
theorem C21_no_infinite_run {P : Problem S C} (hnn : NonnegChildren P.expand) {starts : List (S × C)} {F : List S}
    (hF : FiniteReach P.expand starts F) :
    ¬ ∃ f : Nat → St S C, f 0 = init P starts ∧ ∀ n, Step P (f n) (f (n + 1)) := by
  rintro ⟨f, h0, hs⟩
  have hacc := steps_acc hnn hF.1 hF.2 _ (init_inv P starts).1
  have : ∀ st, Acc (fun b a => Step P a b) st → ∀ n, f n = st → False := by
    intro st h
    induction h with
    | intro st _ ih => intro n hn; exact ih (f (n + 1)) (hn ▸ hs n) (n + 1) rfl
  exact this _ hacc 0 h0

/-- C21: every partial run, with every tie-breaking so far, can go on, and then extracting the path ends too: whichever
minimal element is popped next, the loop iterates or the search ends with a result. -/
theorem C21_never_stuck {P : Problem S C} (hnn : NonnegChildren P.expand) {starts : List (S × C)} {st : St S C}
    (hrun : Steps P (init P starts) st) {top : Elem S C} {rest : List (Elem S C)} (hp : Pop st.queue top rest) :
    (∃ st', Step P st st') ∨ ∃ r, Ends P st r ∧
      (P.goal top.state = true → Extract (upd st.explored top.state (some (top.cost, top.back))) top.state r) := by
  have h := (init_inv P starts).1.steps hnn hrun
  cases hb : exploredBetter st.explored top.state top.cost with
  | true => exact .inl ⟨_, .skip hp hb⟩
  | false =>
    cases hg : P.goal top.state with
    | true =>
      obtain ⟨l, _, hx, _⟩ := extract_spec hnn h hp hb
      exact .inr ⟨_, .goal hp hb hg hx, fun _ => hx⟩
    | false =>
      cases hk : P.expand top.state with
      | ok kids => exact .inl ⟨_, .expand hp hb hg hk⟩
      | throw e => exact .inr ⟨_, .throws hp hb hg hk, by intro h; cases h⟩
      | ub => exact .inr ⟨_, .ub hp hb hg hk, by intro h; cases h⟩

theorem steps_end {P : Problem S C} (hnn : NonnegChildren P.expand) {starts : List (S × C)} {F : List S}
    (hF : FiniteReach P.expand starts F) {st : St S C} (h : Inv P starts st) : ∃ st' r, Steps P st st' ∧ Ends P st' r := by
  have hacc := steps_acc hnn hF.1 hF.2 _ h
  induction hacc with
  | intro st _ ih =>
    rcases progress hnn st h with ⟨st', hs⟩ | ⟨r, he⟩
    · obtain ⟨st2, r, h1, h2⟩ := ih st' hs (h.step hnn hs)
      exact ⟨st2, r, .step hs h1, h2⟩
    · exact ⟨st, r, .refl _, he⟩

/-- C21: on finitely many reachable states a call has an outcome. -/
theorem C21_terminates {P : Problem S C} (hnn : NonnegChildren P.expand) (starts : List (S × C)) {F : List S}
    (hF : FiniteReach P.expand starts F) : ∃ r, AstarRun P starts r := by
  by_cases hs : starts = []
  · exact ⟨_, .noStarts hs⟩
  · cases hb : bestStart P.goal starts with
    | some b => exact ⟨_, .early hs hb⟩
    | none =>
      obtain ⟨st, r, h1, h2⟩ := steps_end hnn hF (init_inv P starts).1
      exact ⟨r, .search hs hb h1 h2⟩

/-- C21, putting it together for the third overload, over exact or rounded costs: if the goal is reachable,
then the call ends, and it never answers "no path". -/
theorem C21_finds_path (start goal : S) (gen : S → List S) (valid : S → S → Bool) (dist : S → S → C) (h : S → S → C)
    (limit : Bool) (hnn : ∀ s t, t ∈ gen s → valid s t = true → 0 ≤ dist s t) {F : List S} (hsF : start ∈ F)
    (hF : ∀ s ∈ F, ∀ t ∈ gen s, valid s t = true → t ∈ F)
    (hpath : ∃ p c, Walk [(start, 0)] (ValidEdge gen valid dist) p c ∧ p.getLast? = some goal) :
    (∃ r, AstarRun (problem3 goal gen valid dist h limit) [(start, 0)] r) ∧
    ∀ p c, AstarRun (problem3 goal gen valid dist h limit) [(start, 0)] (.ok (p, c)) → p ≠ [] := by
  constructor
  · exact C21_terminates (fun s t w he => (pedge2_valid he).2) _ (F := F)
      ⟨by simp [hsF], fun s hs t w he => hF s hs t (pedge2_valid he).1.1 (pedge2_valid he).1.2.1⟩
  · rintro p c hr rfl
    obtain ⟨q, cq, hw, hl⟩ := hpath
    exact (C21_empty_means_unreachable_valid _ _ _ _ _ _ hnn hr).2 q cq hw ⟨goal, hl, by simp⟩

/-! ### Non-vacuity: a graph with a short expensive and a long cheap path, and the counterexample to full C20 -/
namespace Demo

/-- Edges 0→1, 0→2, 1→2. -/
def gen (s : Nat) : List Nat := if s = 0 then [1, 2] else if s = 1 then [2] else []
/-- The direct edge costs 5, the others 1. -/
def dist (s t : Nat) : ℕ∞ := if s = 0 ∧ t = 2 then 5 else 1

/-- The direct path is found first, then replaced; the run returns 0, 1, 2 at cost 2. -/
theorem demo_run : AstarRun (problem3 2 gen (fun _ _ => true) dist (fun _ _ => 0) true) [(0, 0)] (.ok ([0, 1, 2], 2)) := by
  apply AstarRun.search (by simp) rfl
  · apply Steps.step (.expand (top := ⟨0, none, 0, 0⟩) (rest := []) (kids := [(1, 1), (2, 5)]) ⟨List.Perm.refl _, by simp⟩ rfl rfl rfl)
    refine .step (.expand (top := ⟨1, some 0, 1, 1⟩) (rest := [⟨2, some 0, 5, 5⟩]) (kids := [(2, 1)])
      ⟨?_, by intro e he; rw [List.mem_singleton] at he; subst he; decide⟩ rfl rfl rfl) (.refl _)
    exact List.Perm.swap (⟨1, some 0, 1, 1⟩ : Elem Nat ℕ∞) ⟨2, some 0, 5, 5⟩ []
  · refine .goal (top := ⟨2, some 1, 2, 2⟩) (rest := [⟨2, some 0, 5, 5⟩])
      ⟨List.Perm.refl _, by intro e he; rw [List.mem_singleton] at he; subst he; decide⟩ rfl rfl ?_
    have := Extract.found (C := ℕ∞) (explored := upd (upd (upd (fun _ => none) 0 (some (0, none))) 1 (some (1, some 0))) 2 (some (2, some 1)))
      (g := 2) (c := 2) (b := some 1) (r := .ok [1, 0]) rfl
      (.cons (c := 1) (b := some 0) rfl (.cons (c := 0) (b := none) rfl .nil))
    exact this

theorem demo_adm : Admissible (ValidEdge gen (fun _ _ => true) dist) (fun s => decide (s = 2)) (fun _ => (0 : ℕ∞)) := by
  intro s
  refine ⟨le_refl _, fun x p c _ hw _ => ?_⟩
  rw [add_zero]
  obtain ⟨y, hy, hle⟩ := rwalk_ge_start (fun _ _ _ _ => zero_le) hw.rwalk
  rw [List.mem_singleton] at hy
  subst hy
  exact hle

/-- C19/C20 apply to this run: cost 2 is optimal. -/
example : Walk [(0, 0)] (ValidEdge gen (fun _ _ => true) dist) [0, 1, 2] 2 ∧
    ∀ p c, Walk [(0, 0)] (ValidEdge gen (fun _ _ => true) dist) p c → p.getLast? = some 2 → 2 ≤ c :=
  C20_single_start_goal 0 2 gen (fun _ _ => true) dist (fun _ _ => 0) true (by simp) demo_adm demo_run (by simp)
/-- The run meets the hypotheses of `C20_no_goal_start` and `C20_optimal_iff`. -/
theorem demo_child_adm : Admissible (ChildEdge (problem3 2 gen (fun _ _ => true) dist (fun _ _ => 0) true).expand)
    (fun s => decide (s = 2)) (fun _ => (0 : ℕ∞)) := fun s =>
  ⟨(demo_adm s).1, fun x p c hx hw hg => (demo_adm s).2 x p c hx (hw.mono fun _ _ _ he => (pedge2_valid he).1) hg⟩

example := C20_no_goal_start (fun _ _ _ _ => zero_le) (by simp) demo_child_adm (by simp [problem3, problem2]) demo_run (by simp)
example := C20_optimal_iff (fun _ _ _ _ => zero_le) (by simp) demo_child_adm demo_run (by simp)
example := C19_single_start_goal 0 2 gen (fun _ _ => true) dist (fun _ _ => 0) true demo_run (by simp)
example := C19_failures_valid _ _ _ _ _ _ demo_run
/-- A start that is a goal but costs infinitely much is refused, and the reason is the path made of it alone. -/
example : ∃ path, Walk [(2, ⊤)] (ChildEdge (problem3 2 gen (fun _ _ => true) dist (fun _ _ => 0) true).expand) path (⊤ : ℕ∞) ∧
    EndsInGoal (fun s => decide (s = 2)) path := by
  have hr : AstarRun (problem3 2 gen (fun _ _ => true) dist (fun _ _ => (0 : ℕ∞)) true) [(2, ⊤)] (.throw .invalidArgument) :=
    AstarRun.search (by simp) rfl (.refl _) (.goal (top := ⟨2, none, ⊤, 0⟩) (rest := []) ⟨List.Perm.refl _, by simp⟩ rfl rfl (by
      have := Extract.found (C := ℕ∞) (explored := upd (fun _ => none) 2 (some (⊤, none))) (g := 2) (c := ⊤) (b := none) (r := .ok []) rfl .nil
      exact this))
  rcases C19_refusals (fun _ _ _ _ => zero_le) hr with ⟨-, h⟩ | ⟨-, path, h1, h2⟩ | ⟨s, h⟩
  · cases h
  · exact ⟨path, h1, h2⟩
  · exact ⟨[2], .start (by simp), 2, rfl, rfl⟩

/-- C21: the same space is finite. -/
example : ∃ r, AstarRun (problem3 2 gen (fun _ _ => true) dist (fun _ _ => 0) true) [(0, 0)] r :=
  C21_terminates (fun _ _ _ _ => zero_le) _ (F := [0, 1, 2]) ⟨by simp, by
    intro s hs t w he
    have := (pedge2_valid he).1.1
    unfold gen at this
    split at this
    · simp at this; rcases this with rfl | rfl <;> simp
    · split at this
      · simp at this; simp [this]
      · simp at this⟩

/-- Goal 7 is unreachable: the empty result is produced, and C21 explains it. -/
theorem demo_empty : AstarRun (problem3 7 (fun _ => []) (fun _ _ => true) dist (fun _ _ => 0) false) [(0, 0)] (.ok ([], ⊤)) := by
  apply AstarRun.search (by simp) rfl
  · exact .step (.expand (top := ⟨0, none, 0, 0⟩) (rest := []) (kids := []) ⟨List.Perm.refl _, by simp⟩ rfl rfl rfl) (.refl _)
  · exact .empty rfl

example := (C21_empty_means_unreachable_valid _ _ _ _ _ _ (by simp) demo_empty).2

end Demo

/-- C20 without the proviso is false: start 0 costs 0 and reaches the goal 1 at total cost 1; start 1 already meets the
goal but costs 10. The search returns the one-state path at cost 10. -/
theorem C20_optimal_false : ∃ (goal : Nat → Bool) (gen : Nat → List Nat) (dist : Nat → Nat → ℕ∞) (starts : List (Nat × ℕ∞))
    (path : List Nat) (cost : ℕ∞),
    Admissible (ValidEdge gen (fun _ _ => true) dist) goal (fun _ => 0) ∧ (∀ x ∈ starts, 0 ≤ x.2) ∧
    AstarRun (problem2 goal gen (fun _ _ => true) dist (fun _ => 0) true) starts (.ok (path, cost)) ∧ path ≠ [] ∧
    ∃ p c, Walk starts (ValidEdge gen (fun _ _ => true) dist) p c ∧ EndsInGoal goal p ∧ c < cost := by
  refine ⟨fun s => decide (s = 1), fun s => if s = 0 then [1] else [], fun _ _ => 1, [(0, 0), (1, 10)], [1], 10, ?_, by simp, ?_,
    by simp, [0, 1], 1, ?_, ⟨1, rfl, rfl⟩, by decide⟩
  · intro s
    refine ⟨le_refl _, fun x p c _ hw _ => ?_⟩
    rw [add_zero]
    obtain ⟨y, hy, hle⟩ := rwalk_ge_start (fun _ _ _ _ => zero_le) hw.rwalk
    rw [List.mem_singleton] at hy
    subst hy
    exact hle
  · exact AstarRun.early (s := ((1, 10) : Nat × ℕ∞)) (by simp) rfl
  · have := Walk.step (l := []) (s := 0) (t := 1) (c := (0 : ℕ∞)) (w := 1) (starts := [(0, 0), (1, 10)])
      (edge := ValidEdge (fun s => if s = 0 then [1] else []) (fun _ _ => true) fun _ _ => 1) (.start (by simp)) ⟨by simp, rfl, rfl⟩
    rw [zero_add] at this
    exact this

/-- The witness of `C20_optimal_false` meets the hypothesis of `C20_goal_start`. -/
example : ∃ s ∈ ([(0, 0), (1, 10)] : List (Nat × ℕ∞)), decide (s.1 = 1) = true ∧
    (∀ x ∈ ([(0, 0), (1, 10)] : List (Nat × ℕ∞)), decide (x.1 = 1) = true → s.2 ≤ x.2) ∧ Res.ok ([1], (10 : ℕ∞)) = .ok ([s.1], s.2) :=
  C20_goal_start
    (P := problem2 (fun s => decide (s = 1)) (fun s => if s = 0 then [1] else []) (fun _ _ => true) (fun _ _ => (1 : ℕ∞)) (fun _ => 0) true)
    ⟨(1, 10), by simp, rfl, by decide⟩ (AstarRun.early (s := ((1, 10) : Nat × ℕ∞)) (by simp) rfl)

end CRU.Astar
