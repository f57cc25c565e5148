import Verif.Astar.Props
import Verif.GraphSearch.Props
import Verif.TaskPlanner.Props
import Mathlib.Data.ENNReal.Inv
/-
  C105: A* with a heuristic that overestimates. Nothing but non-negativity is asked of the heuristic; the reported cost is then
  bounded by the largest "cost so far plus heuristic" met along any path to a goal. The search, graph and task-planner versions
  are those of Model.lean, GraphSearch/Model.lean and TaskPlanner/Model.lean.
-/
namespace CRU.Astar
set_option linter.unusedSectionVars false

/-! ### Specification -/

section
variable {S C : Type} [Add C] [LE C]

/-- A walk (as in Spec.lean) on which cost so far plus heuristic never exceeds `B`. -/
inductive WalkUnder (starts : List (S × C)) (edge : S → S → C → Prop) (h : S → C) (B : C) : List S → C → Prop
  | start {s : S} {c : C} (hs : (s, c) ∈ starts) (hb : c + h s ≤ B) : WalkUnder starts edge h B [s] c
  | step {l : List S} {s t : S} {c w : C} (hw : WalkUnder starts edge h B (l ++ [s]) c) (he : edge s t w) (hb : c + w + h t ≤ B) :
      WalkUnder starts edge h B (l ++ [s] ++ [t]) (c + w)

end

/-- The heuristic is at most `w` times the cost of any continuation to a goal. -/
def WithinFactor {S : Type} (edge : S → S → ENNReal → Prop) (goal : S → Bool) (h : S → ENNReal) (w : ENNReal) : Prop :=
  ∀ s path c, Walk [(s, 0)] edge path c → EndsInGoal goal path → h s ≤ w * c

/-- The heuristic exceeds the cost of no continuation to a goal by more than `d`. -/
def WithinAmount {S : Type} (edge : S → S → ENNReal → Prop) (goal : S → Bool) (h : S → ENNReal) (d : ENNReal) : Prop :=
  ∀ s path c, Walk [(s, 0)] edge path c → EndsInGoal goal path → h s ≤ c + d

/-! ### Proofs -/

variable {S C : Type} [DecidableEq S] [LinearOrder C] [Add C] [Zero C] [OrderTop C] [CostLaws C]

theorem WalkUnder.walk {starts : List (S × C)} {edge : S → S → C → Prop} {h : S → C} {B : C} {p : List S} {c : C}
    (hw : WalkUnder starts edge h B p c) : Walk starts edge p c := by
  induction hw with
  | start hs _ => exact .start hs
  | step _ he _ ih => exact .step ih he

theorem WalkUnder.mono {starts : List (S × C)} {e1 e2 : S → S → C → Prop} (hm : ∀ s t w, e1 s t w → e2 s t w) {h1 h2 : S → C}
    (hh : ∀ s, h2 s ≤ h1 s) {B : C} {p : List S} {c : C} (hw : WalkUnder starts e1 h1 B p c) : WalkUnder starts e2 h2 B p c := by
  induction hw with
  | start hs hb => exact .start hs (le_trans (CostLaws.add_le_add_left _ _ _ (hh _)) hb)
  | step _ he hb ih => exact .step ih (hm _ _ _ he) (le_trans (CostLaws.add_le_add_left _ _ _ (hh _)) hb)

/-- The cost so far of a path below the bound is itself below the bound. -/
theorem WalkUnder.cost_le {starts : List (S × C)} {edge : S → S → C → Prop} {h : S → C} (hh : ∀ s, 0 ≤ h s) {B : C} {p : List S} {c : C}
    (hw : WalkUnder starts edge h B p c) : c ≤ B := by
  cases hw with
  | start _ hb => exact le_trans (CostLaws.le_add _ _ (hh _)) hb
  | step _ _ hb => exact le_trans (CostLaws.le_add _ _ (hh _)) hb

theorem frontier_under {P : Problem S C} {starts : List (S × C)} {st : St S C} (hI : Inv P starts st) {B : C} {p : List S} {c : C}
    (hw : WalkUnder starts (ChildEdge P.expand) P.h B p c) : ∀ t, p.getLast? = some t →
    Le st.explored t c ∨ ∃ e ∈ st.queue, ∃ x, e.cost ≤ x ∧ x + P.h e.state ≤ B := by
  induction hw with
  | start hs hb =>
    intro t ht
    simp only [List.getLast?_singleton, Option.some.injEq] at ht
    subst ht
    rcases hI.starts _ _ hs with hc | ⟨e, he, h1, h2⟩
    · exact .inl hc
    · exact .inr ⟨e, he, _, h2, by rw [h1]; exact hb⟩
  | @step l s t c w hw he hb ih =>
    intro t' ht
    simp only [List.getLast?_append, List.getLast?_singleton, Option.some_or, Option.some.injEq] at ht
    subst ht
    rcases ih s (by simp) with ⟨cs, bs, h1, h2⟩ | h
    · rcases hI.closed _ _ _ h1 _ _ he with hc | ⟨e, he', h3, h4⟩
      · exact .inl (hc.mono (CostLaws.add_le_add_right _ _ _ h2))
      · exact .inr ⟨e, he', _, le_trans h4 (CostLaws.add_le_add_right _ _ _ h2), by rw [h3]; exact hb⟩
    · exact .inr h

/-- C105, main overload, any cost arithmetic and any tie-breaking: with any non-negative heuristic, the reported cost is at
most `B` whenever some path to a goal exists on which cost so far plus heuristic never exceeds `B`. -/
theorem C105_bound {P : Problem S C} (hnn : NonnegChildren P.expand) {starts : List (S × C)} (hst : ∀ x ∈ starts, (0 : C) ≤ x.2)
    (hh : ∀ s, 0 ≤ P.h s) (hprov : StartProviso P.goal starts) {path : List S} {cost : C}
    (h : AstarRun P starts (.ok (path, cost))) (hne : path ≠ []) {B : C} {p : List S} {c : C}
    (hw : WalkUnder starts (ChildEdge P.expand) P.h B p c) (hg : EndsInGoal P.goal p) : cost ≤ B := by
  obtain ⟨g, hlast, hgg⟩ := hg
  generalize hr : Res.ok (path, cost) = r at h
  cases h with
  | noStarts h => cases hr
  | early hs h =>
    obtain ⟨_, rfl, _⟩ := mkResult_ok hr.symm (by simp)
    obtain ⟨m1, m2, m3, m4⟩ := bestStart_some h
    obtain ⟨x, hx, hle⟩ := rwalk_ge_start hnn hw.walk.rwalk
    refine le_trans ?_ (le_trans hle (hw.cost_le hh))
    rcases hprov with hp | ⟨y, hy, hyg, hmin⟩
    · have := hp _ m1; rw [m2] at this; cases this
    · exact le_trans (m4 y hy hyg) (hmin x hx)
  | search hs h hrun he =>
    have hI := (init_inv P starts).1.steps hnn hrun
    cases he with
    | empty h => cases hr; exact absurd rfl hne
    | @goal top rest r hp hb hg' hx =>
      obtain ⟨l', _, _, huniq⟩ := extract_spec hnn hI hp hb
      rw [← hr] at hx
      obtain ⟨_, rfl, hc⟩ := mkResult_ok (huniq _ hx).symm (by simp)
      have htop := hI.q.elems top hp.mem_top
      have hle1 : top.cost ≤ top.value := by
        rcases htop with ⟨_, h2, _⟩ | ⟨_, _, _, _, _, _, _, _, _, _, h7⟩
        · exact absurd (bestStart_none h _ h2 hg') hc
        · rw [h7]; exact CostLaws.le_add _ _ (hh _)
      rcases frontier_under hI hw g hlast with ⟨cq, bq, hq, _⟩ | ⟨e, he, x, h1, h2⟩
      · have := hI.nongoal g (by rw [hq]; simp)
        rw [hgg] at this; cases this
      · have hval : top.value ≤ e.value := by
          rcases hp.mem_cases he with rfl | he
          · exact le_refl _
          · exact hp.2 e he
        exact le_trans hle1 (le_trans hval (le_trans (le_value hh hst (hI.q.elems e he))
          (le_trans (CostLaws.add_le_add_right _ _ _ h1) h2)))
    | throws => cases hr
    | ub => cases hr

/-- C105, second overload. -/
theorem C105_bound_valid (goal : S → Bool) (gen : S → List S) (valid : S → S → Bool) (dist : S → S → C) (h : S → C) (limit : Bool)
    {starts : List (S × C)} (hst : ∀ x ∈ starts, (0 : C) ≤ x.2) (hnn : ∀ s t, t ∈ gen s → valid s t = true → 0 ≤ dist s t)
    (hh : ∀ s, 0 ≤ h s) (hprov : StartProviso goal starts) {path : List S} {cost : C}
    (hr : AstarRun (problem2 goal gen valid dist h limit) starts (.ok (path, cost))) (hne : path ≠ []) {B : C} {p : List S} {c : C}
    (hw : WalkUnder starts (ValidEdge gen valid dist) h B p c) (hg : EndsInGoal goal p) : cost ≤ B := by
  have hv : ∀ s t w, ValidEdge gen valid dist s t w → 0 ≤ w := by
    rintro s t w ⟨a, b, rfl⟩; exact hnn s t a b
  exact C105_bound (P := problem2 goal gen valid dist h limit) (fun s t w he => (pedge2_valid he).2) hst hh hprov hr hne
    (hw.mono (fun s t w he => valid_pedge2 hv he) (fun _ => le_refl _)) hg

/-! ### Exact costs -/

/-- Moving the start cost of a walk. -/
theorem walk_split {edge : S → S → ENNReal → Prop} {starts : List (S × ENNReal)} {p : List S} {c : ENNReal}
    (hw : Walk starts edge p c) : ∀ {g : S} {q : List S} {k : ENNReal}, p.getLast? = some g → Walk [(g, 0)] edge q k →
      ∃ r, Walk starts edge (p ++ r) (c + k) ∧ (p ++ r).getLast? = q.getLast? := by
  intro g q k hg hq
  induction hq with
  | start h =>
    simp only [List.mem_singleton, Prod.mk.injEq] at h
    obtain ⟨rfl, rfl⟩ := h
    exact ⟨[], by simpa using hw, by simpa using hg⟩
  | @step l s t k w _ he ih =>
    obtain ⟨r, h1, h2⟩ := ih
    obtain ⟨l', hl'⟩ : ∃ l', p ++ r = l' ++ [s] := by
      have hs : (p ++ r).getLast? = some s := by rw [h2]; simp
      have hne : p ++ r ≠ [] := by intro hc; rw [hc] at hs; simp at hs
      rw [List.getLast?_eq_some_getLast hne] at hs
      cases hs
      exact ⟨_, (List.dropLast_append_getLast hne).symm⟩
    refine ⟨r ++ [t], ?_, ?_⟩
    · rw [← List.append_assoc, hl', ← add_assoc]
      rw [hl'] at h1
      exact .step h1 he
    · rw [← List.append_assoc]; simp

/-- On a walk to a goal, every state has a continuation to that goal, of the remaining cost. -/
theorem under_of_tail {edge : S → S → ENNReal → Prop} {goal : S → Bool} {h : S → ENNReal} {B : ENNReal} {starts : List (S × ENNReal)}
    {p : List S} {c : ENNReal} (hw : Walk starts edge p c)
    (hB : ∀ s x q k, Walk [(s, 0)] edge q k → EndsInGoal goal q → x + k = c → x + h s ≤ B) (hg : EndsInGoal goal p) :
    WalkUnder starts edge h B p c := by
  obtain ⟨g, hlast, hgg⟩ := hg
  -- generalise to prefixes of the walk with a known rest
  have gen : ∀ {l : List S} {x : ENNReal}, Walk starts edge l x → ∀ s, l.getLast? = some s → ∀ q k, Walk [(s, 0)] edge q k →
      EndsInGoal goal q → x + k = c → WalkUnder starts edge h B l x := by
    intro l x hl
    induction hl with
    | start hs =>
      intro s hls q k hq hgq hk
      simp only [List.getLast?_singleton, Option.some.injEq] at hls
      subst hls
      exact .start hs (hB _ _ q k hq hgq hk)
    | @step l s t x w hl he ih =>
      intro t' ht q k hq hgq hk
      simp only [List.getLast?_append, List.getLast?_singleton, Option.some_or, Option.some.injEq] at ht
      subst ht
      have h1 : Walk [(s, 0)] edge ([] ++ [s] ++ [t]) (0 + w) := .step (l := []) (by exact .start (by simp)) he
      obtain ⟨r, h2, h3⟩ := walk_split h1 (g := t) (by simp) hq
      refine .step (ih s (by simp) _ _ h2 ?_ ?_) he (hB _ _ q k hq hgq hk)
      · obtain ⟨g', h4, h5⟩ := hgq
        exact ⟨g', by rw [h3]; exact h4, h5⟩
      · rw [zero_add, ← add_assoc]; exact hk
  exact gen hw g hlast [g] 0 (.start (by simp)) ⟨g, by simp, hgg⟩ (by simp)

/-- C105, exact costs: if the heuristic is at most `w ≥ 1` times the true cost to go, the path found costs at most `w` times
as much as any path to a goal. -/
theorem C105_weighted {P : Problem S ENNReal} {starts : List (S × ENNReal)} (hprov : StartProviso P.goal starts) {w : ENNReal}
    (hw1 : 1 ≤ w) (hh : WithinFactor (ChildEdge P.expand) P.goal P.h w) {path : List S} {cost : ENNReal}
    (h : AstarRun P starts (.ok (path, cost))) (hne : path ≠ []) {p : List S} {c : ENNReal}
    (hp : Walk starts (ChildEdge P.expand) p c) (hg : EndsInGoal P.goal p) : cost ≤ w * c := by
  refine C105_bound (fun _ _ _ _ => zero_le) (fun _ _ => zero_le) (fun _ => zero_le) hprov h hne (under_of_tail hp ?_ hg) hg
  rintro s x q k hq hgq rfl
  calc x + P.h s ≤ x + w * k := by gcongr; exact hh s q k hq hgq
    _ ≤ w * x + w * k := by gcongr; exact le_mul_of_one_le_left' hw1
    _ = w * (x + k) := (mul_add _ _ _).symm

/-- C105, exact costs: if the heuristic exceeds the true cost to go by at most `d`, the path found is at most `d` more expensive
than any path to a goal. -/
theorem C105_additive {P : Problem S ENNReal} {starts : List (S × ENNReal)} (hprov : StartProviso P.goal starts) {d : ENNReal}
    (hh : WithinAmount (ChildEdge P.expand) P.goal P.h d) {path : List S} {cost : ENNReal}
    (h : AstarRun P starts (.ok (path, cost))) (hne : path ≠ []) {p : List S} {c : ENNReal}
    (hp : Walk starts (ChildEdge P.expand) p c) (hg : EndsInGoal P.goal p) : cost ≤ c + d := by
  refine C105_bound (fun _ _ _ _ => zero_le) (fun _ _ => zero_le) (fun _ => zero_le) hprov h hne (under_of_tail hp ?_ hg) hg
  rintro s x q k hq hgq rfl
  calc x + P.h s ≤ x + (k + d) := by gcongr; exact hh s q k hq hgq
    _ = x + k + d := (add_assoc _ _ _).symm

/-! ### The factor is attained -/

namespace Sharp

/-- Edges 0→1, 0→2, 1→2. -/
def gen (s : Nat) : List Nat := if s = 0 then [1, 2] else if s = 1 then [2] else []
/-- The detour costs 0 + 1, the direct edge `w`. -/
def dist (w : ENNReal) (s t : Nat) : ENNReal := if s = 0 then (if t = 1 then 0 else w) else 1
/-- `w` times the true cost to go at state 1. -/
def heur (w : ENNReal) (s : Nat) : ENNReal := if s = 1 then w else 0

theorem within (w : ENNReal) : WithinFactor (ValidEdge gen (fun _ _ => true) (dist w)) (fun s => decide (s = 2)) (heur w) w := by
  intro s path c hw hg
  by_cases hs : s = 1
  · subst hs
    have key : ∀ {p : List Nat} {c : ENNReal}, Walk [(1, 0)] (ValidEdge gen (fun _ _ => true) (dist w)) p c →
        (∃ g, p.getLast? = some g ∧ ((g = 1 ∧ c = 0) ∨ (g = 2 ∧ 1 ≤ c))) := by
      intro p c hp
      induction hp with
      | start h => simp only [List.mem_singleton, Prod.mk.injEq] at h; exact ⟨1, by simp [h.1], .inl ⟨rfl, h.2⟩⟩
      | @step l s t c w' _ he ih =>
        obtain ⟨g, h1, h2⟩ := ih
        simp only [List.getLast?_append, List.getLast?_singleton, Option.some_or, Option.some.injEq] at h1
        subst h1
        obtain ⟨e1, -, e2⟩ := he
        rcases h2 with ⟨rfl, rfl⟩ | ⟨rfl, -⟩
        · have ht : t = 2 := by simpa [gen] using e1
          subst ht
          exact ⟨2, by simp, .inr ⟨rfl, by rw [e2]; simp [dist]⟩⟩
        · simp [gen] at e1
    obtain ⟨g, h1, h2⟩ := key hw
    obtain ⟨g', h3, h4⟩ := hg
    rw [h1] at h3
    cases h3
    have : g = 2 := by simpa using h4
    rcases h2 with ⟨rfl, -⟩ | ⟨-, h2⟩
    · cases this
    · simp only [heur, if_true]; exact le_mul_of_one_le_right' h2
  · simp [heur, hs]

theorem run (w : ENNReal) (hw : w ≠ ⊤) :
    AstarRun (problem2 (fun s => decide (s = 2)) gen (fun _ _ => true) (dist w) (heur w) false) [(0, 0)] (.ok ([0, 2], w)) := by
  have hk : ∀ s, validChildren (fun _ _ => true) (dist w) s (gen s) = .ok ((gen s).map fun t => (t, dist w s t)) := by
    intro s
    induction gen s with
    | nil => rfl
    | cons t ts ih => simp [validChildren, mkStateWithCost, ih]
  apply AstarRun.search (by simp) rfl
  · exact Steps.step (.expand (top := ⟨0, none, 0, heur w 0⟩) (rest := []) (kids := [(1, dist w 0 1), (2, dist w 0 2)])
      ⟨List.Perm.refl _, by simp⟩ rfl rfl (hk 0)) (.refl _)
  · refine .goal (top := ⟨2, some 0, 0 + dist w 0 2, 0 + dist w 0 2 + heur w 2⟩) (rest := [⟨1, some 0, 0 + dist w 0 1, 0 + dist w 0 1 + heur w 1⟩])
      ⟨List.Perm.refl _, ?_⟩ rfl rfl ?_
    · intro e he
      rw [List.mem_singleton] at he
      subst he
      simp [dist, heur]
    · have := Extract.found (C := ENNReal)
        (explored := upd (upd (fun _ => none) 0 (some (0, none))) 2 (some (0 + dist w 0 2, some 0)))
        (g := 2) (c := 0 + dist w 0 2) (b := some 0) (r := .ok [0]) rfl (.cons (c := 0) (b := none) rfl .nil)
      have hm : (do let l ← (Res.ok [0] : Res (List Nat)); mkResult (2 :: l).reverse (0 + dist w 0 2)) = .ok ([0, 2], w) := by
        simp [mkResult, dist, hw]
      rw [hm] at this
      exact this

theorem cheap (w : ENNReal) : Walk [(0, 0)] (ValidEdge gen (fun _ _ => true) (dist w)) [0, 1, 2] 1 := by
  have h1 : Walk [(0, 0)] (ValidEdge gen (fun _ _ => true) (dist w)) ([] ++ [0] ++ [1]) (0 + 0) :=
    .step (l := []) (.start (by simp)) ⟨by simp [gen], rfl, by simp [dist]⟩
  have h2 : Walk [(0, 0)] (ValidEdge gen (fun _ _ => true) (dist w)) ([0] ++ [1] ++ [2]) (0 + 0 + 1) :=
    .step (l := [0]) h1 ⟨by simp [gen], rfl, by simp [dist]⟩
  simpa using h2

end Sharp

/-- C105: the factor of `C105_weighted` cannot be improved: for every `w ≥ 1` there are a heuristic within `w` of the true cost
to go and a run that returns a path `w` times as expensive as the cheapest one. -/
theorem C105_weighted_sharp (w : ENNReal) (hw : w ≠ ⊤) :
    ∃ (goal : Nat → Bool) (gen : Nat → List Nat) (dist : Nat → Nat → ENNReal) (h : Nat → ENNReal) (path : List Nat) (cost : ENNReal) (p : List Nat)
      (c : ENNReal), WithinFactor (ValidEdge gen (fun _ _ => true) dist) goal h w ∧
      AstarRun (problem2 goal gen (fun _ _ => true) dist h false) [(0, 0)] (.ok (path, cost)) ∧ path ≠ [] ∧
      Walk [(0, 0)] (ValidEdge gen (fun _ _ => true) dist) p c ∧ EndsInGoal goal p ∧ c ≠ 0 ∧ cost = w * c :=
  ⟨_, _, _, _, _, _, _, _, Sharp.within w, Sharp.run w hw, by simp, Sharp.cheap w, ⟨2, by simp, by simp⟩, by simp, by simp⟩

/-- The hypotheses of `C105_weighted` are met by that run. -/
example : (3 : ENNReal) ≤ 3 * 1 :=
  C105_weighted (P := problem2 (fun s => decide (s = 2)) Sharp.gen (fun _ _ => true) (Sharp.dist 3) (Sharp.heur 3) false)
    (starts := [(0, 0)]) (.inl (by simp [problem2])) (by norm_num)
    (fun s p c hp hg => Sharp.within 3 s p c (hp.mono fun _ _ _ he => (pedge2_valid he).1) hg) (Sharp.run 3 (by simp)) (by simp)
    ((Sharp.cheap 3).mono fun _ _ _ he => valid_pedge2 (fun _ _ _ _ => zero_le) he) ⟨2, by simp, by simp [problem2]⟩

/-- The hypotheses of `C105_additive` are met by that run: the heuristic exceeds the cost to go by 2. -/
example : (3 : ENNReal) ≤ 1 + 2 :=
  C105_additive (P := problem2 (fun s => decide (s = 2)) Sharp.gen (fun _ _ => true) (Sharp.dist 3) (Sharp.heur 3) false)
    (starts := [(0, 0)]) (.inl (by simp [problem2])) (d := 2)
    (fun s p c hp hg => by
      by_cases hs : s = 1
      · subst hs
        -- the factor 3 bound with cost at least 1 is more than needed
        have h1 := Sharp.within 1 1 p c ?_ hg
        · have h2 : (1 : ENNReal) ≤ c := by simpa [Sharp.heur] using h1
          calc (problem2 (fun s => decide (s = 2)) Sharp.gen (fun _ _ => true) (Sharp.dist 3) (Sharp.heur 3) false).h 1 = 1 + 2 := by
                simp [problem2, Sharp.heur]; norm_num
            _ ≤ c + 2 := by gcongr
        · have hmono : ∀ {q : List Nat} {k : ENNReal}, Walk [(1, 0)] (ValidEdge Sharp.gen (fun _ _ => true) (Sharp.dist 3)) q k →
              (∀ g, q.getLast? = some g → g ≠ 0) ∧ Walk [(1, 0)] (ValidEdge Sharp.gen (fun _ _ => true) (Sharp.dist 1)) q k := by
            intro q k hq
            induction hq with
            | start h =>
              simp only [List.mem_singleton, Prod.mk.injEq] at h
              obtain ⟨rfl, rfl⟩ := h
              exact ⟨by simp, .start (by simp)⟩
            | @step l s t c w' _ he ih =>
              have hs := ih.1 s (by simp)
              obtain ⟨e1, e2, e3⟩ := he
              have ht : t ≠ 0 := by
                rintro rfl
                unfold Sharp.gen at e1
                split at e1
                · simp at e1
                · split at e1 <;> simp at e1
              exact ⟨by simp [ht], .step ih.2 ⟨e1, e2, by rw [e3]; simp [Sharp.dist, hs]⟩⟩
          exact (hmono (hp.mono fun _ _ _ he => (pedge2_valid he).1)).2
      · simp [problem2, Sharp.heur, hs])
    (Sharp.run 3 (by simp)) (by simp)
    ((Sharp.cheap 3).mono fun _ _ _ he => valid_pedge2 (fun _ _ _ _ => zero_le) he) ⟨2, by simp, by simp [problem2]⟩

/-- The hypotheses of `C105_bound` are met by the run of Props.lean (costs `ℕ∞`): `B = 2`, along 0, 1, 2. -/
example : (2 : ℕ∞) ≤ 2 :=
  C105_bound (P := problem3 2 Demo.gen (fun _ _ => true) Demo.dist (fun _ _ => 0) true) (starts := [(0, 0)]) (fun _ _ _ _ => zero_le) (by simp)
    (fun _ => zero_le) (.inl (by simp [problem3, problem2])) Demo.demo_run (by simp) (B := 2) (p := [0, 1, 2]) (c := 0 + 1 + 1)
    (.step (l := [0]) (.step (l := []) (.start (by simp) (by simp [problem3, problem2])) ⟨[(1, 1), (2, 5)], rfl, by simp⟩ (by decide))
      ⟨[(2, 1)], rfl, by simp⟩ (by decide)) ⟨2, by simp, by simp [problem3, problem2]⟩

/-- As is `C105_bound_valid`. -/
example : (2 : ℕ∞) ≤ 2 :=
  C105_bound_valid (fun s => decide (s = 2)) Demo.gen (fun _ _ => true) Demo.dist (fun _ => 0) true (starts := [(0, 0)]) (by simp) (by simp)
    (by simp) (.inl (by simp)) Demo.demo_run (by simp) (B := 2) (p := [0, 1, 2]) (c := 0 + 1 + 1)
    (.step (l := [0]) (.step (l := []) (.start (by simp) (by simp)) ⟨by simp [Demo.gen], rfl, rfl⟩ (by decide))
      ⟨by simp [Demo.gen], rfl, rfl⟩ (by decide)) ⟨2, by simp, by simp⟩

/-! ### Graphs and task planning -/

end CRU.Astar

namespace CRU.GraphSearch
open CRU.Graph

variable {V C : Type} [LinearOrder C] [Add C] [Zero C] [OrderTop C] [CostLaws C]

/-- C105, A* on graphs (both graph types), any cost arithmetic: with any non-negative heuristic, the reported cost is at most `B`
whenever some path of valid edges from a start to a goal `t` exists on which cost so far plus heuristic to `t` never exceeds `B`. -/
theorem C105_graph {g : Graph V C} {size : Int} {get : Int → Res (Node V C)} (hG : GraphLike g size get)
    {starts goals : List Int} {valid : Edge C → Bool} {dist : Edge C → C} (hd : NonnegDist g dist) {h : Int → Int → C}
    (hh : ∀ s, ∀ t ∈ goals, 0 ≤ h s t) {limit : Bool} {path : List Int} {cost : C}
    (hr : LazyRun size get starts goals valid dist h limit (.ok (path, cost))) (hne : path ≠ []) {t : Int} (ht : t ∈ goals) {B : C}
    {p : List Int} {c : C}
    (hw : Astar.WalkUnder (starts.map fun i => (i, 0)) (ValidOut g valid dist) (fun s => h s t) B p c) (hl : p.getLast? = some t) :
    cost ≤ B := by
  generalize hrr : Res.ok (path, cost) = r at hr
  cases hr with
  | badIndex => cases hrr
  | run hb hr =>
    subst hrr
    rw [Bool.or_eq_false_iff] at hb
    have hstart := inRange_all hb.1
    have hpos : ∀ x ∈ starts.map (fun i => (i, (0 : C))), 0 ≤ x.1 ∧ x.2 = 0 := by
      intro x hx
      obtain ⟨i, hi, rfl⟩ := List.mem_map.mp hx
      exact ⟨(hstart i hi).1, rfl⟩
    have hPE := expand_ok hG.access hG.outside (fun i => goals.any fun g => i = g) valid dist (minHeuristic goals h) limit
    have hnn : Astar.NonnegChildren (graphProblem get (fun i => goals.any fun g => i = g) valid dist (minHeuristic goals h) limit).expand := by
      intro s t w he
      obtain ⟨i, n, _, hn, e, hm, _, _, hw⟩ := (hPE s t w).mp he
      rw [hw]
      exact hd i n hn e hm
    have hgoal : ∀ t, goals.any (fun g => t = g) = true ↔ t ∈ goals := by intro t; simp
    refine Astar.C105_bound hnn (starts := starts.map fun i => (i, (0 : C))) (fun x hx => by rw [(hpos x hx).2]) (fun s => ?_) ?_
      (graphRun_astar (fun x hx => (hpos x hx).1) hr) hne
      (hw.mono (fun s t w he => (hPE s t w).mpr he) (fun s => (minHeuristic_spec goals h s).1 t ht)) ⟨t, hl, (hgoal t).mpr ht⟩
    · show 0 ≤ minHeuristic goals h s
      rcases (minHeuristic_spec goals h s).2 with he | ⟨t, ht, he⟩
      · rw [he]; exact le_top
      · rw [he]; exact hh s t ht
    · by_cases hex : ∃ x ∈ starts.map (fun i => (i, (0 : C))), goals.any (fun g => x.1 = g) = true
      · obtain ⟨x, hx, hg⟩ := hex
        exact .inr ⟨x, hx, hg, fun y hy => by rw [(hpos x hx).2, (hpos y hy).2]⟩
      · refine .inl fun x hx => ?_
        rw [Bool.eq_false_iff]
        exact fun hg => hex ⟨x, hx, hg⟩

namespace Demo

/-- An overestimate: node 1 claims to be 3 away from node 2, it is 1 away. -/
def high (s _t : Int) : ℕ∞ := if s = 1 then 3 else 0

/-- The bound along 0, 1, 2 is 4, so no run returns the direct edge of weight 5; and there is a run. -/
example : (∃ r, LazyRun 4 (getNode g) [0] [2] (fun _ => true) (fun e => e.weight) high true r) ∧
    ∀ path cost, LazyRun 4 (getNode g) [0] [2] (fun _ => true) (fun e => e.weight) high true (.ok (path, cost)) → path ≠ [] → cost ≤ 4 := by
  refine ⟨(C23_terminates (graphLike_self g_mirrored.validLinkage) [0] [2] (fun _ => true) (dist := fun e => e.weight)
    (fun _ _ _ _ _ => zero_le) high true).1, fun path cost hr hne => ?_⟩
  refine C105_graph (graphLike_self g_mirrored.validLinkage) (fun _ _ _ _ _ => zero_le) (fun _ _ _ => zero_le) hr hne (t := 2) (by simp)
    (p := [0, 1, 2]) (c := 0 + 1 + 1) ?_ (by simp)
  exact .step (l := [0]) (s := 1) (.step (l := []) (s := 0) (.start (by simp) (by decide))
    ⟨0, _, rfl, rfl, ⟨0, 1, 1, 0⟩, by decide, rfl, rfl, rfl⟩ (by decide)) ⟨1, _, rfl, rfl, ⟨1, 2, 1, 0⟩, by decide, rfl, rfl, rfl⟩ (by decide)

end Demo
end CRU.GraphSearch

namespace CRU.Task
open CRU.Astar

variable {S : Type} [DecidableEq S]

/-- C105, task planner, exact costs: if the heuristic is at most `w ≥ 1` times the cost of any completion of the task, the plan
costs at most `w` times as much as any plan from any of the given states. -/
theorem C105_planner {prims : List (Primitive S ENNReal)} {complete : S → Bool} {h : S → ENNReal} {w : ENNReal} (hw1 : 1 ≤ w)
    (hh : ∀ s l c x, IsPlan prims [s] l c → l.getLast? = some x → complete x.1 = true → h s ≤ w * c)
    {starts : List S} {path : List (S × Int)} {cost : ENNReal}
    (hr : PlanRun prims complete (some h) starts (.ok (path, cost))) (hne : path ≠ []) {p : List (S × Int)} {c : ENNReal} {x : S × Int}
    (hp : IsPlan prims starts p c) (hl : p.getLast? = some x) (hc : complete x.1 = true) : cost ≤ w * c := by
  have hz : ∀ x ∈ planStarts (C := ENNReal) starts, x.2 = 0 := by
    intro x hx; obtain ⟨s, _, rfl⟩ := List.mem_map.mp hx; rfl
  refine C105_weighted (P := planProblem prims complete (some h)) (starts := planStarts starts) ?_ hw1 ?_ hr hne (plan_walk hp) ⟨x, hl, hc⟩
  · by_cases hex : ∃ x ∈ planStarts (C := ENNReal) starts, complete x.1.1 = true
    · obtain ⟨x, hx, hg⟩ := hex
      exact .inr ⟨x, hx, hg, fun y hy => by rw [hz x hx, hz y hy]⟩
    · refine .inl fun x hx => ?_
      rw [Bool.eq_false_iff]
      exact fun hg => hex ⟨x, hx, hg⟩
  · rintro ⟨s, i⟩ q k hq ⟨g, hg1, hg2⟩
    -- a walk from (s, i) is a plan from s, up to the tag of its first entry
    have gen : ∀ {q : List (S × Int)} {k : ENNReal}, Walk [((s, i), 0)] (ChildEdge (planProblem prims complete (some h)).expand) q k →
        ∀ g, q.getLast? = some g → ∃ q' g', IsPlan prims [s] q' k ∧ q'.getLast? = some g' ∧ g'.1 = g.1 := by
      intro q k hq
      induction hq with
      | start hs =>
        intro g hg
        simp only [List.mem_singleton, Prod.mk.injEq] at hs
        obtain ⟨rfl, rfl⟩ := hs
        simp only [List.getLast?_singleton, Option.some.injEq] at hg
        subst hg
        exact ⟨[(s, -1)], (s, -1), .start (by simp), by simp, rfl⟩
      | @step l a b k w _ he ih =>
        intro g hg
        simp only [List.getLast?_append, List.getLast?_singleton, Option.some_or, Option.some.injEq] at hg
        subst hg
        obtain ⟨q', g', h1, h2, h3⟩ := ih a (by simp)
        have hne : q' ≠ [] := by rintro rfl; simp at h2
        rw [List.getLast?_eq_some_getLast hne] at h2
        cases h2
        rw [← List.dropLast_append_getLast hne] at h1
        refine ⟨_, (b.1, b.2), .step (t := b.1) (j := b.2) h1 ?_, by simp, rfl⟩
        rw [h3]
        exact (childEdge_iff _ _ _ _ _ _).mp he
    obtain ⟨q', g', h1, h2, h3⟩ := gen hq g hg1
    exact hh s q' k g' h1 h2 (by rw [h3]; exact hg2)

/-- Raise a counter from 0 to 1 at cost 1. -/
private def incE : Primitive Nat ENNReal where
  name := "inc"
  candidate := fun s => decide (s = 0)
  outcomes := fun s => [(s + 1, 1)]
  execute := fun s r => r = .ok [s + 1]

/-- With a heuristic of 5 at state 0 (5 times the true cost), every plan found from 0 costs at most 5. -/
example {path : List (Nat × Int)} {cost : ENNReal}
    (hr : PlanRun [incE] (fun s => decide (s = 1)) (some fun s => if s = 0 then 5 else 0) [0] (.ok (path, cost))) (hne : path ≠ []) :
    cost ≤ 5 * (0 + 1) := by
  refine C105_planner (by norm_num) ?_ hr hne (p := [(0, -1), (1, 0)]) (x := (1, 0))
    (.step (l := []) (.start (by simp)) ⟨incE, by decide, rfl, rfl, by simp [incE]⟩) (by simp) (by simp)
  intro s l c x hp hl hx
  by_cases hs : s = 0
  · subst hs
    have key : ∀ {l : List (Nat × Int)} {c : ENNReal}, IsPlan [incE] [0] l c → ∀ x, l.getLast? = some x → (x.1 = 0 ∧ c = 0) ∨ (1 : ENNReal) ≤ c := by
      intro l c hp
      induction hp with
      | start h =>
        intro x hx
        simp only [List.mem_singleton] at h
        simp only [List.getLast?_singleton, Option.some.injEq] at hx
        subst hx
        exact .inl ⟨h, rfl⟩
      | @step l y t j c w _ he ih =>
        intro x hx
        right
        obtain ⟨p, -, hp, -, ho⟩ := he
        have hpe : p = incE := by
          have := List.mem_of_getElem? hp
          simpa using this
        subst hpe
        simp only [incE, List.mem_singleton, Prod.mk.injEq] at ho
        rw [ho.2]
        exact le_add_self
    rcases key hp x hl with ⟨h0, -⟩ | h1
    · rw [h0] at hx; simp at hx
    · simp only [if_true]
      calc (5 : ENNReal) = 5 * 1 := by norm_num
        _ ≤ 5 * c := by gcongr
  · simp [hs]

end CRU.Task
