import Verif.GraphSearch.Props
/-
  When sums of finite costs are finite, a graph search never fails.
-/
namespace CRU.Astar
variable {S C : Type} [LinearOrder C] [Add C] [Zero C] [OrderTop C] [DecidableEq S]

/-- All queued costs are finite. -/
def FiniteQueue (st : St S C) : Prop := ∀ x ∈ st.queue, x.cost ≠ ⊤

theorem push_finite (P : Problem S C) {st : St S C} (h : FiniteQueue st) (x : Elem S C) (hx : x.cost ≠ ⊤) : FiniteQueue (push P st x) := by
  intro y hy
  unfold push at hy
  rcases List.mem_cons.mp hy with rfl | hy
  · exact hx
  · exact h y hy

theorem foldl_finite {α : Type} (f : St S C → α → St S C) (l : List α) (hf : ∀ a ∈ l, ∀ st, FiniteQueue st → FiniteQueue (f st a))
    (st : St S C) (h : FiniteQueue st) : FiniteQueue (l.foldl f st) := by
  induction l generalizing st with
  | nil => exact h
  | cons a l ih => exact ih (fun b hb => hf b (by simp [hb])) _ (hf a (by simp) st h)

theorem steps_finite (P : Problem S C) (hsum : ∀ a b : C, a ≠ ⊤ → b ≠ ⊤ → a + b ≠ ⊤)
    (hkid : ∀ s kids, P.expand s = .ok kids → ∀ k ∈ kids, k.2 ≠ ⊤) {a b : St S C} (h : Steps P a b) (ha : FiniteQueue a) :
    FiniteQueue b := by
  induction h with
  | refl => exact ha
  | @step a b c hs _ ih =>
    apply ih
    cases hs with
    | skip hp _ => exact fun x hx => ha x (hp.1.symm.subset (by simp [hx]))
    | @expand top rest kids hp hb hg hk =>
      have htop := ha top (hp.1.symm.subset (by simp))
      refine foldl_finite _ _ (fun k hkm st hst => ?_) _ (fun x hx => ha x (hp.1.symm.subset (by simp [hx])))
      unfold pushKid
      split
      · exact hst
      · exact push_finite P hst _ (hsum _ _ htop (hkid _ _ hk k hkm))

theorem init_finite (P : Problem S C) (starts : List (S × C)) (h : ∀ x ∈ starts, x.2 ≠ ⊤) : FiniteQueue (init P starts) := by
  unfold init
  refine foldl_finite _ _ (fun x hx st hst => ?_) _ (fun x hx => by cases hx)
  unfold pushStart
  split
  · exact hst
  · exact push_finite P hst _ (h x hx)

end CRU.Astar

namespace CRU.GraphSearch
open CRU.Graph
variable {V C : Type} [LinearOrder C] [Add C] [Zero C] [OrderTop C] [CostLaws C]

/-- C23: if sums of finite costs are finite and the edges considered have finite distances, a search between existing nodes from
at least one start always answers. -/
theorem C23_always_answers {g : Graph V C} {size : Int} {get : Int → Res (Node V C)} (hG : GraphLike g size get)
    {starts goals : List Int} {valid : Edge C → Bool} {dist : Edge C → C} (hd : NonnegDist g dist) {h : Int → Int → C}
    (h0 : (0 : C) ≠ ⊤) (hsum : ∀ a b : C, a ≠ ⊤ → b ≠ ⊤ → a + b ≠ ⊤) (hfin : ∀ u v w, ValidOut g valid dist u v w → w ≠ ⊤)
    (hs : starts ≠ []) (hin : ∀ i ∈ starts ++ goals, 0 ≤ i ∧ i < g.length) {limit : Bool} {r : Res (List Int × C)}
    (hr : LazyRun size get starts goals valid dist h limit r) : ∃ p, r = .ok p := by
  have hsz := hG.access.1
  subst hsz
  have hin' : ∀ i ∈ starts ++ goals, indexInRange (g.length : Int) i = true := by
    intro i hi
    obtain ⟨h1, h2⟩ := hin i hi
    unfold indexInRange
    simp [h1, h2]
  have hno : ∀ l : List Int, (∀ i ∈ l, i ∈ starts ++ goals) → (l.any fun i => !indexInRange (g.length : Int) i) = false := by
    intro l hl
    rw [List.any_eq_false]
    intro i hi
    simp [hin' i (hl i hi)]
  cases hr with
  | badIndex hb =>
    rw [hno starts (fun i hi => by simp [hi]), hno goals (fun i hi => by simp [hi])] at hb
    cases hb
  | run hb hr =>
    have hPE := expand_ok hG.access hG.outside (fun i => goals.any fun g => i = g) valid dist (minHeuristic goals h) limit
    have hnn : Astar.NonnegChildren (graphProblem get (fun i => goals.any fun g => i = g) valid dist (minHeuristic goals h) limit).expand := by
      intro s t w he
      obtain ⟨i, n, _, hn, e, hm, _, _, hw⟩ := (hPE s t w).mp he
      rw [hw]
      exact hd i n hn e hm
    have hpos : ∀ x ∈ starts.map (fun i => (i, (0 : C))), 0 ≤ x.1 ∧ x.1 < g.length := by
      intro x hx
      obtain ⟨i, hi, rfl⟩ := List.mem_map.mp hx
      exact hin i (by simp [hi])
    have hzero : ∀ x ∈ starts.map (fun i => (i, (0 : C))), x.2 ≠ ⊤ := by
      intro x hx
      obtain ⟨i, hi, rfl⟩ := List.mem_map.mp hx
      exact h0
    have hrun := graphRun_astar (fun x hx => (hpos x hx).1) hr
    have hkid : ∀ s kids, (graphProblem get (fun i => goals.any fun g => i = g) valid dist (minHeuristic goals h) limit).expand s = .ok kids →
        ∀ k ∈ kids, k.2 ≠ ⊤ := fun s kids hk k hkm => hfin s k.1 k.2 ((hPE s k.1 k.2).mp ⟨kids, hk, hkm⟩)
    cases hrun with
    | noStarts hs' => simp at hs'; exact absurd hs' hs
    | @early s hs' hb' =>
      have : ∀ (l : List (Int × C)) (b : Option (Int × C)) (s : Int × C), l.foldl (Astar.bestStep (fun i => goals.any fun g => i = g)) b = some s →
          b = some s ∨ s ∈ l := by
        intro l
        induction l with
        | nil => exact fun b s h => Or.inl h
        | cons x l ih =>
          intro b s hb
          rcases ih _ s hb with h | h
          · unfold Astar.bestStep at h
            split at h
            · split at h
              · cases h; right; simp
              · exact Or.inl h
            · exact Or.inl h
          · right; simp [h]
      rcases this _ _ s hb' with h | h
      · cases h
      · unfold Astar.mkResult
        rw [if_neg (by rintro ⟨_, h1⟩; exact hzero s h h1)]
        exact ⟨_, rfl⟩
    | @search st _ hs' hb' hsteps he =>
      have hI := (Astar.init_inv _ _).1.steps hnn hsteps
      have hF := Astar.steps_finite _ hsum hkid hsteps (Astar.init_finite _ _ hzero)
      rcases (C23_failures hG hd (LazyRun.run hb hr)).2.2 with h | h
      · exact h
      subst h
      exfalso
      generalize hr' : (Res.throw .invalidArgument : Res (List Int × C)) = r at he
      cases he with
      | empty => cases hr'
      | goal hp hb hg hx =>
        obtain ⟨l, _, _, huniq⟩ := Astar.extract_spec hnn hI hp hb
        rw [huniq _ hx] at hr'
        unfold Astar.mkResult at hr'
        rw [if_neg (by rintro ⟨_, h1⟩; exact hF _ hp.mem_top h1)] at hr'
        cases hr'
      | @throws top rest ex hp _ _ hk =>
        have hin2 : 0 ≤ top.state ∧ top.state < (g.length : Int) := by
          rcases hI.q.elems _ hp.mem_top with ⟨_, h2, _⟩ | ⟨p, l, cold, w, _, _, _, _, h5, _⟩
          · exact hpos _ h2
          · obtain ⟨k, n, _, hn, e, hee, hdd, _⟩ := (hPE _ _ _).mp h5
            obtain ⟨_, j, m, hj, _, hm, _⟩ := (hG.link k n hn).2 e hee
            obtain ⟨hlt, _⟩ := List.getElem?_eq_some_iff.mp hm
            omega
        have hlt : top.state.toNat < g.length := by omega
        have hget := hG.access.2 top.state.toNat _ (List.getElem?_eq_getElem hlt)
        rw [Int.toNat_of_nonneg hin2.1] at hget
        have hk' : graphExpand get valid dist top.state = .throw _ := hk
        unfold graphExpand at hk'
        rw [hget] at hk'
        cases hk'
      | ub => cases hr'

end CRU.GraphSearch
