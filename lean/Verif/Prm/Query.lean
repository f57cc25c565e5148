import Verif.Prm.QuerySim
import Verif.Prm.AddNode
import Verif.GraphSearch.Finite
/-
  C41 (queries) and C67: queries on a roadmap.
-/
namespace CRU.Prm
open CRU.Graph CRU.Knn CRU.Parallel CRU.GraphSearch

variable {V C : Type} [LinearOrder C] [Zero C]

/-- The connection of a new node with one neighbour. If the functions are not declared symmetric, starts are connected the wrong
way round (see C40). -/
def ConnectsAs (e : Env V C) (dir : Dir) (state nb : V) (k i u v : Int) (w : C) : Prop :=
  if dir = .newToRoadmap ∧ e.symmetric = false then ConnectsSwapped e.valid e.dist state nb k i u v w
  else Connects e.valid e.dist state nb k i u v w

/-- `Attached … states g g' is`: `g'` is the roadmap `g` with the states attached one after the other; `is` are the nodes that stand for
them: an old node at distance zero (if duplicates are not wanted), or a new node with edges to and from the neighbours that the
provider names among the first `maxNode` nodes (none of them at distance zero, if duplicates are not wanted). -/
inductive Attached (e : Env V C) (dir : Dir) (maxNode : Int) : List V → Graph V C → Graph V C → List Int → Prop
  | nil {g : Graph V C} : Attached e dir maxNode [] g g []
  | existing {s : V} {rest : List V} {g g' : Graph V C} {is : List Int} {i : Nat} {n : Node V C} (hd : e.addDuplicates = false)
      (hi : (i : Int) < maxNode) (hn : g[i]? = some n) (hz : dirDist e.dist dir n.value s = 0)
      (hr : Attached e dir maxNode rest g g' is) : Attached e dir maxNode (s :: rest) g g' ((i : Int) :: is)
  | added {s : V} {rest : List V} {g g1 g' : Graph V C} {is : List Int} {l : List (Entry C)}
      (hk : e.knn g.length (getNode g) s e.K dir maxNode (.ok l)) (hz : e.addDuplicates = false → ∀ nb ∈ l, nb.dist ≠ 0) (hg : GrownBy g g1 s)
      (he : ∀ u v w, OutEdge g1 u v w ↔ OutEdge g u v w ∨ ∃ nb ∈ l, ∃ b, HasValue g nb.index b ∧
        ConnectsAs e dir s b g.length nb.index u v w)
      (hr : Attached e dir maxNode rest g1 g' is) : Attached e dir maxNode (s :: rest) g g' ((g.length : Int) :: is)

theorem GrownBy.value {g g' : Graph V C} {s : V} (h : GrownBy g g' s) {i : Int} {v : V} (hv : HasValue g i v) : HasValue g' i v := by
  obtain ⟨k, n, h1, h2, h3⟩ := hv
  obtain ⟨n', a1, a2, _⟩ := h.old k n h2
  exact ⟨k, n', h1, a1, a2.trans h3⟩

theorem Attached.length {e : Env V C} {dir : Dir} {maxNode : Int} {states : List V} {g g' : Graph V C} {is : List Int}
    (h : Attached e dir maxNode states g g' is) : is.length = states.length ∧ g.length ≤ g'.length ∧
      g'.length ≤ g.length + states.length := by
  induction h with
  | nil => simp
  | existing _ _ _ _ _ ih => simp only [List.length_cons]; omega
  | added _ _ hg _ _ ih => have := hg.length; simp only [List.length_cons]; omega

theorem Attached.value {e : Env V C} {dir : Dir} {maxNode : Int} {states : List V} {g g' : Graph V C} {is : List Int}
    (h : Attached e dir maxNode states g g' is) {i : Int} {v : V} (hv : HasValue g i v) : HasValue g' i v := by
  induction h with
  | nil => exact hv
  | existing _ _ _ _ _ ih => exact ih hv
  | added _ _ hg _ _ ih => exact ih (hg.value hv)

/-- The node that stands for a state holds it, or a state at distance zero. -/
theorem Attached.stands {e : Env V C} {dir : Dir} {maxNode : Int} {states : List V} {g g' : Graph V C} {is : List Int}
    (h : Attached e dir maxNode states g g' is) : ∀ i ∈ is, ∃ s ∈ states, HasValue g' i s ∨
      (e.addDuplicates = false ∧ ∃ x, HasValue g' i x ∧ dirDist e.dist dir x s = 0) := by
  induction h with
  | nil => simp
  | @existing s rest g g' is i n hd hi hn hz hr ih =>
    intro k hk
    rcases List.mem_cons.mp hk with rfl | hk
    · exact ⟨s, by simp, Or.inr ⟨hd, n.value, hr.value ⟨i, n, rfl, hn, rfl⟩, hz⟩⟩
    · obtain ⟨s', h1, h2⟩ := ih k hk
      exact ⟨s', by simp [h1], h2⟩
  | @added s rest g g1 g' is l hk hz hg he hr ih =>
    intro k hk
    rcases List.mem_cons.mp hk with rfl | hk
    · obtain ⟨n, h1, h2⟩ := hg.new
      exact ⟨s, by simp, Or.inl (hr.value ⟨g.length, n, rfl, h1, h2⟩)⟩
    · obtain ⟨s', h1, h2⟩ := ih k hk
      exact ⟨s', by simp [h1], h2⟩

/-- Edges of the extended roadmap: the old ones and connections between a new state and a roadmap state. -/
theorem Attached.edges {e : Env V C} {dir : Dir} {maxNode : Int} {states : List V} {g g' : Graph V C} {is : List Int}
    (h : Attached e dir maxNode states g g' is) (u v : Int) (w : C) (hw : OutEdge g' u v w) : OutEdge g u v w ∨
      ∃ s ∈ states, ∃ (b : V) (k i : Int), HasValue g' k s ∧ HasValue g' i b ∧ ConnectsAs e dir s b k i u v w := by
  induction h with
  | nil => exact Or.inl hw
  | existing _ _ _ _ _ ih =>
    rcases ih hw with h | ⟨s, hs, h⟩
    · exact Or.inl h
    · exact Or.inr ⟨s, by simp [hs], h⟩
  | @added s rest g g1 g' is l hk hz hg he hr ih =>
    rcases ih hw with h | ⟨s, hs, h⟩
    · rcases (he u v w).mp h with h | ⟨nb, hnb, b, hb, h⟩
      · exact Or.inl h
      · obtain ⟨n, h1, h2⟩ := hg.new
        exact Or.inr ⟨s, by simp, b, g.length, nb.index, hr.value ⟨g.length, n, rfl, h1, h2⟩, hr.value (hg.value hb), h⟩
    · exact Or.inr ⟨s, by simp [hs], h⟩

theorem connectsAs_nonneg {e : Env V C} {dir : Dir} {s b : V} {k i u v : Int} {w : C} (h : ConnectsAs e dir s b k i u v w) : 0 ≤ w := by
  unfold ConnectsAs at h
  split at h
  · rcases h with ⟨_, _, _, _, h⟩ | ⟨_, _, _, _, h⟩ <;> exact h
  · rcases h with ⟨_, _, _, _, h⟩ | ⟨_, _, _, _, h⟩ <;> exact h

/-- Adding a list of states. -/
theorem addAll_attached (e : Env V C) (hs : e.knn.Sound e.dist) (hK : 0 ≤ e.K) (hinf : e.infeasible < 0) (hth : InI64 e.threads)
    (hsym : e.symmetric = true → SymmetricFns e.valid e.dist) (dir : Dir) (maxNode : Int) (h0 : 0 ≤ maxNode) (states : List V)
    (g : Graph V C) (h1 : maxNode ≤ g.length) (hsz : InI64 (g.length + states.length)) (hv : ValidLinkage g) (g' : Graph V C)
    (r : Res (List Int)) (hr : AddAllRun graphOps e dir maxNode states g (g', r)) :
    ∃ is, r = .ok is ∧ Attached e dir maxNode states g g' is ∧ ValidLinkage g' ∧ ∀ i ∈ is, 0 ≤ i ∧ i < g'.length := by
  have node : ∀ (s : V) (g : Graph V C) (g1 : Graph V C) (r : Res Int), maxNode ≤ g.length → InI64 g.length → ValidLinkage g →
      AddNodeRun graphOps e s dir maxNode g (g1, r) →
      (∃ (i : Nat) (n : Node V C), e.addDuplicates = false ∧ g1 = g ∧ r = .ok (i : Int) ∧ (i : Int) < maxNode ∧ g[i]? = some n ∧
        dirDist e.dist dir n.value s = 0) ∨
      ∃ l, r = .ok (g.length : Int) ∧ e.knn g.length (getNode g) s e.K dir maxNode (.ok l) ∧ (e.addDuplicates = false → ∀ nb ∈ l, nb.dist ≠ 0) ∧ GrownBy g g1 s ∧ ValidLinkage g1 ∧
        ∀ u v w, OutEdge g1 u v w ↔ OutEdge g u v w ∨ ∃ nb ∈ l, ∃ b, HasValue g nb.index b ∧
          ConnectsAs e dir s b g.length nb.index u v w := by
    intro s g g1 r h1 hsz hv hr
    by_cases hsw : dir = .newToRoadmap ∧ e.symmetric = false
    · obtain ⟨rfl, hsf⟩ := hsw
      rcases addNode_cases e hs hK s _ maxNode g h0 h1 hsz hth _ hr with ⟨hd, i, n, h, a2, a3, a4⟩ | ⟨g'', l, b1, b2, hl, b3, b4, b5, b6, b7⟩
      · cases h
        exact Or.inl ⟨i, n, hd, rfl, rfl, a2, a3, a4⟩
      · cases b1
        obtain ⟨l', c1, c0, c2, c3⟩ := C40_new_state_to_roadmap_swapped e hs hK hinf hsf s maxNode g h0 h1 hsz hth g1 hr
        refine Or.inr ⟨l', rfl, c1, c0, c2, b7 hv, fun u v w => ?_⟩
        rw [c3]
        simp only [ConnectsAs, hsf, and_self, if_true]
    · rcases C40_add_node_partial e hs hK hinf s dir maxNode g h0 h1 hsz hth _ hr with ⟨hd, i, n, h, a2, a3, a4⟩ |
        ⟨g'', l, b1, b2, b3, b4, b6, b7, b8⟩
      · cases h
        exact Or.inl ⟨i, n, hd, rfl, rfl, a2, a3, a4⟩
      · cases b1
        refine Or.inr ⟨l, rfl, b2, b3, b4, b7 hv, fun u v w => ?_⟩
        rw [b8]
        · simp only [ConnectsAs, hsw, if_false]
        · intro hor
          by_cases hse : e.symmetric = true
          · exact hsym hse
          · rcases hor with h | h
            · exact absurd h hse
            · exact absurd ⟨h, by simpa using hse⟩ hsw
  induction states generalizing g r with
  | nil =>
    generalize hp : (g', r) = p at hr
    cases hr
    cases hp
    exact ⟨[], rfl, .nil, hv, by simp⟩
  | cons s states ih =>
    have hsz' : InI64 g.length := by unfold InI64 at hsz ⊢; simp only [List.length_cons, Nat.cast_add, Nat.cast_one] at hsz; omega
    generalize hp : (g', r) = p at hr
    cases hr with
    | @next _ _ _ g1 g2 i r1 hn hrest =>
      cases hp
      rcases node s g g1 _ h1 hsz' hv hn with ⟨k, n, a1, rfl, a3, a4, a5, a6⟩ | ⟨l, a1, a2, a0, a3, a4, a5⟩
      · cases a3
        obtain ⟨is, b1, b2, b3, b4⟩ := ih g1 h1 (by unfold InI64 at hsz ⊢; simp only [List.length_cons, Nat.cast_add, Nat.cast_one] at hsz; omega) hv _ hrest
        cases b1
        refine ⟨(k : Int) :: is, rfl, .existing a1 a4 a5 a6 b2, b3, ?_⟩
        intro i hi
        rcases List.mem_cons.mp hi with rfl | hi
        · have := b2.length.2.1; omega
        · exact b4 i hi
      · cases a1
        have hl := a3.length
        obtain ⟨is, b1, b2, b3, b4⟩ := ih g1 (by omega)
          (by unfold InI64 at hsz ⊢; simp only [List.length_cons, Nat.cast_add, Nat.cast_one] at hsz; omega) a4 _ hrest
        cases b1
        refine ⟨(g.length : Int) :: is, rfl, .added a2 a0 a3 a5 b2, b3, ?_⟩
        intro i hi
        rcases List.mem_cons.mp hi with rfl | hi
        · have := b2.length.2.1; omega
        · exact b4 i hi
    | throws hn =>
      cases hp
      rcases node s g _ _ h1 hsz' hv hn with ⟨k, n, _, _, a3, _⟩ | ⟨l, a1, _⟩
      · cases a3
      · cases a1
    | ub hn =>
      cases hp
      rcases node s g _ _ h1 hsz' hv hn with ⟨k, n, _, _, a3, _⟩ | ⟨l, a1, _⟩
      · cases a3
      · cases a1

theorem extract_ok [Add C] [OrderTop C] (g : Graph V C) (path : List Int) (cost : C) (h : ∀ i ∈ path, 0 ≤ i ∧ i < g.length) :
    ∃ vals, extractSolution graphOps g (path, cost) = .ok (vals, cost) ∧ List.Forall₂ (HasValue g) path vals := by
  have key : ∃ vals, path.mapM (fun i => do
      let n ← graphOps.get g i
      pure n.value) = Res.ok vals ∧ List.Forall₂ (HasValue g) path vals := by
    induction path with
    | nil => exact ⟨[], rfl, .nil⟩
    | cons i path ih =>
      obtain ⟨vals, h1, h2⟩ := ih (fun j hj => h j (by simp [hj]))
      obtain ⟨h0, hl⟩ := h i (by simp)
      obtain ⟨k, rfl⟩ := Int.eq_ofNat_of_zero_le h0
      have hk : k < g.length := by omega
      refine ⟨g[k].value :: vals, ?_, .cons ⟨k, _, rfl, List.getElem?_eq_getElem hk, rfl⟩ h2⟩
      rw [List.mapM_cons, h1]
      have : graphOps.get g (k : Int) = .ok g[k] := getNode_ok g k hk
      rw [this]
      rfl
  obtain ⟨vals, h1, h2⟩ := key
  refine ⟨vals, ?_, h2⟩
  unfold extractSolution
  rw [h1]
  rfl

/-- The edges a query searches: those with finite weight, or (lazily) those whose end states pass the check, at their
distance. -/
def QueryEdge [OrderTop C] (e : Env V C) (lazy : Bool) (g : Graph V C) (u v : Int) (w : C) : Prop :=
  if lazy then ValueEdge g e.valid e.dist u v w else FiniteEdge g u v w

variable [Add C] [OrderTop C] [CostLaws C] [Inhabited V]

/-- The query on a graph. -/
theorem query_core (e : Env V C) (hs : e.knn.Sound e.dist) (hK : 0 ≤ e.K) (hinf : e.infeasible < 0) (hth : InI64 e.threads)
    (hsym : e.symmetric = true → SymmetricFns e.valid e.dist) (lazy limit : Bool) (starts goals : List V)
    (hst : starts ≠ []) (hgo : goals ≠ []) (g : Graph V C) (hv : ValidLinkage g) (hw : ∀ u v w, OutEdge g u v w → 0 ≤ w)
    (hd : lazy = true → ∀ a b, 0 ≤ e.dist a b) (hI : InI64 (g.length + starts.length + goals.length)) (g2 : Graph V C)
    (r : Res (List V × C)) (hr : QueryRun graphOps e lazy limit starts goals g (g2, r)) :
    ∃ (g1 : Graph V C) (si gi : List Int), Attached e .newToRoadmap g.length starts g g1 si ∧
      Attached e .roadmapToNew g1.length goals g1 g2 gi ∧ ValidLinkage g2 ∧
      ((0 : C) ≠ ⊤ → (∀ a b : C, a ≠ ⊤ → b ≠ ⊤ → a + b ≠ ⊤) → (lazy = true → ∀ a b, e.dist a b ≠ ⊤) → r ≠ .throw .invalidArgument) ∧
      (r = .throw .invalidArgument ∨
      ∃ (path : List Int) (vals : List V) (cost : C), r = .ok (vals, cost) ∧ List.Forall₂ (HasValue g2) path vals ∧
        (path = [] → cost = ⊤ ∧ ∀ p c, Astar.Walk (si.map fun i => (i, (0 : C))) (QueryEdge e lazy g2) p c →
          ∀ t ∈ gi, p.getLast? ≠ some t) ∧
        (path ≠ [] → cost ≠ ⊤ ∧ (∃ s ∈ si, path.head? = some s) ∧ (∃ t ∈ gi, path.getLast? = some t) ∧
          ∃ c, Astar.Walk (si.map fun i => (i, (0 : C))) (QueryEdge e lazy g2) path c ∧ c ≤ cost) ∧
        (ValueAdmissible g2 (QueryEdge e lazy g2) gi e.dist → path ≠ [] →
          Astar.Walk (si.map fun i => (i, (0 : C))) (QueryEdge e lazy g2) path cost ∧
          ∀ p c, Astar.Walk (si.map fun i => (i, (0 : C))) (QueryEdge e lazy g2) p c → (∃ t ∈ gi, p.getLast? = some t) → cost ≤ c)) := by
  have hstart := fun g' r h => addAll_attached e hs hK hinf hth hsym .newToRoadmap g.length (by omega) starts g le_rfl
    (by unfold InI64 at hI ⊢; omega) hv g' r h
  have hgoal : ∀ (g1 : Graph V C) (si : List Int), Attached e .newToRoadmap g.length starts g g1 si → ValidLinkage g1 → ∀ g' r,
      AddAllRun graphOps e .roadmapToNew g1.length goals g1 (g', r) →
      ∃ is, r = .ok is ∧ Attached e .roadmapToNew g1.length goals g1 g' is ∧ ValidLinkage g' ∧ ∀ i ∈ is, 0 ≤ i ∧ i < g'.length :=
    fun g1 si ha hv1 g' r h => addAll_attached e hs hK hinf hth hsym .roadmapToNew g1.length (by omega) goals g1 le_rfl
      (by have := ha.length; unfold InI64 at hI ⊢; omega) hv1 g' r h
  generalize hp : (g2, r) = p at hr
  cases hr with
  | noStarts h => exact absurd h hst
  | noGoals h h' => exact absurd h' hgo
  | startsThrow _ _ h1 => obtain ⟨_, h, _⟩ := hstart _ _ h1; cases h
  | startsUb _ _ h1 => obtain ⟨_, h, _⟩ := hstart _ _ h1; cases h
  | goalsThrow _ _ h1 h2 =>
    obtain ⟨_, _, a2, a3, _⟩ := hstart _ _ h1
    obtain ⟨_, h, _⟩ := hgoal _ _ a2 a3 _ _ h2
    cases h
  | goalsUb _ _ h1 h2 =>
    obtain ⟨_, _, a2, a3, _⟩ := hstart _ _ h1
    obtain ⟨_, h, _⟩ := hgoal _ _ a2 a3 _ _ h2
    cases h
  | @searched g1 g2' si gi r0 _ _ h1 h2 hsr =>
    cases hp
    obtain ⟨_, q, a2, a3, a4⟩ := hstart _ _ h1
    cases q
    obtain ⟨_, q, b2, b3, b4⟩ := hgoal _ _ a2 a3 _ _ h2
    cases q
    refine ⟨g1, si, gi, a2, b2, b3, ?_⟩
    have hG : GraphLike g2 (graphOps.size g2) (graphOps.get g2) := graphLike_self b3
    have hw2 : ∀ u v w, OutEdge g2 u v w → 0 ≤ w := by
      intro u v w ho
      rcases b2.edges u v w ho with ho | ⟨s, _, b, k, i, _, _, hc⟩
      · rcases a2.edges u v w ho with ho | ⟨s, _, b, k, i, _, _, hc⟩
        · exact hw u v w ho
        · exact connectsAs_nonneg hc
      · exact connectsAs_nonneg hc
    -- the two searches
    have main : ∀ (valid : Edge C → Bool) (dist : Edge C → C) (hl : ValidOut g2 valid dist = QueryEdge e lazy g2)
        (hn : NonnegDist g2 dist) (hrun : LazyRun (graphOps.size g2) (graphOps.get g2) si gi valid dist
          (fun i t => e.dist (valueAt (graphOps.get g2) i) (valueAt (graphOps.get g2) t)) limit r0), ((0 : C) ≠ ⊤ → (∀ a b : C, a ≠ ⊤ → b ≠ ⊤ → a + b ≠ ⊤) → (lazy = true → ∀ a b, e.dist a b ≠ ⊤) → (do
          let sol ← r0
          extractSolution graphOps g2 sol) ≠ .throw .invalidArgument) ∧ ((do
          let sol ← r0
          extractSolution graphOps g2 sol) = .throw .invalidArgument ∨
      ∃ (path : List Int) (vals : List V) (cost : C), (do
          let sol ← r0
          extractSolution graphOps g2 sol) = .ok (vals, cost) ∧ List.Forall₂ (HasValue g2) path vals ∧
        (path = [] → cost = ⊤ ∧ ∀ p c, Astar.Walk (si.map fun i => (i, (0 : C))) (QueryEdge e lazy g2) p c →
          ∀ t ∈ gi, p.getLast? ≠ some t) ∧
        (path ≠ [] → cost ≠ ⊤ ∧ (∃ s ∈ si, path.head? = some s) ∧ (∃ t ∈ gi, path.getLast? = some t) ∧
          ∃ c, Astar.Walk (si.map fun i => (i, (0 : C))) (QueryEdge e lazy g2) path c ∧ c ≤ cost) ∧
        (ValueAdmissible g2 (QueryEdge e lazy g2) gi e.dist → path ≠ [] →
          Astar.Walk (si.map fun i => (i, (0 : C))) (QueryEdge e lazy g2) path cost ∧
          ∀ p c, Astar.Walk (si.map fun i => (i, (0 : C))) (QueryEdge e lazy g2) p c → (∃ t ∈ gi, p.getLast? = some t) → cost ≤ c)) := by
      intro valid dist hl hn hrun
      have hans : (0 : C) ≠ ⊤ → (∀ a b : C, a ≠ ⊤ → b ≠ ⊤ → a + b ≠ ⊤) → (lazy = true → ∀ a b, e.dist a b ≠ ⊤) → ∃ p, r0 = .ok p := by
        intro f0 f1 f2
        refine C23_always_answers hG hn f0 f1 ?_ ?_ ?_ hrun
        · intro u v w hw
          rw [hl] at hw
          unfold QueryEdge at hw
          split at hw
          · rename_i hlz
            obtain ⟨i, j, n, m, _, _, _, _, _, _, rfl⟩ := hw
            exact f2 hlz _ _
          · exact ne_of_lt hw.2
        · intro hnil
          have := a2.length.1
          rw [hnil] at this
          exact hst (List.length_eq_zero_iff.mp this.symm)
        · intro i hi
          rcases List.mem_append.mp hi with hi | hi
          · have := a4 i hi
            have := b2.length.2.1
            omega
          · exact b4 i hi
      rcases (C23_failures hG hn hrun).2.2 with ⟨⟨path, cost⟩, rfl⟩ | rfl
      · have hin : ∀ i ∈ path, 0 ≤ i ∧ i < g2.length := by
          by_cases hne : path = []
          · subst hne; simp
          · exact (C23_path_is_real hG hn hrun hne).2.2.2.2
        obtain ⟨vals, e1, e2⟩ := extract_ok g2 path cost hin
        refine ⟨fun _ _ _ => (by rw [Res.ok_bind, e1]; intro h; cases h), Or.inr ⟨path, vals, cost, by rw [Res.ok_bind]; exact e1, e2, ?_, ?_, ?_⟩⟩
        · rintro rfl
          rw [← hl]
          exact C23_empty_means_unreachable hG hn hrun
        · intro hne
          rw [← hl]
          obtain ⟨c1, c2, c3, c4, c5⟩ := C23_path_is_real hG hn hrun hne
          exact ⟨c2, c3, c4, c1⟩
        · intro hadm hne
          rw [← hl] at hadm ⊢
          exact C23_optimal hG hn (valueAdm_to hG (goals_inRange hrun) hadm) hrun hne
      · refine ⟨fun f0 f1 f2 => ?_, Or.inl rfl⟩
        obtain ⟨p, hp⟩ := hans f0 f1 f2
        cases hp
    unfold SearchRun at hsr
    by_cases hlz : lazy = true
    · rw [if_pos hlz] at hsr
      exact main _ _ (by rw [validOut_value hG]; unfold QueryEdge; simp [hlz])
        (nonneg_value hG (fun u v w ⟨i, j, n, m, _, _, _, _, _, _, h⟩ => (by rw [h]; exact hd hlz _ _))) hsr
    · rw [if_neg hlz] at hsr
      exact main _ _ (by rw [validOut_finite]; unfold QueryEdge; simp [hlz])
        (fun i n hn x hx => hw2 i x.dst x.weight ⟨i, n, rfl, hn, x, hx, rfl, rfl⟩) hsr

end CRU.Prm
