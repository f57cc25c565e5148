import Verif.Prm.Query
import Verif.Prm.Linear
/-
  C41 (queries) and C67: what a query answers.
-/
namespace CRU.Prm
open CRU.Graph CRU.Knn CRU.Parallel CRU.GraphSearch

section
variable {V C : Type} [LinearOrder C] [Zero C] [Add C] [OrderTop C] [Inhabited V]

/-- C41: `QueryPath` and `LazyQueryPath` leave the roadmap as it is, whatever the functions handed to them do, whether they
succeed or fail, with an overlay or with a copy. -/
theorem C41_queries_leave_roadmap (e : Env V C) (lazy limit : Bool) (starts goals : List V) (g g' : Graph V C) (useOverlay : Bool)
    (r : Res (List V × C)) (hr : QueryPathRun e lazy limit starts goals g useOverlay (g', r)) : g' = g := by
  generalize hp : (g', r) = p at hr
  cases hr with
  | overlay h =>
    cases hp
    obtain ⟨_, _, _, _, hb, _⟩ := (query_sim e lazy limit starts goals (Rel.mk' g)).1 _ _ h
    exact hb
  | copy h => cases hp; rfl

/-- C67: the variant with the overlay and the variant with the copy have the same answers: for each behaviour of one there is one of
the other with the same answer, or both throw. -/
theorem C67_overlay_agrees (e : Env V C) (lazy limit : Bool) (starts goals : List V) (g : Graph V C) (useOverlay : Bool)
    (r : Res (List V × C)) (hr : QueryPathRun e lazy limit starts goals g useOverlay (g, r)) :
    ∃ r', QueryPathRun e lazy limit starts goals g (!useOverlay) (g, r') ∧ Agree r r' := by
  generalize hp : (g, r) = p at hr
  cases hr with
  | overlay h =>
    injection hp with h1 h2
    subst h2
    obtain ⟨g', r', a, _, _, b⟩ := (query_sim e lazy limit starts goals (Rel.mk' g)).1 _ _ h
    exact ⟨r', .copy a, b⟩
  | copy h =>
    injection hp with h1 h2
    subst h2
    obtain ⟨o, r', a, _, hb, b⟩ := (query_sim e lazy limit starts goals (Rel.mk' g)).2 _ _ h
    have := QueryPathRun.overlay a
    rw [hb] at this
    exact ⟨r', this, b⟩

/-- C67: no start or no goal is an error. -/
theorem C67_empty (e : Env V C) (lazy limit : Bool) (starts goals : List V) (g : Graph V C) (useOverlay : Bool)
    (hemp : starts = [] ∨ goals = []) (g' : Graph V C) (r : Res (List V × C))
    (hr : QueryPathRun e lazy limit starts goals g useOverlay (g', r)) : r = .throw .runtimeError := by
  have key : ∀ {G : Type} (ops : GraphOps G V C) (x : G) p, QueryRun ops e lazy limit starts goals x p → p.2 = .throw .runtimeError := by
    intro G ops x p h
    cases h with
    | noStarts => rfl
    | noGoals => rfl
    | startsThrow h h' => rcases hemp with q | q; exacts [absurd q h, absurd q h']
    | startsUb h h' => rcases hemp with q | q; exacts [absurd q h, absurd q h']
    | goalsThrow h h' => rcases hemp with q | q; exacts [absurd q h, absurd q h']
    | goalsUb h h' => rcases hemp with q | q; exacts [absurd q h, absurd q h']
    | searched h h' => rcases hemp with q | q; exacts [absurd q h, absurd q h']
  generalize hp : (g', r) = p at hr
  cases hr with
  | overlay h => cases hp; exact key _ _ _ h
  | copy h => cases hp; exact key _ _ _ h

variable [CostLaws C]

/-- C67: what a query answers. The roadmap `g` is extended to `g1` by the starts and to `g2` by the goals (`si`, `gi` are their
nodes). The answer is the states of a path in `g2` from a start node to a goal node along edges of finite weight (lazily: edges
between states that pass the check, at their distance); it is empty, with infinite cost, exactly if there is no such path; its cost
is at least that of the path, and if the distance never overestimates the cost of getting to a goal, it is the cost of the path and
no path from a start to a goal is cheaper. If costs do not overflow to infinity, there is always an answer. -/
theorem C67_query (e : Env V C) (hs : e.knn.Sound e.dist) (hK : 0 ≤ e.K) (hinf : e.infeasible < 0) (hth : InI64 e.threads)
    (hsym : e.symmetric = true → SymmetricFns e.valid e.dist) (lazy limit : Bool) (starts goals : List V)
    (hst : starts ≠ []) (hgo : goals ≠ []) (g : Graph V C) (hv : ValidLinkage g) (hw : ∀ u v w, OutEdge g u v w → 0 ≤ w)
    (hd : lazy = true → ∀ a b, 0 ≤ e.dist a b) (hI : InI64 (g.length + starts.length + goals.length)) (useOverlay : Bool)
    (g' : Graph V C) (r : Res (List V × C)) (hr : QueryPathRun e lazy limit starts goals g useOverlay (g', r)) :
    ∃ (g1 g2 : Graph V C) (si gi : List Int), Attached e .newToRoadmap g.length starts g g1 si ∧
      Attached e .roadmapToNew g1.length goals g1 g2 gi ∧ ValidLinkage g2 ∧
      ((0 : C) ≠ ⊤ → (∀ a b : C, a ≠ ⊤ → b ≠ ⊤ → a + b ≠ ⊤) → (lazy = true → ∀ a b, e.dist a b ≠ ⊤) → ∃ x, r = .ok x) ∧
      ((∃ x, r = .throw x) ∨
      ∃ (path : List Int) (vals : List V) (cost : C), r = .ok (vals, cost) ∧ List.Forall₂ (HasValue g2) path vals ∧
        (path = [] ↔ ∀ p c, Astar.Walk (si.map fun i => (i, (0 : C))) (QueryEdge e lazy g2) p c →
          ∀ t ∈ gi, p.getLast? ≠ some t) ∧
        (path = [] ↔ cost = ⊤) ∧
        (path ≠ [] → (∃ s ∈ si, path.head? = some s) ∧ (∃ t ∈ gi, path.getLast? = some t) ∧
          ∃ c, Astar.Walk (si.map fun i => (i, (0 : C))) (QueryEdge e lazy g2) path c ∧ c ≤ cost) ∧
        (ValueAdmissible g2 (QueryEdge e lazy g2) gi e.dist → path ≠ [] →
          Astar.Walk (si.map fun i => (i, (0 : C))) (QueryEdge e lazy g2) path cost ∧
          ∀ p c, Astar.Walk (si.map fun i => (i, (0 : C))) (QueryEdge e lazy g2) p c → (∃ t ∈ gi, p.getLast? = some t) → cost ≤ c)) := by
  obtain ⟨g2, r', hq, hag⟩ : ∃ g2 r', QueryRun graphOps e lazy limit starts goals g (g2, r') ∧ Agree r' r := by
    generalize hp : (g', r) = p at hr
    cases hr with
    | overlay h =>
      cases hp
      obtain ⟨g2, r', a, _, _, b⟩ := (query_sim e lazy limit starts goals (Rel.mk' g)).1 _ _ h
      exact ⟨g2, r', a, b.symm⟩
    | copy h => cases hp; exact ⟨_, _, h, Or.inl rfl⟩
  obtain ⟨g1, si, gi, h1, h2, h3, h4, h5⟩ := query_core e hs hK hinf hth hsym lazy limit starts goals hst hgo g hv hw hd hI g2 r' hq
  refine ⟨g1, g2, si, gi, h1, h2, h3, ?_, ?_⟩
  · intro f0 f1 f2
    rcases h5 with h5 | ⟨path, vals, cost, rfl, _⟩
    · exact absurd h5 (h4 f0 f1 f2)
    · exact ⟨_, hag.of_ok⟩
  · rcases h5 with rfl | ⟨path, vals, cost, rfl, c1, c2, c3, c4⟩
    · exact Or.inl hag.of_throw
    · refine Or.inr ⟨path, vals, cost, hag.of_ok, c1, ⟨fun h => (c2 h).2, fun h => ?_⟩, ⟨fun h => (c2 h).1, fun h => ?_⟩,
        fun h => (c3 h).2, c4⟩
      · by_contra hne
        obtain ⟨_, _, ⟨t, ht, htl⟩, c, hwk, _⟩ := c3 hne
        exact h _ _ hwk t ht htl
      · by_contra hne
        exact (c3 hne).1 h

/-! ### The answer as a path of states -/

/-- The length of a path of states, added up from the start. -/
def pathLength (dist : V → V → C) (path : List V) : C := (path.zip path.tail).foldl (fun c p => c + dist p.1 p.2) 0

omit [LinearOrder C] [OrderTop C] [Inhabited V] [CostLaws C] in
theorem pathLength_snoc (dist : V → V → C) (l : List V) (a b : V) :
    pathLength dist (l ++ [a] ++ [b]) = pathLength dist (l ++ [a]) + dist a b := by
  have hz : ∀ l : List V, (l ++ [a] ++ [b]).zip (l ++ [a] ++ [b]).tail = (l ++ [a]).zip (l ++ [a]).tail ++ [(a, b)] := by
    intro l
    induction l with
    | nil => rfl
    | cons x l ih =>
      cases l with
      | nil => rfl
      | cons y l => simpa using ih
  unfold pathLength
  rw [hz, List.foldl_append]
  rfl

omit [LinearOrder C] [Zero C] [Add C] [OrderTop C] [Inhabited V] [CostLaws C] in
theorem HasValue.unique {g : Graph V C} {i : Int} {a b : V} (ha : HasValue g i a) (hb : HasValue g i b) : a = b := by
  obtain ⟨k, n, rfl, h1, rfl⟩ := ha
  obtain ⟨k', n', h2, h3, rfl⟩ := hb
  obtain rfl : k = k' := by exact_mod_cast h2
  rw [h1] at h3
  cases h3
  rfl

theorem forall₂_snoc {α β : Type} {R : α → β → Prop} {l : List α} {s : α} {v : List β} (h : List.Forall₂ R (l ++ [s]) v) :
    ∃ v1 b, v = v1 ++ [b] ∧ List.Forall₂ R l v1 ∧ R s b := by
  induction l generalizing v with
  | nil =>
    cases h with
    | cons h1 h2 => cases h2; exact ⟨[], _, rfl, .nil, h1⟩
  | cons x l ih =>
    cases h with
    | cons h1 h2 =>
      obtain ⟨v1, b, rfl, a, c⟩ := ih h2
      exact ⟨_ :: v1, b, rfl, .cons h1 a, c⟩

omit [LinearOrder C] [OrderTop C] [Inhabited V] [CostLaws C] in
/-- A walk along edges that were checked in their direction and carry their distance, seen as states. -/
theorem walk_states {g : Graph V C} {valid : V → V → Bool} {dist : V → V → C} {edge : Int → Int → C → Prop} {si : List Int}
    (hedge : ∀ u v w, edge u v w → ∃ a b, HasValue g u a ∧ HasValue g v b ∧ Checked valid dist a b w) {path : List Int} {c : C}
    (h : Astar.Walk (si.map fun i => (i, (0 : C))) edge path c) (vals : List V) (hv : List.Forall₂ (HasValue g) path vals) :
    vals.IsChain (fun a b => valid a b = true) ∧ c = pathLength dist vals := by
  induction h generalizing vals with
  | @start s c hs =>
    obtain ⟨i, _, hi⟩ := List.mem_map.mp hs
    cases hi
    cases hv with
    | cons h1 h2 => cases h2; exact ⟨.singleton _, rfl⟩
  | @step l s t c w hwalk he ih =>
    obtain ⟨v1, b, rfl, h1, h2⟩ := forall₂_snoc hv
    obtain ⟨i1, i2⟩ := ih v1 h1
    obtain ⟨v2, a, rfl, _, h4⟩ := forall₂_snoc h1
    obtain ⟨a', b', q1, q2, q3, q4⟩ := hedge _ _ _ he
    obtain rfl := q1.unique h4
    obtain rfl := q2.unique h2
    refine ⟨?_, by rw [pathLength_snoc, ← i2, q4]⟩
    rw [List.isChain_append]
    refine ⟨i1, .singleton _, ?_⟩
    intro x hx y hy
    rw [List.getLast?_append, List.getLast?_singleton] at hx
    simp at hx hy
    subst hx; subst hy
    exact q3

/-- The state stands for one of the given states: it is one of them, or (if duplicates are not wanted) at distance zero. -/
def StandsFor (e : Env V C) (dir : Dir) (states : List V) (x : V) : Prop :=
  x ∈ states ∨ (e.addDuplicates = false ∧ ∃ s ∈ states, dirDist e.dist dir x s = 0)

omit [Add C] [OrderTop C] [Inhabited V] [CostLaws C] in
theorem Attached.standsFor {e : Env V C} {dir : Dir} {maxNode : Int} {states : List V} {g g' : Graph V C} {is : List Int}
    (h : Attached e dir maxNode states g g' is) {i : Int} (hi : i ∈ is) {x : V} (hx : HasValue g' i x) : StandsFor e dir states x := by
  obtain ⟨s, h1, h2 | ⟨h2, y, h3, h4⟩⟩ := h.stands i hi
  · obtain rfl := hx.unique h2; exact Or.inl h1
  · obtain rfl := hx.unique h3; exact Or.inr ⟨h2, s, h1, h4⟩

omit [Add C] [OrderTop C] [Inhabited V] [CostLaws C] in
theorem connectsAs_symm {e : Env V C} (hsy : SymmetricFns e.valid e.dist) {dir : Dir} {s b : V} {k i u v : Int} {w : C}
    (h : ConnectsAs e dir s b k i u v w) : Connects e.valid e.dist s b k i u v w := by
  unfold ConnectsAs at h
  split at h
  · unfold ConnectsSwapped at h
    unfold Connects
    rw [(hsy b s).1, (hsy b s).2]
    rwa [(hsy b s).1] at h
  · exact h

omit [Add C] [Inhabited V] [CostLaws C] in
/-- The edges a query searches were checked in their direction and carry their distance. -/
theorem queryEdge_checked {e : Env V C} {lazy : Bool} {starts goals : List V} {g g1 g2 : Graph V C} {si gi : List Int}
    {m1 m2 : Int} (h1 : Attached e .newToRoadmap m1 starts g g1 si) (h2 : Attached e .roadmapToNew m2 goals g1 g2 gi)
    (hc : lazy = false → SymmetricFns e.valid e.dist ∧
      ∀ u v w, FiniteEdge g u v w → ∃ a b, HasValue g u a ∧ HasValue g v b ∧ Checked e.valid e.dist a b w)
    (u v : Int) (w : C) (h : QueryEdge e lazy g2 u v w) : ∃ a b, HasValue g2 u a ∧ HasValue g2 v b ∧ Checked e.valid e.dist a b w := by
  unfold QueryEdge at h
  split at h
  · obtain ⟨i, j, n, m, rfl, rfl, a1, a2, _, a3, a4⟩ := h
    exact ⟨n.value, m.value, ⟨i, n, rfl, a1, rfl⟩, ⟨j, m, rfl, a2, rfl⟩, a3, a4⟩
  · rename_i hl
    obtain ⟨hsy, hg⟩ := hc (by simpa using hl)
    have conn : ∀ {dir s b k i}, HasValue g2 k s → HasValue g2 i b → ConnectsAs e dir s b k i u v w →
        ∃ a b, HasValue g2 u a ∧ HasValue g2 v b ∧ Checked e.valid e.dist a b w := by
      intro dir s b k i hk hi hcn
      rcases connectsAs_symm hsy hcn with ⟨rfl, rfl, x1, x2, _⟩ | ⟨rfl, rfl, x1, x2, _⟩
      · exact ⟨b, s, hi, hk, x1, x2⟩
      · exact ⟨s, b, hk, hi, x1, x2⟩
    rcases h2.edges u v w h.1 with ho | ⟨s, _, b, k, i, y1, y2, y3⟩
    · rcases h1.edges u v w ho with ho | ⟨s, _, b, k, i, y1, y2, y3⟩
      · obtain ⟨a, b, z1, z2, z3⟩ := hg u v w ⟨ho, h.2⟩
        exact ⟨a, b, h2.value (h1.value z1), h2.value (h1.value z2), z3⟩
      · exact conn (h2.value y1) (h2.value y2) y3
    · exact conn y1 y2 y3

/-- C67: an answer is empty (with infinite cost) or a path of states that begins with one that stands for a start, ends with
one that stands for a goal, and each of whose edges passes the check in its direction; its length is at most the cost, and equal
to it if the distance never overestimates. For `QueryPath` this needs a roadmap whose edges of finite weight were checked, and
symmetric functions: see `C67_false` for what happens otherwise. -/
theorem C67_answer_partial (e : Env V C) (hs : e.knn.Sound e.dist) (hK : 0 ≤ e.K) (hinf : e.infeasible < 0) (hth : InI64 e.threads)
    (hsym : e.symmetric = true → SymmetricFns e.valid e.dist) (lazy limit : Bool) (starts goals : List V)
    (hst : starts ≠ []) (hgo : goals ≠ []) (g : Graph V C) (hv : ValidLinkage g) (hw : ∀ u v w, OutEdge g u v w → 0 ≤ w)
    (hd : lazy = true → ∀ a b, 0 ≤ e.dist a b) (hI : InI64 (g.length + starts.length + goals.length))
    (hc : lazy = false → SymmetricFns e.valid e.dist ∧
      ∀ u v w, FiniteEdge g u v w → ∃ a b, HasValue g u a ∧ HasValue g v b ∧ Checked e.valid e.dist a b w) (useOverlay : Bool)
    (g' : Graph V C) (vals : List V) (cost : C)
    (hr : QueryPathRun e lazy limit starts goals g useOverlay (g', .ok (vals, cost))) :
    (vals = [] ↔ cost = ⊤) ∧
    (vals ≠ [] → (∃ s, vals.head? = some s ∧ StandsFor e .newToRoadmap starts s) ∧
      (∃ t, vals.getLast? = some t ∧ StandsFor e .roadmapToNew goals t) ∧
      vals.IsChain (fun a b => e.valid a b = true) ∧ pathLength e.dist vals ≤ cost) := by
  obtain ⟨g1, g2, si, gi, h1, h2, h3, _, h5⟩ := C67_query e hs hK hinf hth hsym lazy limit starts goals hst hgo g hv hw hd hI
    useOverlay g' _ hr
  rcases h5 with ⟨x, hx⟩ | ⟨path, vals', cost', heq, hval, hemp, htop, hne, _⟩
  · cases hx
  · cases heq
    have hpv : path = [] ↔ vals = [] := by
      have := hval.length_eq
      rw [← List.length_eq_zero_iff, ← List.length_eq_zero_iff, this]
    refine ⟨hpv.symm.trans htop, fun hvn => ?_⟩
    obtain ⟨⟨s, hs1, hs2⟩, ⟨t, ht1, ht2⟩, c, hwk, hle⟩ := hne (fun h => hvn (hpv.mp h))
    obtain ⟨w1, w2⟩ := walk_states (queryEdge_checked h1 h2 hc) hwk vals hval
    refine ⟨?_, ?_, w1, w2 ▸ hle⟩
    · cases hval with
      | nil => cases hs2
      | cons a _ =>
        simp only [List.head?_cons, Option.some.injEq] at hs2
        subst hs2
        refine ⟨_, rfl, ?_⟩
        obtain ⟨s', q1, q2 | ⟨q2, y, q3, q4⟩⟩ := h1.stands _ hs1
        · obtain rfl := a.unique (h2.value q2); exact Or.inl q1
        · obtain rfl := a.unique (h2.value q3); exact Or.inr ⟨q2, s', q1, q4⟩
    · obtain ⟨l, rfl⟩ : ∃ l, path = l ++ [t] := by
        rw [List.getLast?_eq_some_iff] at ht2
        exact ht2
      obtain ⟨v1, b, rfl, _, q⟩ := forall₂_snoc hval
      exact ⟨b, by simp, h2.standsFor ht1 q⟩

end

/-! ### Metrics are admissible -/

section
variable {V C : Type} [LinearOrder C] [AddCommMonoid C] [IsOrderedAddMonoid C] [OrderTop C] [Inhabited V]

omit [OrderTop C] [Inhabited V] in
theorem walk_triangle {g : Graph V C} {dist : V → V → C} (hzero : ∀ a, dist a a = 0) (htri : ∀ a b c, dist a c ≤ dist a b + dist b c)
    {edge : Int → Int → C → Prop} (hedge : ∀ u v w, edge u v w → ∃ a b, HasValue g u a ∧ HasValue g v b ∧ dist a b ≤ w)
    {i : Int} {x : C} {a : V} (ha : HasValue g i a) {path : List Int} {c : C} (h : Astar.Walk [(i, x)] edge path c) (t : Int)
    (ht : path.getLast? = some t) : ∀ b, HasValue g t b → x + dist a b ≤ c := by
  induction h generalizing t with
  | @start s c hs =>
    simp only [List.mem_singleton, Prod.mk.injEq] at hs
    obtain ⟨rfl, rfl⟩ := hs
    simp only [List.getLast?_singleton, Option.some.injEq] at ht
    subst ht
    intro b hb
    obtain rfl := ha.unique hb
    rw [hzero, add_zero]
  | @step l s t' c w hwalk he ih =>
    simp only [List.getLast?_append, List.getLast?_singleton, Option.some_or, Option.some.injEq] at ht
    subst ht
    intro b hb
    obtain ⟨a', b', h1, h2, h3⟩ := hedge _ _ _ he
    obtain rfl := hb.unique h2
    have := ih s (by simp) a' h1
    calc x + dist a b ≤ x + (dist a a' + dist a' b) := by gcongr; exact htri _ _ _
      _ = (x + dist a a') + dist a' b := (add_assoc _ _ _).symm
      _ ≤ c + w := by gcongr

/-- C67: in exact arithmetic, if the distance is non-negative, zero from a state to itself and satisfies the triangle inequality, and
the roadmap's edges were checked (for `QueryPath`: and the functions are symmetric), the answer is a shortest path: its cost is its
length, and no path of the extended roadmap from a start to a goal is shorter. -/
theorem C67_shortest_partial (e : Env V C) (hs : e.knn.Sound e.dist) (hK : 0 ≤ e.K) (hinf : e.infeasible < 0) (hth : InI64 e.threads)
    (hsym : e.symmetric = true → SymmetricFns e.valid e.dist) (lazy limit : Bool) (starts goals : List V)
    (hst : starts ≠ []) (hgo : goals ≠ []) (g : Graph V C) (hv : ValidLinkage g) (hw : ∀ u v w, OutEdge g u v w → 0 ≤ w)
    (hI : InI64 (g.length + starts.length + goals.length))
    (hd : ∀ a b, 0 ≤ e.dist a b) (hzero : ∀ a, e.dist a a = 0) (htri : ∀ a b c, e.dist a c ≤ e.dist a b + e.dist b c)
    (hc : lazy = false → SymmetricFns e.valid e.dist ∧
      ∀ u v w, FiniteEdge g u v w → ∃ a b, HasValue g u a ∧ HasValue g v b ∧ Checked e.valid e.dist a b w) (useOverlay : Bool)
    (g' : Graph V C) (vals : List V) (cost : C)
    (hr : QueryPathRun e lazy limit starts goals g useOverlay (g', .ok (vals, cost))) :
    ∃ (g1 g2 : Graph V C) (si gi : List Int), Attached e .newToRoadmap g.length starts g g1 si ∧
      Attached e .roadmapToNew g1.length goals g1 g2 gi ∧
      (vals ≠ [] → cost = pathLength e.dist vals) ∧
      ∀ (p : List Int) (xs : List V), p ≠ [] → List.Forall₂ (HasValue g2) p xs → (∃ s ∈ si, p.head? = some s) →
        (∃ t ∈ gi, p.getLast? = some t) → p.IsChain (fun u v => ∃ w, QueryEdge e lazy g2 u v w) → cost ≤ pathLength e.dist xs := by
  obtain ⟨g1, g2, si, gi, h1, h2, h3, _, h5⟩ := C67_query e hs hK hinf hth hsym lazy limit starts goals hst hgo g hv hw (fun _ => hd) hI
    useOverlay g' _ hr
  refine ⟨g1, g2, si, gi, h1, h2, ?_⟩
  rcases h5 with ⟨x, hx⟩ | ⟨path, vals', cost', heq, hval, hemp, htop, hne, hopt⟩
  · cases hx
  cases heq
  have hck := queryEdge_checked h1 h2 hc
  have hpv : path = [] ↔ vals = [] := by
    have := hval.length_eq
    rw [← List.length_eq_zero_iff, ← List.length_eq_zero_iff, this]
  have hadm : ValueAdmissible g2 (QueryEdge e lazy g2) gi e.dist := by
    refine ⟨hd, fun i j n m hn hj hm x p c hx hwk hl => ?_⟩
    refine walk_triangle (a := n.value) hzero htri (fun u v w h => ?_) ⟨i, n, rfl, hn, rfl⟩ hwk j hl m.value ⟨j, m, rfl, hm, rfl⟩
    obtain ⟨a, b, q1, q2, q3⟩ := hck u v w h
    exact ⟨a, b, q1, q2, le_of_eq q3.2.symm⟩
  refine ⟨fun hvn => (walk_states hck (hopt hadm (fun h => hvn (hpv.mp h))).1 vals hval).2, ?_⟩
  intro p xs hpn hpx hps hpt hpc
  -- the path is a walk
  have hwalk : ∀ p : List Int, p ≠ [] → (∃ s ∈ si, p.head? = some s) → p.IsChain (fun u v => ∃ w, QueryEdge e lazy g2 u v w) →
      ∃ c, Astar.Walk (si.map fun i => (i, (0 : C))) (QueryEdge e lazy g2) p c := by
    intro p
    induction p using List.reverseRecOn with
    | nil => intro h; exact absurd rfl h
    | append_singleton l t ih =>
      intro _ hh hcn
      cases hl : l using List.reverseRecOn with
      | nil =>
        subst hl
        obtain ⟨s, q1, q2⟩ := hh
        simp at q2
        subst q2
        exact ⟨0, .start (List.mem_map.mpr ⟨_, q1, rfl⟩)⟩
      | append_singleton l' s =>
        subst hl
        rw [List.isChain_append] at hcn
        obtain ⟨c, hcw⟩ := ih (by simp) (by
          obtain ⟨s0, q1, q2⟩ := hh
          refine ⟨s0, q1, ?_⟩
          rw [List.head?_append_of_ne_nil _ (by simp)] at q2
          exact q2) hcn.1
        obtain ⟨w, hw'⟩ := hcn.2.2 s (by simp) t (by simp)
        exact ⟨c + w, .step hcw hw'⟩
  obtain ⟨c, hcw⟩ := hwalk p hpn hps hpc
  obtain ⟨_, hlen⟩ := walk_states hck hcw xs hpx
  rw [← hlen]
  by_cases hpe : path = []
  · obtain ⟨t, q1, q2⟩ := hpt
    exact absurd q2 (hemp.mp hpe p c hcw t q1)
  · exact (hopt hadm hpe).2 p c hcw hpt

end
end CRU.Prm
