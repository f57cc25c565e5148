import Verif.GraphSearch.Dijkstra
import Verif.Astar.Props
import Verif.Graph.Props
import Verif.Serialization.Props
/-
  C22, C23: Dijkstra's algorithm and A* on graphs.
-/
namespace CRU.GraphSearch
open CRU.Graph CRU.Parallel
set_option linter.unusedSectionVars false

variable {V C : Type} [LinearOrder C] [Add C] [Zero C] [OrderTop C] [CostLaws C]

/-- A graph gives access to itself. -/
theorem access_self (g : Graph V C) : Access g g.length (getNode g) := by
  refine ⟨rfl, fun i n h => ?_⟩
  obtain ⟨hlt, rfl⟩ := List.getElem?_eq_some_iff.mp h
  exact getNode_ok g i hlt

/-- An overlay gives access to the graph it stands for. -/
theorem access_overlay {g : Graph V C} {o : Overlay V C} (h : Rel o g) : Access g o.size o.get := by
  refine ⟨h.size, fun i n hi => ?_⟩
  obtain ⟨hlt, rfl⟩ := List.getElem?_eq_some_iff.mp hi
  rw [h.get, getNode_ok g i hlt]

/-! ### C22 -/

theorem pos_inRange {n : Nat} {i : Int} : indexInRange n i = true ↔ Pos n i := by
  unfold indexInRange Pos
  simp

theorem back_path {g : Graph V C} {start : Int} {st : DSt C} (h : DInv g start st) {v : Int} {l : List Int}
    (hb : Back g st start v l) : PathTo (InEdge g) start v l (st.D v) ∧ Follows st.prev start v l := by
  induction hb with
  | here h0 => rw [h0]; exact ⟨.here, .here⟩
  | step hne hv hp he hd _ ih =>
    refine ⟨by rw [hd]; exact .step ih.1 he, .step hne ?_ ih.2⟩
    rw [atInt_pos (by rw [h.lenP]; exact hv) (-1)]
    exact congrArg _ hp

/-- C22 for any graph type: whatever the tie-breaking, the call succeeds, and the result gives every node the minimal cost
of a path to `start`, infinity if there is none; a node with finite distance reaches the start by following the
previous-index map, along edges, at exactly the reported distance; the start is its own predecessor; a node whose
predecessor is -1 has infinite distance. -/
theorem C22_dijkstra {g : Graph V C} {size : Int} {get : Int → Res (Node V C)} (ha : Access g size get)
    (hlink : ValidLinkage g) (hnn : ∀ (i : Nat) (n : Node V C), g[i]? = some n → ∀ e ∈ n.ins, 0 ≤ e.weight) {start : Int}
    (hs : 0 ≤ start ∧ start < g.length) {r : Res (List Int × List C)} (hr : DijkstraRun size get start r) :
    ∃ prev dist, r = .ok (prev, dist) ∧ prev.length = g.length ∧ dist.length = g.length ∧
      atInt prev start = .ok start ∧ atInt dist start = .ok 0 ∧
      ∀ v : Int, 0 ≤ v → v < g.length → ∃ d p, atInt dist v = .ok d ∧ atInt prev v = .ok p ∧
        (∀ path c, PathTo (InEdge g) start v path c → d ≤ c) ∧
        (p = -1 → d = ⊤) ∧
        (p ≠ -1 → ∃ path, PathTo (InEdge g) start v path d ∧ Follows prev start v path) := by
  have hg : Good g := ⟨hlink, hnn⟩
  have hsz := ha.1
  subst hsz
  have hin : indexInRange (g.length : Int) start = true := pos_inRange.mpr hs
  cases hr with
  | badStart h => rw [hin] at h; cases h
  | throws h hr hp hv =>
    obtain ⟨st', e1, _⟩ := visit_inv hg ha ((full_init start hs).steps hg ha hr) hp
    rw [hv] at e1; cases e1
  | ub h hr hp hv =>
    obtain ⟨st', e1, _⟩ := visit_inv hg ha ((full_init start hs).steps hg ha hr) hp
    rw [hv] at e1; cases e1
  | @done st h hr hq =>
    have hF := (full_init start hs).steps hg ha hr
    have hI := hF.inv
    refine ⟨st.prev, st.dist, by unfold mkDijkstra; rw [if_neg (by rw [hI.lenP, hI.lenD]; simp)], hI.lenP, hI.lenD, ?_, ?_, ?_⟩
    · rw [atInt_pos (by rw [hI.lenP]; exact hs) (-1)]; exact congrArg _ hI.startP
    · rw [atInt_pos (by rw [hI.lenD]; exact hs) ⊤]; exact congrArg _ hI.startD
    · intro v h0 h1
      have hv : Pos g.length v := ⟨h0, h1⟩
      refine ⟨st.D v, st.P v, atInt_pos (by rw [hI.lenD]; exact hv) ⊤, atInt_pos (by rw [hI.lenP]; exact hv) (-1), ?_,
        hI.unseen v hv, ?_⟩
      · intro path c hp
        clear h0 h1 hv
        have hexp : ∀ u, Pos g.length u → st.P u ≠ -1 → u ∈ st.explored := by
          intro u hu hpu
          by_contra hc
          have := hI.waiting u hu hpu hc
          rw [hq] at this
          simp at this
        have gen : Pos g.length v ∧ st.D v ≤ c := by
          induction hp with
          | here => exact ⟨hs, le_of_eq hI.startD⟩
          | @step v u path c w hp' he ih =>
            obtain ⟨hu, hle⟩ := ih
            obtain ⟨hvp, _, hw⟩ := hg.pos he
            refine ⟨hvp, ?_⟩
            by_cases hpu : st.P u = -1
            · have htop : c = ⊤ := top_le_iff.mp (by rw [← hI.unseen u hu hpu]; exact hle)
              have : (⊤ : C) ≤ c + w := by rw [htop]; exact CostLaws.le_add _ _ hw
              exact le_trans le_top this
            · exact le_trans (hF.relaxed u (hexp u hu hpu) v w he) (CostLaws.add_le_add_right _ _ _ hle)
        exact gen.2
      · intro hp
        obtain ⟨l, hb, _⟩ := hI.path v hv hp
        exact ⟨l, back_path hI hb⟩

/-- C22: an out-of-range start throws. -/
theorem C22_bad_start {size : Int} {get : Int → Res (Node V C)} {start : Int} (hs : ¬ (0 ≤ start ∧ start < size))
    {r : Res (List Int × List C)} (hr : DijkstraRun size get start r) : r = .throw .invalidArgument := by
  have : indexInRange size start = false := by
    unfold indexInRange
    rw [Bool.eq_false_iff]
    simpa using hs
  cases hr with
  | badStart => rfl
  | done h => rw [this] at h; cases h
  | throws h => rw [this] at h; cases h
  | ub h => rw [this] at h; cases h

/-- C22: the loop terminates under every tie-breaking, and a run exists. -/
theorem C22_terminates {g : Graph V C} {size : Int} {get : Int → Res (Node V C)} (ha : Access g size get)
    (hlink : ValidLinkage g) (hnn : ∀ (i : Nat) (n : Node V C), g[i]? = some n → ∀ e ∈ n.ins, 0 ≤ e.weight) (start : Int) :
    (∃ r, DijkstraRun size get start r) ∧
    (indexInRange size start = true → ¬ ∃ f : Nat → DSt C, f 0 = dinit size start ∧ ∀ n, DStep get (f n) (f (n + 1))) := by
  have hg : Good g := ⟨hlink, hnn⟩
  have hsz := ha.1
  subst hsz
  constructor
  · cases hin : indexInRange (g.length : Int) start with
    | false => exact ⟨_, .badStart hin⟩
    | true =>
      have hF := full_init (C := C) start (pos_inRange.mp hin)
      have hacc := dsteps_acc hg ha hF
      have : ∀ st0, Acc (fun b a => DStep get a b) st0 → Full g start st0 → ∃ st, DSteps get st0 st ∧ st.queue = [] := by
        intro st0 hacc
        induction hacc with
        | intro st _ ih =>
          intro hF
          by_cases hq : st.queue = []
          · exact ⟨st, .refl _, hq⟩
          · obtain ⟨top, rest, hp⟩ : ∃ top rest, DPop st.queue top rest := by
              obtain ⟨t, rest, h1, h2⟩ := Astar.exists_pop (st.queue.map fun x => (⟨x.1, none, x.2, x.2⟩ : Astar.Elem Int C))
                (by simpa using hq)
              have := h1.map (fun e : Astar.Elem Int C => (e.state, e.value))
              rw [List.map_map] at this
              have hid : ((fun e : Astar.Elem Int C => (e.state, e.value)) ∘ fun x : Int × C => ⟨x.1, none, x.2, x.2⟩) = id := by
                funext x; rfl
              rw [hid, List.map_id, List.map_cons] at this
              refine ⟨_, _, this, ?_⟩
              intro x hx
              obtain ⟨e, he, rfl⟩ := List.mem_map.mp hx
              exact h2 e he
            obtain ⟨st', e1, e2, _⟩ := visit_inv hg ha hF hp
            obtain ⟨st2, s1, s2⟩ := ih st' (.mk hp e1) e2
            exact ⟨st2, .step (.mk hp e1) s1, s2⟩
      obtain ⟨st, h1, h2⟩ := this _ hacc hF
      exact ⟨_, .done hin h1 h2⟩
  · rintro hin ⟨f, h0, hs⟩
    have hacc := dsteps_acc hg ha (full_init (C := C) start (pos_inRange.mp hin))
    have : ∀ st, Acc (fun b a => DStep get a b) st → ∀ n, f n = st → False := by
      intro st h
      induction h with
      | intro st _ ih => intro n hn; exact ih (f (n + 1)) (hn ▸ hs n) (n + 1) rfl
    exact this _ hacc 0 h0

theorem inEdge_iff_outEdge {g : Graph V C} (h : Mirrored g) (u v : Int) (w : C) : InEdge g u v w ↔ OutEdge g u v w := by
  constructor
  · rintro ⟨i, n, rfl, hn, e, he, rfl, rfl⟩
    obtain ⟨hd, j, hj, hne, hlt⟩ := (h.1 i n hn).1 e he
    have hm := h.2 j i g[j] n (List.getElem?_eq_getElem hlt) hn
    have : e ∈ n.ins.filter (fun e => e.src = (j : Int)) := by simp [he, hj]
    rw [← hm] at this
    exact ⟨j, g[j], hj, List.getElem?_eq_getElem hlt, e, (List.mem_filter.mp this).1, hd, rfl⟩
  · rintro ⟨i, n, rfl, hn, e, he, rfl, rfl⟩
    obtain ⟨hd, j, hj, hne, hlt⟩ := (h.1 i n hn).2 e he
    have hm := h.2 i j n g[j] hn (List.getElem?_eq_getElem hlt)
    have : e ∈ n.outs.filter (fun e => e.dst = (j : Int)) := by simp [he, hj]
    rw [hm] at this
    exact ⟨j, g[j], hj, List.getElem?_eq_getElem hlt, e, (List.mem_filter.mp this).1, hd, rfl⟩

/-- C22 for graphs built through the API (whose in- and out-edge lists mirror each other, C58): distances are minimal over
paths along *outgoing* edges towards the start. -/
theorem C22_dijkstra_mirrored {g : Graph V C} {size : Int} {get : Int → Res (Node V C)} (ha : Access g size get)
    (hm : Mirrored g) (hnn : ∀ u v w, OutEdge g u v w → 0 ≤ w) {start : Int} (hs : 0 ≤ start ∧ start < g.length)
    {r : Res (List Int × List C)} (hr : DijkstraRun size get start r) :
    ∃ prev dist, r = .ok (prev, dist) ∧ ∀ v : Int, 0 ≤ v → v < g.length → ∃ d, atInt dist v = .ok d ∧
      (∀ path c, PathTo (OutEdge g) start v path c → d ≤ c) ∧
      (d ≠ ⊤ → ∃ path, PathTo (OutEdge g) start v path d ∧ Follows prev start v path) := by
  have hio : InEdge g = OutEdge g := by
    funext u v w; exact propext (inEdge_iff_outEdge hm u v w)
  obtain ⟨prev, dist, h1, _, _, _, _, h2⟩ := C22_dijkstra ha hm.validLinkage
    (fun i n hn e he => hnn e.src i e.weight ((inEdge_iff_outEdge hm _ _ _).mp ⟨i, n, rfl, hn, e, he, rfl, rfl⟩)) hs hr
  refine ⟨prev, dist, h1, fun v h0 h1 => ?_⟩
  obtain ⟨d, p, a1, a2, a3, a4, a5⟩ := h2 v h0 h1
  rw [hio] at a3 a5
  exact ⟨d, a1, a3, fun hd => a5 (fun hp => hd (a4 hp))⟩

/-! ### C23 -/

/-- Valid graph edge: an out-edge that passes the check, with the distance function's value. -/
def ValidOut (g : Graph V C) (valid : Edge C → Bool) (dist : Edge C → C) (u v : Int) (w : C) : Prop :=
  ∃ (i : Nat) (n : Node V C), u = i ∧ g[i]? = some n ∧ ∃ e ∈ n.outs, e.dst = v ∧ valid e = true ∧ w = dist e

/-- The distance function is non-negative on edges of the graph. -/
def NonnegDist (g : Graph V C) (dist : Edge C → C) : Prop :=
  ∀ (i : Nat) (n : Node V C), g[i]? = some n → ∀ e ∈ n.outs, 0 ≤ dist e

theorem expand_ok {g : Graph V C} {size : Int} {get : Int → Res (Node V C)} (ha : Access g size get)
    (hout : ∀ i, ¬ (0 ≤ i ∧ i < size) → get i = .throw .outOfRange)
    (goal : Int → Bool) (valid : Edge C → Bool) (dist : Edge C → C) (h : Int → C) (limit : Bool) (u v : Int) (w : C) :
    Astar.PEdge (graphProblem get goal valid dist h limit) u v w ↔ ValidOut g valid dist u v w := by
  have hsz := ha.1
  subst hsz
  show (∃ kids, graphExpand get valid dist u = .ok kids ∧ (v, w) ∈ kids) ↔ _
  unfold graphExpand
  by_cases hu : 0 ≤ u ∧ u < g.length
  · have hlt : u.toNat < g.length := by omega
    have hget := ha.2 u.toNat _ (List.getElem?_eq_getElem hlt)
    rw [Int.toNat_of_nonneg hu.1] at hget
    rw [hget]
    constructor
    · rintro ⟨kids, hk, hm⟩
      cases hk
      obtain ⟨e, he, heq⟩ := List.mem_map.mp hm
      cases heq
      obtain ⟨e1, e2⟩ := List.mem_filter.mp he
      exact ⟨u.toNat, _, (Int.toNat_of_nonneg hu.1).symm, List.getElem?_eq_getElem hlt, e, e1, rfl, e2, rfl⟩
    · rintro ⟨i, n, hi, hn, e, he, rfl, hv, rfl⟩
      have : i = u.toNat := by omega
      subst this
      rw [List.getElem?_eq_getElem hlt] at hn
      cases hn
      exact ⟨_, rfl, List.mem_map.mpr ⟨e, List.mem_filter.mpr ⟨he, hv⟩, rfl⟩⟩
  · rw [hout u hu]
    constructor
    · rintro ⟨kids, hk, _⟩; cases hk
    · rintro ⟨i, n, rfl, hn, _⟩
      exfalso
      apply hu
      obtain ⟨hlt, _⟩ := List.getElem?_eq_some_iff.mp hn
      exact ⟨by omega, by omega⟩

theorem getNode_out (g : Graph V C) (i : Int) (h : ¬ (0 ≤ i ∧ i < (g.length : Int))) : getNode g i = .throw .outOfRange :=
  getNode_none g i h

theorem minHeuristic_spec (goals : List Int) (h : Int → Int → C) (i : Int) :
    (∀ g ∈ goals, minHeuristic goals h i ≤ h i g) ∧ (minHeuristic goals h i = ⊤ ∨ ∃ g ∈ goals, minHeuristic goals h i = h i g) := by
  have gen : ∀ (l : List Int) (acc : C), let r := l.foldl (fun best g => if h i g < best then h i g else best) acc
      r ≤ acc ∧ (∀ g ∈ l, r ≤ h i g) ∧ (r = acc ∨ ∃ g ∈ l, r = h i g) := by
    intro l
    induction l with
    | nil => intro acc; exact ⟨le_refl _, by simp, .inl rfl⟩
    | cons a l ih =>
      intro acc
      obtain ⟨i1, i2, i3⟩ := ih (if h i a < acc then h i a else acc)
      have hle : (if h i a < acc then h i a else acc) ≤ acc ∧ (if h i a < acc then h i a else acc) ≤ h i a := by
        split
        · rename_i hc; exact ⟨le_of_lt hc, le_refl _⟩
        · rename_i hc; exact ⟨le_refl _, not_lt.mp hc⟩
      refine ⟨le_trans i1 hle.1, ?_, ?_⟩
      · intro g hg
        rcases List.mem_cons.mp hg with rfl | hg
        · exact le_trans i1 hle.2
        · exact i2 g hg
      · rcases i3 with i3 | ⟨g, hg, hi⟩
        · show _ ∨ _
          simp only [List.foldl_cons]
          rw [i3]
          split
          · exact .inr ⟨a, by simp, rfl⟩
          · exact .inl rfl
        · exact .inr ⟨g, by simp [hg], hi⟩
  obtain ⟨_, h2, h3⟩ := gen goals ⊤
  exact ⟨h2, h3⟩

/-- With all starts in range a run of the graph version is a run of the generic one. -/
theorem graphRun_astar {P : Astar.Problem Int C} {starts : List (Int × C)} (hpos : ∀ x ∈ starts, 0 ≤ x.1)
    {r : Res (List Int × C)} (h : GraphAstarRun P starts r) : Astar.AstarRun P starts r := by
  cases h with
  | noStarts h => exact .noStarts h
  | early hs h h0 => exact .early hs h
  | search hs h hrun he =>
    refine .search hs ?_ hrun he
    cases hb : Astar.bestStart P.goal starts with
    | none => rfl
    | some s => exact absurd (hpos s (Astar.bestStart_some hb).1) (h s hb)

theorem astar_graphRun {P : Astar.Problem Int C} {starts : List (Int × C)} (hpos : ∀ x ∈ starts, 0 ≤ x.1)
    {r : Res (List Int × C)} (h : Astar.AstarRun P starts r) : GraphAstarRun P starts r := by
  cases h with
  | noStarts h => exact .noStarts h
  | early hs h => exact .early hs h (hpos _ (Astar.bestStart_some h).1)
  | search hs h hrun he => exact .search hs (by rw [h]; simp) hrun he

theorem inRange_all {size : Int} {l : List Int} (h : l.any (fun i => !indexInRange size i) = false) :
    ∀ i ∈ l, 0 ≤ i ∧ i < size := by
  intro i hi
  rw [List.any_eq_false] at h
  have := h i hi
  simp only [Bool.not_eq_true, Bool.not_eq_false'] at this
  unfold indexInRange at this
  simpa using this

/-- What is assumed of the graph type: `(size, get)` is a graph with valid linkage, and access outside throws. Both
`Graph` and the overlay satisfy this (`access_self`, `access_overlay`). -/
structure GraphLike (g : Graph V C) (size : Int) (get : Int → Res (Node V C)) : Prop where
  access : Access g size get
  outside : ∀ i, ¬ (0 ≤ i ∧ i < size) → get i = .throw .outOfRange
  link : ValidLinkage g

theorem graphLike_self {g : Graph V C} (h : ValidLinkage g) : GraphLike g g.length (getNode g) :=
  ⟨access_self g, getNode_out g, h⟩

theorem graphLike_overlay {g : Graph V C} {o : Overlay V C} (hr : Rel o g) (h : ValidLinkage g) : GraphLike g o.size o.get := by
  refine ⟨access_overlay hr, fun i hi => ?_, h⟩
  rw [hr.get]
  exact getNode_out g i (by rw [← hr.size]; exact hi)

theorem walk_inRange {g : Graph V C} (hl : ValidLinkage g) {valid : Edge C → Bool} {dist : Edge C → C} {starts : List (Int × C)}
    (hs : ∀ x ∈ starts, 0 ≤ x.1 ∧ x.1 < g.length) {p : List Int} {c : C} (h : Astar.Walk starts (ValidOut g valid dist) p c) :
    ∀ i ∈ p, 0 ≤ i ∧ i < g.length := by
  induction h with
  | start h => intro i hi; rw [List.mem_singleton] at hi; subst hi; exact hs _ h
  | step _ he ih =>
    intro i hi
    rcases List.mem_append.mp hi with hi | hi
    · exact ih i hi
    · rw [List.mem_singleton] at hi
      subst hi
      obtain ⟨k, n, _, hn, e, hee, hd, _⟩ := he
      obtain ⟨_, j, m, hj, _, hm, _⟩ := (hl k n hn).2 e hee
      obtain ⟨hlt, _⟩ := List.getElem?_eq_some_iff.mp hm
      omega

theorem walk_head {starts : List (Int × C)} {edge : Int → Int → C → Prop} {p : List Int} {c : C}
    (h : Astar.Walk starts edge p c) : ∃ x ∈ starts, p.head? = some x.1 := by
  induction h with
  | start h => exact ⟨_, h, rfl⟩
  | step _ _ ih =>
    obtain ⟨x, hx, hh⟩ := ih
    refine ⟨x, hx, ?_⟩
    rw [List.head?_append, hh]
    rfl

/-- C23: a returned non-empty path starts in the start indices, ends in the goal indices, stays in range and uses only
out-edges of the graph that pass the check; its accumulated cost is at most the reported finite one. Any heuristic. -/
theorem C23_path_is_real {g : Graph V C} {size : Int} {get : Int → Res (Node V C)} (hG : GraphLike g size get)
    {starts goals : List Int} {valid : Edge C → Bool} {dist : Edge C → C} (hd : NonnegDist g dist) {h : Int → Int → C}
    {limit : Bool} {path : List Int} {cost : C} (hr : LazyRun size get starts goals valid dist h limit (.ok (path, cost)))
    (hne : path ≠ []) :
    (∃ c, Astar.Walk (starts.map fun i => (i, 0)) (ValidOut g valid dist) path c ∧ c ≤ cost) ∧ cost ≠ ⊤ ∧
    (∃ s ∈ starts, path.head? = some s) ∧ (∃ t ∈ goals, path.getLast? = some t) ∧ ∀ i ∈ path, 0 ≤ i ∧ i < g.length := by
  generalize hrr : Res.ok (path, cost) = r at hr
  cases hr with
  | badIndex => cases hrr
  | run hb hr =>
    subst hrr
    rw [Bool.or_eq_false_iff] at hb
    have hstart := inRange_all hb.1
    have hpos : ∀ x ∈ starts.map (fun i => (i, (0 : C))), 0 ≤ x.1 ∧ x.1 < size := by
      intro x hx
      obtain ⟨i, hi, rfl⟩ := List.mem_map.mp hx
      exact hstart i hi
    have hPE := expand_ok hG.access hG.outside (fun i => goals.any fun g => i = g) valid dist (minHeuristic goals h) limit
    have hnn : Astar.NonnegChildren (graphProblem get (fun i => goals.any fun g => i = g) valid dist (minHeuristic goals h) limit).expand := by
      intro s t w he
      obtain ⟨i, n, _, hn, e, hm, _, _, hw⟩ := (hPE s t w).mp he
      rw [hw]
      exact hd i n hn e hm
    obtain ⟨⟨c, hw, hc⟩, ⟨t, ht, hgt⟩, hfin⟩ := Astar.C19_path_is_real hnn (graphRun_astar (fun x hx => (hpos x hx).1) hr) hne
    have hw' := hw.mono (fun s t w he => (hPE s t w).mp he)
    have hsz := hG.access.1
    refine ⟨⟨c, hw', hc⟩, hfin, ?_, ⟨t, ?_, ht⟩, ?_⟩
    · obtain ⟨x, hx, hh⟩ := walk_head hw'
      obtain ⟨i, hi, rfl⟩ := List.mem_map.mp hx
      exact ⟨i, hi, hh⟩
    · have : goals.any (fun g => t = g) = true := hgt
      rw [List.any_eq_true] at this
      obtain ⟨g', hg', he⟩ := this
      rw [of_decide_eq_true he]; exact hg'
    · exact walk_inRange hG.link (fun x hx => by rw [← hsz]; exact hpos x hx) hw'

/-- C23: an index out of range throws, and so does an empty start list; nothing else fails but a goal reached only at
infinite cost. Never undefined behaviour. -/
theorem C23_failures {g : Graph V C} {size : Int} {get : Int → Res (Node V C)} (hG : GraphLike g size get)
    {starts goals : List Int} {valid : Edge C → Bool} {dist : Edge C → C} (hd : NonnegDist g dist) {h : Int → Int → C}
    {limit : Bool} {r : Res (List Int × C)} (hr : LazyRun size get starts goals valid dist h limit r) :
    ((∃ i ∈ starts ++ goals, ¬ (0 ≤ i ∧ i < g.length)) → r = .throw .invalidArgument) ∧
    (starts = [] → r = .throw .invalidArgument) ∧
    ((∃ p, r = .ok p) ∨ r = .throw .invalidArgument) := by
  have hsz := hG.access.1
  subst hsz
  cases hr with
  | badIndex => exact ⟨fun _ => rfl, fun _ => rfl, .inr rfl⟩
  | run hb hr =>
    rw [Bool.or_eq_false_iff] at hb
    have hstart := inRange_all hb.1
    have hgoal := inRange_all hb.2
    have hPE := expand_ok hG.access hG.outside (fun i => goals.any fun g => i = g) valid dist (minHeuristic goals h) limit
    have hnn : Astar.NonnegChildren (graphProblem get (fun i => goals.any fun g => i = g) valid dist (minHeuristic goals h) limit).expand := by
      intro s t w he
      obtain ⟨i, n, _, hn, e, hm, _, _, hw⟩ := (hPE s t w).mp he
      rw [hw]
      exact hd i n hn e hm
    have hpos : ∀ x ∈ starts.map (fun i => (i, (0 : C))), 0 ≤ x.1 ∧ x.1 < g.length := by
      intro x hx
      obtain ⟨i, hi, rfl⟩ := List.mem_map.mp hx
      exact hstart i hi
    refine ⟨?_, ?_, ?_⟩
    · rintro ⟨i, hi, hn⟩
      rcases List.mem_append.mp hi with hi | hi
      · exact absurd (hstart i hi) hn
      · exact absurd (hgoal i hi) hn
    · rintro rfl
      cases hr with
      | noStarts => rfl
      | early hs => simp at hs
      | search hs => simp at hs
    · have hrun := graphRun_astar (fun x hx => (hpos x hx).1) hr
      cases hrun with
      | noStarts => exact .inr rfl
      | early hs h =>
        unfold Astar.mkResult; split
        · exact .inr rfl
        · exact .inl ⟨_, rfl⟩
      | @search st _ hs h hsteps he =>
        have hI := (Astar.init_inv _ _).1.steps hnn hsteps
        have hex : ∀ top ∈ st.queue, ∃ kids, graphExpand get valid dist top.state = .ok kids := by
          intro top htop
          have hin : 0 ≤ top.state ∧ top.state < g.length := by
            rcases hI.q.elems top htop with ⟨_, h2, _⟩ | ⟨p, l, cold, w, _, _, _, _, h5, _⟩
            · exact hpos _ h2
            · obtain ⟨k, n, _, hn, e, hee, hdd, _⟩ := (hPE _ _ _).mp h5
              obtain ⟨_, j, m, hj, _, hm, _⟩ := (hG.link k n hn).2 e hee
              obtain ⟨hlt, _⟩ := List.getElem?_eq_some_iff.mp hm
              omega
          have hlt : top.state.toNat < g.length := by omega
          have hget := hG.access.2 top.state.toNat _ (List.getElem?_eq_getElem hlt)
          rw [Int.toNat_of_nonneg hin.1] at hget
          exact ⟨_, by unfold graphExpand; rw [hget]; rfl⟩
        cases he with
        | empty => exact .inl ⟨_, rfl⟩
        | goal hp hb hg hx =>
          obtain ⟨l, _, _, huniq⟩ := Astar.extract_spec hnn hI hp hb
          rw [huniq _ hx]
          unfold Astar.mkResult; split
          · exact .inr rfl
          · exact .inl ⟨_, rfl⟩
        | throws hp _ _ hk =>
          obtain ⟨kids, hk'⟩ := hex _ hp.mem_top
          have : (Res.ok kids : Res (List (Int × C))) = .throw _ := hk'.symm.trans hk
          cases this
        | ub hp _ _ hk =>
          obtain ⟨kids, hk'⟩ := hex _ hp.mem_top
          have : (Res.ok kids : Res (List (Int × C))) = .ub := hk'.symm.trans hk
          cases this

/-- The heuristic between two nodes is non-negative and never overestimates the cost of a valid continuation from the first
to the second. -/
def AdmissibleTo (edge : Int → Int → C → Prop) (goals : List Int) (h : Int → Int → C) : Prop :=
  ∀ s, ∀ t ∈ goals, 0 ≤ h s t ∧ ∀ (x : C) (path : List Int) (c : C), 0 ≤ x → Astar.Walk [(s, x)] edge path c →
    path.getLast? = some t → x + h s t ≤ c

/-- C23: with an admissible heuristic the returned path is a cheapest one and the reported cost is its cost. All starts
cost 0, so the proviso of C20 holds by itself. -/
theorem C23_optimal {g : Graph V C} {size : Int} {get : Int → Res (Node V C)} (hG : GraphLike g size get)
    {starts goals : List Int} {valid : Edge C → Bool} {dist : Edge C → C} (hd : NonnegDist g dist) {h : Int → Int → C}
    (hadm : AdmissibleTo (ValidOut g valid dist) goals h)
    {limit : Bool} {path : List Int} {cost : C} (hr : LazyRun size get starts goals valid dist h limit (.ok (path, cost)))
    (hne : path ≠ []) :
    Astar.Walk (starts.map fun i => (i, 0)) (ValidOut g valid dist) path cost ∧
    ∀ p c, Astar.Walk (starts.map fun i => (i, 0)) (ValidOut g valid dist) p c → (∃ t ∈ goals, p.getLast? = some t) → cost ≤ c := by
  generalize hrr : Res.ok (path, cost) = r at hr
  cases hr with
  | badIndex => cases hrr
  | run hb hr =>
    subst hrr
    rw [Bool.or_eq_false_iff] at hb
    have hstart := inRange_all hb.1
    have hpos : ∀ x ∈ starts.map (fun i => (i, (0 : C))), 0 ≤ x.1 ∧ x.2 = 0 := by
      intro x hx
      obtain ⟨i, hi, rfl⟩ := List.mem_map.mp hx
      exact ⟨(hstart i hi).1, rfl⟩
    have hPE := expand_ok hG.access hG.outside (fun i => goals.any fun g => i = g) valid dist (minHeuristic goals h) limit
    have hnn : Astar.NonnegChildren (graphProblem get (fun i => goals.any fun g => i = g) valid dist (minHeuristic goals h) limit).expand := by
      intro s t w he
      obtain ⟨i, n, _, hn, e, hm, _, _, hw⟩ := (hPE s t w).mp he
      rw [hw]
      exact hd i n hn e hm
    have hgoal : ∀ t, goals.any (fun g => t = g) = true ↔ t ∈ goals := by intro t; simp
    obtain ⟨h1, h2⟩ := Astar.C20_optimal_partial hnn (starts := starts.map fun i => (i, (0 : C)))
      (fun x hx => by rw [(hpos x hx).2])
      (by
        intro s
        refine ⟨?_, ?_⟩
        · show 0 ≤ minHeuristic goals h s
          rcases (minHeuristic_spec goals h s).2 with he | ⟨t, ht, he⟩
          · rw [he]; exact le_top
          · rw [he]; exact (hadm s t ht).1
        · rintro x p c hx hw ⟨t, hl, hg⟩
          have ht := (hgoal t).mp hg
          have hm := (hadm s t ht).2 x p c hx (hw.mono (fun s t w he => (hPE s t w).mp he)) hl
          exact le_trans (CostLaws.add_le_add_left _ _ _ ((minHeuristic_spec goals h s).1 t ht)) hm)
      (by
        by_cases hex : ∃ x ∈ starts.map (fun i => (i, (0 : C))), goals.any (fun g => x.1 = g) = true
        · obtain ⟨x, hx, hg⟩ := hex
          exact .inr ⟨x, hx, hg, fun y hy => by rw [(hpos x hx).2, (hpos y hy).2]⟩
        · refine .inl fun x hx => ?_
          rw [Bool.eq_false_iff]
          exact fun hg => hex ⟨x, hx, hg⟩)
      (graphRun_astar (fun x hx => (hpos x hx).1) hr) hne
    refine ⟨h1.mono (fun s t w he => (hPE s t w).mp he), ?_⟩
    rintro p c hw ⟨t, ht, hl⟩
    exact h2 p c (hw.mono (fun s t w he => (hPE s t w).mpr he)) ⟨t, hl, (hgoal t).mpr ht⟩

/-- C23: an empty result means that no goal is reachable. -/
theorem C23_empty_means_unreachable {g : Graph V C} {size : Int} {get : Int → Res (Node V C)} (hG : GraphLike g size get)
    {starts goals : List Int} {valid : Edge C → Bool} {dist : Edge C → C} (hd : NonnegDist g dist) {h : Int → Int → C}
    {limit : Bool} {cost : C} (hr : LazyRun size get starts goals valid dist h limit (.ok ([], cost))) :
    cost = ⊤ ∧ ∀ p c, Astar.Walk (starts.map fun i => (i, 0)) (ValidOut g valid dist) p c → ∀ t ∈ goals, p.getLast? ≠ some t := by
  generalize hrr : Res.ok ([], cost) = r at hr
  cases hr with
  | badIndex => cases hrr
  | run hb hr =>
    subst hrr
    rw [Bool.or_eq_false_iff] at hb
    have hstart := inRange_all hb.1
    have hpos : ∀ x ∈ starts.map (fun i => (i, (0 : C))), 0 ≤ x.1 := by
      intro x hx
      obtain ⟨i, hi, rfl⟩ := List.mem_map.mp hx
      exact (hstart i hi).1
    have hPE := expand_ok hG.access hG.outside (fun i => goals.any fun g => i = g) valid dist (minHeuristic goals h) limit
    have hnn : Astar.NonnegChildren (graphProblem get (fun i => goals.any fun g => i = g) valid dist (minHeuristic goals h) limit).expand := by
      intro s t w he
      obtain ⟨i, n, _, hn, e, hm, _, _, hw⟩ := (hPE s t w).mp he
      rw [hw]
      exact hd i n hn e hm
    obtain ⟨h1, h2⟩ := Astar.C21_empty_means_unreachable hnn (graphRun_astar hpos hr)
    refine ⟨h1, fun p c hw t ht hl => h2 p c (hw.mono (fun s t w he => (hPE s t w).mpr he)) ⟨t, hl, ?_⟩⟩
    show goals.any (fun g => t = g) = true
    simp [ht]

/-- C23: the search ends, for every heuristic and tie-breaking. -/
theorem C23_terminates {g : Graph V C} {size : Int} {get : Int → Res (Node V C)} (hG : GraphLike g size get)
    (starts goals : List Int) (valid : Edge C → Bool) {dist : Edge C → C} (hd : NonnegDist g dist) (h : Int → Int → C)
    (limit : Bool) :
    (∃ r, LazyRun size get starts goals valid dist h limit r) ∧
    ((∀ i ∈ starts, 0 ≤ i ∧ i < size) →
      let P := graphProblem get (fun i => goals.any fun g => i = g) valid dist (minHeuristic goals h) limit
      ¬ ∃ f : Nat → Astar.St Int C, f 0 = Astar.init P (starts.map fun i => (i, 0)) ∧ ∀ n, Astar.Step P (f n) (f (n + 1))) := by
  have hsz := hG.access.1
  subst hsz
  have hPE := expand_ok hG.access hG.outside (fun i => goals.any fun g => i = g) valid dist (minHeuristic goals h) limit
  have hnn : Astar.NonnegChildren (graphProblem get (fun i => goals.any fun g => i = g) valid dist (minHeuristic goals h) limit).expand := by
    intro s t w he
    obtain ⟨i, n, _, hn, e, hm, _, _, hw⟩ := (hPE s t w).mp he
    rw [hw]
    exact hd i n hn e hm
  have hfin : (∀ i ∈ starts, 0 ≤ i ∧ i < (g.length : Int)) → Astar.FiniteReach
      (graphProblem get (fun i => goals.any fun g => i = g) valid dist (minHeuristic goals h) limit).expand
      (starts.map fun i => (i, (0 : C))) (irange 0 g.length) := by
    intro hs
    refine ⟨?_, ?_⟩
    · intro x hx
      obtain ⟨i, hi, rfl⟩ := List.mem_map.mp hx
      exact mem_irange.mpr (hs i hi)
    · intro s _ t w he
      obtain ⟨k, n, _, hn, e, hee, hdd, _⟩ := (hPE s t w).mp he
      obtain ⟨_, j, m, hj, _, hm, _⟩ := (hG.link k n hn).2 e hee
      obtain ⟨hlt, _⟩ := List.getElem?_eq_some_iff.mp hm
      exact mem_irange.mpr (by omega)
  constructor
  · cases hb : (starts.any (fun i => !indexInRange g.length i) || goals.any (fun i => !indexInRange g.length i)) with
    | true => exact ⟨_, .badIndex hb⟩
    | false =>
      have hb' := hb
      rw [Bool.or_eq_false_iff] at hb'
      have hs := inRange_all hb'.1
      obtain ⟨r, hr⟩ := Astar.C21_terminates hnn _ (hfin hs)
      refine ⟨r, .run hb (astar_graphRun ?_ hr)⟩
      intro x hx
      obtain ⟨i, hi, rfl⟩ := List.mem_map.mp hx
      exact (hs i hi).1
  · intro hs
    exact Astar.C21_no_infinite_run hnn (hfin hs)

/-! ### C23, searches through node values -/

/-- An edge of the graph whose end values pass the check, with the distance between the values. -/
def ValueEdge (g : Graph V C) (valid : V → V → Bool) (dist : V → V → C) (u v : Int) (w : C) : Prop :=
  ∃ (i j : Nat) (n m : Node V C), u = i ∧ v = j ∧ g[i]? = some n ∧ g[j]? = some m ∧ (∃ e ∈ n.outs, e.dst = v) ∧
    valid n.value m.value = true ∧ w = dist n.value m.value

/-- An edge of finite weight. -/
def FiniteEdge (g : Graph V C) (u v : Int) (w : C) : Prop := OutEdge g u v w ∧ w < ⊤

/-- A heuristic on node values: non-negative, and never above the cost of a continuation to a goal. -/
def ValueAdmissible (g : Graph V C) (edge : Int → Int → C → Prop) (goals : List Int) (h : V → V → C) : Prop :=
  (∀ a b, 0 ≤ h a b) ∧ ∀ (i j : Nat) (n m : Node V C), g[i]? = some n → (j : Int) ∈ goals → g[j]? = some m →
    ∀ (x : C) (path : List Int) (c : C), 0 ≤ x → Astar.Walk [((i : Int), x)] edge path c → path.getLast? = some (j : Int) →
      x + h n.value m.value ≤ c

theorem valueAt_eq [Inhabited V] {g : Graph V C} {size : Int} {get : Int → Res (Node V C)} (ha : Access g size get) {i : Nat}
    {n : Node V C} (h : g[i]? = some n) : valueAt get i = n.value := by
  unfold valueAt; rw [ha.2 i n h]

theorem validOut_value [Inhabited V] {g : Graph V C} {size : Int} {get : Int → Res (Node V C)} (hG : GraphLike g size get)
    (valid : V → V → Bool) (dist : V → V → C) :
    ValidOut g (fun e => valid (valueAt get e.src) (valueAt get e.dst)) (fun e => dist (valueAt get e.src) (valueAt get e.dst)) =
      ValueEdge g valid dist := by
  funext u v w
  apply propext
  constructor
  · rintro ⟨i, n, rfl, hn, e, he, rfl, hv, rfl⟩
    obtain ⟨hsrc, j, m, hj, _, hm, _⟩ := (hG.link i n hn).2 e he
    refine ⟨i, j, n, m, rfl, hj, hn, hm, ⟨e, he, rfl⟩, ?_, ?_⟩
    · simpa only [hsrc, hj, valueAt_eq hG.access hn, valueAt_eq hG.access hm] using hv
    · simp only [hsrc, hj, valueAt_eq hG.access hn, valueAt_eq hG.access hm]
  · rintro ⟨i, j, n, m, rfl, rfl, hn, hm, ⟨e, he, hd⟩, hv, rfl⟩
    obtain ⟨hsrc, _⟩ := (hG.link i n hn).2 e he
    refine ⟨i, n, rfl, hn, e, he, hd, ?_, ?_⟩
    · simpa only [hsrc, hd, valueAt_eq hG.access hn, valueAt_eq hG.access hm] using hv
    · simp only [hsrc, hd, valueAt_eq hG.access hn, valueAt_eq hG.access hm]

theorem walk_from {g : Graph V C} {valid : Edge C → Bool} {dist : Edge C → C} {s : Int} {x : C} {p : List Int} {c : C}
    (h : Astar.Walk [(s, x)] (ValidOut g valid dist) p c) : p = [s] ∨ (0 ≤ s ∧ s < g.length) := by
  have gen : p.head? = some s ∧ (p = [s] ∨ (0 ≤ s ∧ s < g.length)) := by
    induction h with
    | start h => rw [List.mem_singleton] at h; cases h; exact ⟨rfl, .inl rfl⟩
    | step _ he ih =>
      obtain ⟨h1, h2⟩ := ih
      refine ⟨by rw [List.head?_append, h1]; rfl, .inr ?_⟩
      rcases h2 with h2 | h2
      · rw [List.append_eq_cons_iff] at h2
        obtain ⟨k, n, hk, hn, _⟩ := he
        have hlt := (List.getElem?_eq_some_iff.mp hn).1
        rcases h2 with ⟨_, h2⟩ | ⟨as, _, h2⟩
        · cases h2; omega
        · simp at h2
      · exact h2
  exact gen.2

theorem valueAdm_to [Inhabited V] {g : Graph V C} {size : Int} {get : Int → Res (Node V C)} (hG : GraphLike g size get)
    {valid : Edge C → Bool} {dist : Edge C → C} {goals : List Int} (hgoals : ∀ i ∈ goals, 0 ≤ i ∧ i < size) {h : V → V → C}
    (hadm : ValueAdmissible g (ValidOut g valid dist) goals h) :
    AdmissibleTo (ValidOut g valid dist) goals (fun i t => h (valueAt get i) (valueAt get t)) := by
  have hsz := hG.access.1
  intro s t ht
  refine ⟨hadm.1 _ _, fun x p c hx hw hl => ?_⟩
  have ht' := hgoals t ht
  rw [hsz] at ht'
  have hs : 0 ≤ s ∧ s < g.length := by
    rcases walk_from hw with hp | hs
    · rw [hp] at hl
      have : s = t := by simpa using hl
      rw [this]; exact ht'
    · exact hs
  obtain ⟨i, rfl⟩ := Int.eq_ofNat_of_zero_le hs.1
  obtain ⟨j, rfl⟩ := Int.eq_ofNat_of_zero_le ht'.1
  have hi := List.getElem?_eq_getElem (l := g) (i := i) (by omega)
  have hj := List.getElem?_eq_getElem (l := g) (i := j) (by omega)
  have := hadm.2 i j _ _ hi ht hj x p c hx hw hl
  dsimp only
  rw [valueAt_eq hG.access hi, valueAt_eq hG.access hj]
  exact this

theorem goals_inRange {size : Int} {get : Int → Res (Node V C)} {starts goals : List Int} {valid : Edge C → Bool}
    {dist : Edge C → C} {h : Int → Int → C} {limit : Bool} {p : List Int × C}
    (hr : LazyRun size get starts goals valid dist h limit (.ok p)) : ∀ i ∈ goals, 0 ≤ i ∧ i < size := by
  generalize hrr : Res.ok p = r at hr
  cases hr with
  | badIndex => cases hrr
  | run hb => rw [Bool.or_eq_false_iff] at hb; exact inRange_all hb.2

theorem nonneg_value [Inhabited V] {g : Graph V C} {size : Int} {get : Int → Res (Node V C)} (hG : GraphLike g size get)
    {dist : V → V → C} (hd : ∀ u v w, ValueEdge g (fun _ _ => true) dist u v w → 0 ≤ w) :
    NonnegDist g (fun e => dist (valueAt get e.src) (valueAt get e.dst)) := by
  intro i n hn e he
  apply hd i e.dst
  rw [← validOut_value hG]
  exact ⟨i, n, rfl, hn, e, he, rfl, rfl, rfl⟩

/-- C23, search with callbacks on node values, with an admissible heuristic: the result is a cheapest path from a start to a
goal along edges whose *source and target values, in this order*, pass the check, and its cost; or it is empty and no goal
is reachable along such edges. -/
theorem C23_value_search [Inhabited V] {g : Graph V C} {size : Int} {get : Int → Res (Node V C)} (hG : GraphLike g size get)
    {starts goals : List Int} {valid : V → V → Bool} {dist : V → V → C}
    (hd : ∀ u v w, ValueEdge g (fun _ _ => true) dist u v w → 0 ≤ w) {h : V → V → C}
    (hadm : ValueAdmissible g (ValueEdge g valid dist) goals h) {limit : Bool} {path : List Int} {cost : C}
    (hr : LazyValueRun size get starts goals valid dist h limit (.ok (path, cost))) :
    (path ≠ [] → Astar.Walk (starts.map fun i => (i, 0)) (ValueEdge g valid dist) path cost ∧ cost ≠ ⊤ ∧
      (∃ t ∈ goals, path.getLast? = some t)) ∧
    (path = [] → cost = ⊤) ∧
    (∀ p c, Astar.Walk (starts.map fun i => (i, 0)) (ValueEdge g valid dist) p c → (∃ t ∈ goals, p.getLast? = some t) →
      path ≠ [] ∧ cost ≤ c) := by
  rw [← validOut_value hG] at hadm ⊢
  have hdn := nonneg_value hG hd
  have ha := valueAdm_to hG (goals_inRange hr) hadm
  by_cases hne : path = []
  · subst hne
    obtain ⟨h1, h2⟩ := C23_empty_means_unreachable hG hdn hr
    exact ⟨fun hc => absurd rfl hc, fun _ => h1, fun p c hw ⟨t, ht, hl⟩ => absurd hl (h2 p c hw t ht)⟩
  · obtain ⟨h1, h2⟩ := C23_optimal hG hdn ha hr hne
    obtain ⟨_, h3, _, h4, _⟩ := C23_path_is_real hG hdn hr hne
    exact ⟨fun _ => ⟨h1, h3, h4⟩, fun hc => absurd hc hne, fun p c hw hx => ⟨hne, h2 p c hw hx⟩⟩

theorem validOut_finite (g : Graph V C) :
    ValidOut g (fun e => decide (e.weight < ⊤)) (fun e => e.weight) = FiniteEdge g := by
  funext u v w
  apply propext
  constructor
  · rintro ⟨i, n, rfl, hn, e, he, rfl, hv, rfl⟩
    exact ⟨⟨i, n, rfl, hn, e, he, rfl, rfl⟩, of_decide_eq_true hv⟩
  · rintro ⟨⟨i, n, rfl, hn, e, he, rfl, rfl⟩, hw⟩
    exact ⟨i, n, rfl, hn, e, he, rfl, decide_eq_true hw, rfl⟩

/-- C23, search by edge weight with an admissible heuristic: the result is a cheapest path along edges of finite weight, or
empty and no goal is reachable along such edges. -/
theorem C23_weight_search [Inhabited V] {g : Graph V C} {size : Int} {get : Int → Res (Node V C)} (hG : GraphLike g size get)
    {starts goals : List Int} (hd : ∀ u v w, OutEdge g u v w → 0 ≤ w) {h : V → V → C}
    (hadm : ValueAdmissible g (FiniteEdge g) goals h) {limit : Bool} {path : List Int} {cost : C}
    (hr : GraphSearchRun size get starts goals h limit (.ok (path, cost))) :
    (path ≠ [] → Astar.Walk (starts.map fun i => (i, 0)) (FiniteEdge g) path cost ∧ cost ≠ ⊤ ∧
      (∃ t ∈ goals, path.getLast? = some t)) ∧
    (path = [] → cost = ⊤) ∧
    (∀ p c, Astar.Walk (starts.map fun i => (i, 0)) (FiniteEdge g) p c → (∃ t ∈ goals, p.getLast? = some t) →
      path ≠ [] ∧ cost ≤ c) := by
  rw [← validOut_finite] at hadm ⊢
  have hdn : NonnegDist g (fun e => e.weight) := fun i n hn e he => hd i e.dst e.weight ⟨i, n, rfl, hn, e, he, rfl, rfl⟩
  have ha := valueAdm_to hG (goals_inRange hr) hadm
  by_cases hne : path = []
  · subst hne
    obtain ⟨h1, h2⟩ := C23_empty_means_unreachable hG hdn hr
    exact ⟨fun hc => absurd rfl hc, fun _ => h1, fun p c hw ⟨t, ht, hl⟩ => absurd hl (h2 p c hw t ht)⟩
  · obtain ⟨h1, h2⟩ := C23_optimal hG hdn ha hr hne
    obtain ⟨_, h3, _, h4, _⟩ := C23_path_is_real hG hdn hr hne
    exact ⟨fun _ => ⟨h1, h3, h4⟩, fun hc => absurd hc hne, fun p c hw hx => ⟨hne, h2 p c hw hx⟩⟩

/-- C23: both variants end and never show undefined behaviour; out-of-range indices and an empty start list throw. -/
theorem C23_value_search_ends [Inhabited V] {g : Graph V C} {size : Int} {get : Int → Res (Node V C)} (hG : GraphLike g size get)
    (starts goals : List Int) (valid : V → V → Bool) {dist : V → V → C}
    (hd : ∀ u v w, ValueEdge g (fun _ _ => true) dist u v w → 0 ≤ w) (hw : ∀ u v w, OutEdge g u v w → 0 ≤ w) (h : V → V → C)
    (limit : Bool) :
    (∃ r, LazyValueRun size get starts goals valid dist h limit r) ∧ (∃ r, GraphSearchRun size get starts goals h limit r) ∧
    ∀ r, LazyValueRun size get starts goals valid dist h limit r ∨ GraphSearchRun size get starts goals h limit r →
      ((∃ i ∈ starts ++ goals, ¬ (0 ≤ i ∧ i < g.length)) → r = .throw .invalidArgument) ∧
      (starts = [] → r = .throw .invalidArgument) ∧ ((∃ p, r = .ok p) ∨ r = .throw .invalidArgument) := by
  have hdn := nonneg_value hG hd
  have hdw : NonnegDist g (fun e => e.weight) := fun i n hn e he => hw i e.dst e.weight ⟨i, n, rfl, hn, e, he, rfl, rfl⟩
  exact ⟨(C23_terminates hG starts goals _ hdn _ limit).1, (C23_terminates hG starts goals _ hdw _ limit).1,
    fun r hr => hr.elim (C23_failures hG hdn) (C23_failures hG hdw)⟩

/-! ### Non-vacuity -/
namespace Demo

/-- 0→1 (1), 1→2 (1), 0→2 (5), 3 isolated. -/
def g : Graph String ℕ∞ :=
  [GrowOp.addNode "a", .addNode "b", .addNode "c", .addNode "d", .addEdge 0 1 1, .addEdge 1 2 1, .addEdge 0 2 5].foldl GrowOp.run []

theorem g_mirrored : Mirrored g := C58_mirrored_preserved _ ⟨by intro i n h; simp at h, by intro i j n m h; simp at h⟩ _

/-- Dijkstra towards node 2: a run exists, its result is as C22 says; the path 0, 1, 2 bounds node 0's distance by 2. -/
example : ∃ prev dist, DijkstraRun 4 (getNode g) 2 (.ok (prev, dist)) ∧ ∃ d, atInt dist 0 = .ok d ∧ d ≤ 2 := by
  have hnn : ∀ u v w, OutEdge g u v w → 0 ≤ w := fun _ _ _ _ => zero_le
  obtain ⟨r, hr⟩ := (C22_terminates (access_self g) g_mirrored.validLinkage (fun _ _ _ _ _ => zero_le) 2).1
  obtain ⟨prev, dist, rfl, h⟩ := C22_dijkstra_mirrored (access_self g) g_mirrored hnn (start := 2) (by decide) hr
  obtain ⟨d, h1, h2, _⟩ := h 0 (by decide) (by decide)
  refine ⟨prev, dist, hr, d, h1, ?_⟩
  have hp : PathTo (OutEdge g) 2 0 [0, 1, 2] (0 + 1 + 1 : ℕ∞) :=
    .step (.step .here ⟨1, _, rfl, rfl, ⟨1, 2, 1, 0⟩, by decide, rfl, rfl⟩) ⟨0, _, rfl, rfl, ⟨0, 1, 1, 0⟩, by decide, rfl, rfl⟩
  have h3 := h2 _ _ hp
  have e : (0 + 1 + 1 : ℕ∞) = 2 := rfl
  rwa [e] at h3

/-- A* on the same graph, also through an overlay. -/
example : ∃ r, LazyRun 4 (getNode g) [0] [2] (fun _ => true) (fun e => e.weight) (fun _ _ => 0) true r :=
  (C23_terminates (graphLike_self g_mirrored.validLinkage) [0] [2] (fun _ => true) (dist := fun e => e.weight)
    (fun _ _ _ _ _ => zero_le) (fun _ _ => 0) true).1

example : GraphLike g (mkOverlay g).size (mkOverlay g).get :=
  graphLike_overlay ⟨rfl, fun _ => rfl⟩ g_mirrored.validLinkage

example : AdmissibleTo (ValidOut g (fun _ => true) (fun e => e.weight)) [2] (fun _ _ => (0 : ℕ∞)) := by
  intro s t _
  refine ⟨le_refl _, fun x p c _ hw _ => ?_⟩
  rw [add_zero]
  obtain ⟨y, hy, hle⟩ := Astar.rwalk_ge_start (fun _ _ _ _ => zero_le) hw.rwalk
  rw [List.mem_singleton] at hy
  subst hy
  exact hle

theorem valueAdm_zero (edge : Int → Int → ℕ∞ → Prop) (goals : List Int) : ValueAdmissible g edge goals (fun _ _ => 0) := by
  refine ⟨fun _ _ => le_refl _, fun i j n m _ _ _ x p c _ hw _ => ?_⟩
  rw [add_zero]
  obtain ⟨y, hy, hle⟩ := Astar.rwalk_ge_start (fun _ _ _ _ => zero_le) hw.rwalk
  rw [List.mem_singleton] at hy
  subst hy
  exact hle

/-- The search by weight from 0 to 2 returns a path of cost at most 2 (0, 1, 2), not the direct edge of weight 5. -/
example {path : List Int} {cost : ℕ∞} (hr : GraphSearchRun 4 (getNode g) [0] [2] (fun _ _ => 0) true (.ok (path, cost))) :
    path ≠ [] ∧ cost ≤ 2 := by
  have hG := graphLike_self g_mirrored.validLinkage
  obtain ⟨_, _, h⟩ := C23_weight_search hG (fun _ _ _ _ => zero_le) (valueAdm_zero _ _) hr
  have hw : Astar.Walk ([0].map fun i => (i, (0 : ℕ∞))) (FiniteEdge g) [0, 1, 2] (0 + 1 + 1) :=
    .step (l := [0]) (s := 1) (.step (l := []) (s := 0) (.start (by simp)) ⟨⟨0, _, rfl, rfl, ⟨0, 1, 1, 0⟩, by decide, rfl, rfl⟩, by decide⟩)
      ⟨⟨1, _, rfl, rfl, ⟨1, 2, 1, 0⟩, by decide, rfl, rfl⟩, by decide⟩
  exact h _ _ hw ⟨2, by simp, rfl⟩

/-- Both searches on node values have runs on the example graph. -/
example : (∃ r, LazyValueRun 4 (getNode g) [0] [2] (fun a b => a < b) (fun _ _ => 1) (fun _ _ => 0) true r) ∧
    ∃ r, GraphSearchRun 4 (getNode g) [0] [2] (fun _ _ => 0) true r :=
  let h := C23_value_search_ends (graphLike_self g_mirrored.validLinkage) [0] [2] (fun a b : String => decide (a < b))
    (dist := fun _ _ => 1) (fun _ _ _ _ => zero_le) (fun _ _ _ _ => zero_le) (fun _ _ => (0 : ℕ∞)) true
  ⟨h.1, h.2.1⟩

end Demo
end CRU.GraphSearch

namespace CRU.GraphSearch
open CRU.Ser

attribute [local irreducible] add64 mul64 diff64 mkDeserialized getValue allocate memRead memWrite

/-- C59: a Dijkstra result (equally many entries in both arrays, as its constructor demands) round-trips. -/
theorem C59_dijkstra_result_round_trip {I D : Type} (l : Bool) (ri : Ser.Repr I) (rd : Ser.Repr D) (prev : List I) (dist : List D)
    (hlen : prev.length = dist.length) (h1 : prev.length * ri.size < TWO63) (h2 : dist.length * rd.size < TWO63) :
    RoundTrips (serDijkstra l ri rd) (deDijkstra l ri rd) (prev, dist) := by
  refine rt_record (x1 := prev) (C11_memcpyable_vector_round_trip l ri prev h1) ?_ rfl
  obtain ⟨e, s, d⟩ := wr_field (C11_memcpyable_vector_round_trip l rd dist h2)
  refine ⟨e, s, fun pre post hl => ?_⟩
  obtain ⟨y, hy, rfl⟩ := d pre post hl
  refine ⟨(prev, y), ?_, rfl⟩
  unfold Cursor.andThen
  rw [hy, Res.ok_bind]
  unfold Cursor.check
  dsimp only
  rw [if_pos (decide_eq_true hlen)]
  rfl

/-- C59: arbitrary bytes: an exception or a result whose two arrays have the same length, never undefined behaviour. -/
theorem C59_dijkstra_result_safe {I D : Type} (l : Bool) (ri : Ser.Repr I) (rd : Ser.Repr D) :
    SafeDeserializer (deDijkstra l ri rd) := by
  have hi := C12_memcpyable_vector_safe (deU64 l) (C12_size_header_safe l).1 ri
  have hd := C12_memcpyable_vector_safe (deU64 l) (C12_size_header_safe l).1 rd
  have hs : ∀ i : List I, SafeCursor ((field (deMemVec (deU64 l) rd)).andThen fun d =>
      Cursor.check (decide (i.length = d.length)) .invalidArgument (Cursor.done (i, d))) := fun i =>
    safe_andThen (safe_field hd) fun d => safe_check _ _ (safe_done _)
  exact safe_finish (safe_andThen (safe_field hi) hs) (field_andThen_moves hi hs)

theorem C59_dijkstra_result_sizes {I D : Type} (l : Bool) (ri : Ser.Repr I) (rd : Ser.Repr D) (buf : Buf) (off : Nat)
    {prev : List I} {dist : List D} {n : Nat} (h : deDijkstra l ri rd buf off = .ok ((prev, dist), n)) :
    prev.length = dist.length := by
  unfold deDijkstra finish at h
  rw [Res.bind_eq_ok] at h
  obtain ⟨⟨⟨i, d⟩, p⟩, hr, hm⟩ := h
  unfold Cursor.andThen at hr
  rw [Res.bind_eq_ok] at hr
  obtain ⟨⟨i', p'⟩, _, hr⟩ := hr
  rw [Res.bind_eq_ok] at hr
  obtain ⟨⟨d', p2⟩, _, hr⟩ := hr
  unfold Cursor.check at hr
  dsimp only at hr
  split at hr
  · rename_i hc
    have hc' := of_decide_eq_true hc
    unfold Cursor.done at hr
    cases hr
    unfold mkDeserialized at hm
    split at hm
    · cases hm
    · cases hm; exact hc'
  · cases hr

example : RoundTrips (serDijkstra true repr16 repr16) (deDijkstra true repr16 repr16) ([1, 2, 3], [7, 8, 9]) :=
  C59_dijkstra_result_round_trip true _ _ _ _ rfl (by decide) (by decide)

end CRU.GraphSearch
