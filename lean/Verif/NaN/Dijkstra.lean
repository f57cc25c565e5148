import Verif.NaN.Hausdorff
import Verif.GraphSearch.Props
/-
  C102: Dijkstra's algorithm on a graph some of whose weights are NaN.
-/
namespace CRU.NaN
open CRU.Graph CRU.GraphSearch
set_option linter.unusedSectionVars false

variable {V C : Type} [LinearOrder C] [Add C] [Zero C] [OrderTop C]

/-- An edge with its weight read as infinity if it is a NaN. -/
def edgeOrTop (e : Edge (Dbl C)) : Edge C := ⟨e.src, e.dst, e.weight.orTop, e.scratch⟩

/-- A node with its NaN weights read as infinity. -/
def nodeOrTop (n : Node V (Dbl C)) : Node V C := ⟨n.value, n.ins.map edgeOrTop, n.outs.map edgeOrTop⟩

/-- A graph with its NaN weights read as infinity. -/
def graphOrTop (g : Graph V (Dbl C)) : Graph V C := g.map nodeOrTop

/-- An entry of the queue. -/
def qNum (p : Int × C) : Int × Dbl C := (p.1, .num p.2)

def stNum (st : DSt C) : DSt (Dbl C) := ⟨st.prev, st.dist.map .num, st.queue.map qNum, st.explored⟩

theorem setAt_map {X Y : Type} (f : X → Y) (l : List X) (i : Int) (x : X) : setAt (l.map f) i (f x) = lift (List.map f) (setAt l i x) := by
  unfold setAt
  rw [List.length_map]
  by_cases h : 0 ≤ i ∧ i.toNat < l.length
  · rw [if_pos h, if_pos h, ← List.map_set]; rfl
  · rw [if_neg h, if_neg h]; rfl

theorem relax_nan (hinf : ∀ c : C, c + ⊤ = ⊤) (top : Int) (d : C) (st : DSt C) (e : Edge (Dbl C)) :
    relax top (.num d) (stNum st) e = lift stNum (relax top d st (edgeOrTop e)) := by
  unfold relax
  rw [show (stNum st).dist = st.dist.map .num from rfl, atInt_map]
  refine lift_bind _ _ _ _ _ fun stored _ => ?_
  have key : (Dbl.num d + e.weight < Dbl.num stored) ↔ d + (edgeOrTop e).weight < stored := by
    cases hw : e.weight with
    | nan => simp [edgeOrTop, hw, hinf]
    | num w => simp [edgeOrTop, hw]
  by_cases hc : d + (edgeOrTop e).weight < stored
  · rw [if_pos hc, if_pos (key.mpr hc)]
    cases hw : e.weight with
    | nan => simp [edgeOrTop, hw, hinf] at hc
    | num w =>
      have he : (edgeOrTop e).weight = w := by simp [edgeOrTop, hw]
      rw [he]
      have hsrc : (edgeOrTop e).src = e.src := rfl
      rw [hsrc]
      show (setAt st.prev e.src top >>= _) = _
      cases setAt st.prev e.src top with
      | throw e => rfl
      | ub => rfl
      | ok prev =>
        show (setAt (st.dist.map Dbl.num) e.src (Dbl.num (d + w)) >>= _) = lift stNum (setAt st.dist e.src (d + w) >>= _)
        rw [setAt_map]
        refine lift_bind _ _ _ _ _ fun dist _ => ?_
        show Res.ok _ = Res.ok _
        congr 1
        unfold stNum
        congr 1
        show (if e.src ∈ st.explored then st.queue.map qNum else (e.src, Dbl.num (d + w)) :: st.queue.map qNum)
          = List.map qNum (if e.src ∈ st.explored then st.queue else (e.src, d + w) :: st.queue)
        split <;> rfl
  · rw [if_neg hc, if_neg (fun h => hc (key.mp h))]; rfl

theorem relaxAll_nan (hinf : ∀ c : C, c + ⊤ = ⊤) (top : Int) (d : C) (es : List (Edge (Dbl C))) : ∀ st : DSt C,
    relaxAll top (.num d) es (stNum st) = lift stNum (relaxAll top d (es.map edgeOrTop) st) := by
  induction es with
  | nil => intro st; rfl
  | cons e es ih =>
    intro st
    unfold relaxAll
    rw [List.map_cons]
    show (relax top (.num d) (stNum st) e >>= _) = lift stNum (relax top d st (edgeOrTop e) >>= _)
    rw [relax_nan hinf]
    exact lift_bind _ _ _ _ _ fun st' _ => ih st'

/-- `GetNodeImmutable`, the NaN weights read as infinity. -/
def getOrTop (get : Int → Res (Node V (Dbl C))) (i : Int) : Res (Node V C) := lift nodeOrTop (get i)

theorem visit_nan (hinf : ∀ c : C, c + ⊤ = ⊤) (get : Int → Res (Node V (Dbl C))) (st : DSt C) (top : Int × C) (rest : List (Int × C)) :
    visit get (stNum st) (qNum top) (rest.map qNum) = lift stNum (visit (getOrTop get) st top rest) := by
  unfold visit
  show (if top.1 ∈ st.explored then _ else _) = _
  by_cases h : top.1 ∈ st.explored
  · rw [if_pos h, if_pos h]; rfl
  · rw [if_neg h, if_neg h]
    unfold getOrTop
    show (get top.1 >>= _) = _
    cases get top.1 with
    | throw e => rfl
    | ub => rfl
    | ok n => exact relaxAll_nan hinf top.1 top.2 n.ins ⟨st.prev, st.dist, rest, top.1 :: st.explored⟩

theorem dpop_nan {q : List (Int × C)} {top : Int × Dbl C} {rest : List (Int × Dbl C)} :
    DPop (q.map qNum) top rest ↔ ∃ top' rest', top = qNum top' ∧ rest = rest'.map qNum ∧ DPop q top' rest' := by
  constructor
  · rintro ⟨hp, hm⟩
    let g : Int × Dbl C → Int × C := fun x => (x.1, x.2.orTop)
    have hg : ∀ x : Int × C, g (qNum x) = x := fun _ => rfl
    have hfix : ∀ x ∈ top :: rest, qNum (g x) = x := by
      intro x hx
      obtain ⟨y, _, rfl⟩ := List.mem_map.mp (hp.mem_iff.mpr hx)
      rw [hg]
    refine ⟨g top, rest.map g, (hfix _ (by simp)).symm, ?_, ?_, ?_⟩
    · rw [List.map_map]
      conv_lhs => rw [← List.map_id rest]
      exact List.map_congr_left fun x hx => (hfix x (by simp [hx])).symm
    · have := hp.map g
      rw [List.map_map, show g ∘ qNum = id from funext hg, List.map_id] at this
      exact this
    · intro x hx
      obtain ⟨y, hy, rfl⟩ := List.mem_map.mp hx
      have h1 := hm y hy
      rw [← hfix y (by simp [hy]), ← hfix top (by simp)] at h1
      exact h1
  · rintro ⟨top', rest', rfl, rfl, hp, hm⟩
    refine ⟨hp.map qNum, fun x hx => ?_⟩
    obtain ⟨y, hy, rfl⟩ := List.mem_map.mp hx
    exact hm y hy

theorem lift_ok {X Y : Type} {f : X → Y} {r : Res X} {y : Y} : lift f r = .ok y ↔ ∃ x, r = .ok x ∧ y = f x := by
  cases r <;> simp [lift, eq_comm]

theorem lift_throw {X Y : Type} {f : X → Y} {r : Res X} {e : Exc} : lift f r = .throw e ↔ r = .throw e := by
  cases r <;> simp [lift]

theorem lift_ub {X Y : Type} {f : X → Y} {r : Res X} : lift f r = .ub ↔ r = .ub := by
  cases r <;> simp [lift]

theorem dstep_nan (hinf : ∀ c : C, c + ⊤ = ⊤) {get : Int → Res (Node V (Dbl C))} {st : DSt C} {x : DSt (Dbl C)} :
    DStep get (stNum st) x ↔ ∃ st', x = stNum st' ∧ DStep (getOrTop get) st st' := by
  constructor
  · rintro ⟨hp, hv⟩
    obtain ⟨top, rest, rfl, rfl, hp'⟩ := dpop_nan.mp hp
    rw [visit_nan hinf, lift_ok] at hv
    obtain ⟨st', hv', rfl⟩ := hv
    exact ⟨st', rfl, .mk hp' hv'⟩
  · rintro ⟨st', rfl, hp, hv⟩
    exact ⟨dpop_nan.mpr ⟨_, _, rfl, rfl, hp⟩, by rw [visit_nan hinf, hv]; rfl⟩

theorem dsteps_nan (hinf : ∀ c : C, c + ⊤ = ⊤) {get : Int → Res (Node V (Dbl C))} {st : DSt C} {x : DSt (Dbl C)} :
    DSteps get (stNum st) x ↔ ∃ st', x = stNum st' ∧ DSteps (getOrTop get) st st' := by
  constructor
  · intro h
    generalize hy : stNum st = y at h
    induction h generalizing st with
    | refl a => subst hy; exact ⟨st, rfl, .refl _⟩
    | step h t ih =>
      subst hy
      obtain ⟨s', rfl, h'⟩ := (dstep_nan hinf).mp h
      obtain ⟨s'', rfl, h''⟩ := ih rfl
      exact ⟨s'', rfl, .step h' h''⟩
  · rintro ⟨st', rfl, h⟩
    induction h with
    | refl a => exact .refl _
    | step h t ih => exact .step ((dstep_nan hinf).mpr ⟨_, rfl, h⟩) ih

theorem dinit_nan (size start : Int) : (dinit size start : DSt (Dbl C)) = stNum (dinit size start) := by
  unfold dinit stNum
  simp only [List.map_set, List.map_replicate]
  rfl

/-- The pair of result vectors. -/
def resNum (p : List Int × List C) : List Int × List (Dbl C) := (p.1, p.2.map .num)

theorem mkDijkstra_nan (st : DSt C) : mkDijkstra (stNum st).prev (stNum st).dist = lift resNum (mkDijkstra st.prev st.dist) := by
  unfold mkDijkstra stNum
  rw [List.length_map]
  by_cases h : st.prev.length ≠ st.dist.length
  · rw [if_pos h, if_pos h]; rfl
  · rw [if_neg h, if_neg h]; rfl

/-- **C102.** `PerformDijkstrasAlgorithm` on a graph some of whose weights are NaN has exactly the outcomes it has on the graph in
which these weights are infinite; in particular no distance in the result is a NaN. (`c + infinity` is infinity.) -/
theorem C102_dijkstra (hinf : ∀ c : C, c + ⊤ = ⊤) (size : Int) (get : Int → Res (Node V (Dbl C))) (start : Int)
    (r : Res (List Int × List (Dbl C))) :
    DijkstraRun size get start r ↔ ∃ r' : Res (List Int × List C), DijkstraRun size (getOrTop get) start r' ∧ r = lift resNum r' := by
  constructor
  · intro h
    cases h with
    | badStart h => exact ⟨_, .badStart h, rfl⟩
    | done h hr hq =>
      rw [dinit_nan] at hr
      obtain ⟨st, rfl, hr'⟩ := (dsteps_nan hinf).mp hr
      exact ⟨_, .done h hr' (List.map_eq_nil_iff.mp hq), mkDijkstra_nan st⟩
    | throws h hr hp hv =>
      rw [dinit_nan] at hr
      obtain ⟨st, rfl, hr'⟩ := (dsteps_nan hinf).mp hr
      obtain ⟨top, rest, rfl, rfl, hp'⟩ := dpop_nan.mp hp
      rw [visit_nan hinf, lift_throw] at hv
      exact ⟨_, .throws h hr' hp' hv, rfl⟩
    | ub h hr hp hv =>
      rw [dinit_nan] at hr
      obtain ⟨st, rfl, hr'⟩ := (dsteps_nan hinf).mp hr
      obtain ⟨top, rest, rfl, rfl, hp'⟩ := dpop_nan.mp hp
      rw [visit_nan hinf, lift_ub] at hv
      exact ⟨_, .ub h hr' hp' hv, rfl⟩
  · rintro ⟨r', h, rfl⟩
    cases h with
    | badStart h => exact .badStart h
    | @done st h hr hq =>
      rw [← mkDijkstra_nan]
      exact .done h (by rw [dinit_nan]; exact (dsteps_nan hinf).mpr ⟨st, rfl, hr⟩) (by show List.map qNum st.queue = []; rw [hq]; rfl)
    | throws h hr hp hv =>
      exact .throws h (by rw [dinit_nan]; exact (dsteps_nan hinf).mpr ⟨_, rfl, hr⟩) (dpop_nan.mpr ⟨_, _, rfl, rfl, hp⟩)
        (by rw [visit_nan hinf, hv]; rfl)
    | ub h hr hp hv =>
      exact .ub h (by rw [dinit_nan]; exact (dsteps_nan hinf).mpr ⟨_, rfl, hr⟩) (dpop_nan.mpr ⟨_, _, rfl, rfl, hp⟩)
        (by rw [visit_nan hinf, hv]; rfl)

/-- An edge of a number's weight. -/
def NumEdge (g : Graph V (Dbl C)) (u v : Int) (w : C) : Prop := InEdge g u v (.num w)

theorem numEdge_orTop {g : Graph V (Dbl C)} {u v : Int} {w : C} (h : NumEdge g u v w) : InEdge (graphOrTop g) u v w := by
  obtain ⟨i, n, h1, h2, e, he, h3, h4⟩ := h
  refine ⟨i, nodeOrTop n, h1, by simp [graphOrTop, h2], edgeOrTop e, List.mem_map.mpr ⟨e, he, rfl⟩, h3, ?_⟩
  simp [edgeOrTop, h4]

theorem orTop_numEdge {g : Graph V (Dbl C)} {u v : Int} {w : C} (h : InEdge (graphOrTop g) u v w) : NumEdge g u v w ∨ w = ⊤ := by
  obtain ⟨i, n, h1, h2, e, he, h3, h4⟩ := h
  unfold graphOrTop at h2
  rw [List.getElem?_map, Option.map_eq_some_iff] at h2
  obtain ⟨n', h2, rfl⟩ := h2
  obtain ⟨e', he', rfl⟩ := List.mem_map.mp he
  cases hw : e'.weight with
  | nan => right; rw [← h4]; simp [edgeOrTop, hw]
  | num c => left; exact ⟨i, n', h1, h2, e', he', h3, by rw [← h4, hw]; simp [edgeOrTop, hw]⟩

theorem pathTo_mono {edge edge' : Int → Int → C → Prop} (h : ∀ u v w, edge u v w → edge' u v w) {s v : Int} {p : List Int} {c : C}
    (hp : PathTo edge s v p c) : PathTo edge' s v p c := by
  induction hp with
  | here => exact .here
  | step _ he ih => exact .step ih (h _ _ _ he)

theorem pathTo_num [CostLaws C] (hinf : ∀ c : C, c + ⊤ = ⊤) {g : Graph V (Dbl C)} (hnn : ∀ u v w, InEdge (graphOrTop g) u v w → 0 ≤ w)
    {s v : Int} {p : List Int} {c : C} (hp : PathTo (InEdge (graphOrTop g)) s v p c) (hc : c ≠ ⊤) : PathTo (NumEdge g) s v p c := by
  induction hp with
  | here => exact .here
  | @step v u path c w h he ih =>
    have hw : w ≠ ⊤ := by rintro rfl; exact hc (hinf c)
    have hcc : c ≠ ⊤ := by
      rintro rfl
      exact hc (top_le_iff.mp (CostLaws.le_add _ _ (hnn _ _ _ he)))
    exact .step (ih hcc) ((orTop_numEdge he).resolve_right hw)

/-- A weight that is not negative: zero or more, or a NaN. -/
def NotNegative (w : Dbl C) : Prop := ¬ w < 0

/-- **C102.** Dijkstra's algorithm with NaN weights: every distance of the result is a number, it is at most the cost of every path whose
weights are all numbers, and if it is finite it is the cost of such a path, which the previous-index map describes. -/
theorem C102_dijkstra_distances [CostLaws C] (hinf : ∀ c : C, c + ⊤ = ⊤) {g : Graph V (Dbl C)} {size : Int}
    {get : Int → Res (Node V (Dbl C))} (ha : Access g size get) (hlink : ValidLinkage g)
    (hnn : ∀ (i : Nat) (n : Node V (Dbl C)), g[i]? = some n → ∀ e ∈ n.ins, NotNegative e.weight) {start : Int}
    (hs : 0 ≤ start ∧ start < g.length) {r : Res (List Int × List (Dbl C))} (hr : DijkstraRun size get start r) :
    ∃ prev dist, r = .ok (prev, dist) ∧ prev.length = g.length ∧ dist.length = g.length ∧
      ∀ v : Int, 0 ≤ v → v < g.length → ∃ d : C, atInt dist v = .ok (.num d) ∧
        (∀ path c, PathTo (NumEdge g) start v path c → d ≤ c) ∧
        (d ≠ ⊤ → ∃ path, PathTo (NumEdge g) start v path d ∧ Follows prev start v path) := by
  obtain ⟨r', hr', rfl⟩ := (C102_dijkstra hinf size get start r).mp hr
  have hlen : (graphOrTop g).length = g.length := by simp [graphOrTop]
  have hget : ∀ (i : Nat) (n : Node V C), (graphOrTop g)[i]? = some n → ∃ n', g[i]? = some n' ∧ n = nodeOrTop n' := by
    intro i n h
    unfold graphOrTop at h
    rw [List.getElem?_map, Option.map_eq_some_iff] at h
    obtain ⟨n', h, rfl⟩ := h
    exact ⟨n', h, rfl⟩
  have ha' : Access (graphOrTop g) size (getOrTop get) := by
    refine ⟨by rw [hlen]; exact ha.1, fun i n h => ?_⟩
    obtain ⟨n', h', rfl⟩ := hget i n h
    unfold getOrTop
    rw [ha.2 i n' h']; rfl
  have hnn' : ∀ (i : Nat) (n : Node V C), (graphOrTop g)[i]? = some n → ∀ e ∈ n.ins, 0 ≤ e.weight := by
    intro i n h e he
    obtain ⟨n', h', rfl⟩ := hget i n h
    obtain ⟨e', he', rfl⟩ := List.mem_map.mp he
    have := hnn i n' h' e' he'
    unfold NotNegative at this
    cases hw : e'.weight with
    | nan => simp [edgeOrTop, hw]
    | num w => rw [hw, Dbl.zero_def, Dbl.num_lt_num] at this; simpa [edgeOrTop, hw] using not_lt.mp this
  have hlink' : ValidLinkage (graphOrTop g) := by
    intro i n h
    obtain ⟨n', h', rfl⟩ := hget i n h
    obtain ⟨p1, p2⟩ := hlink i n' h'
    constructor
    · intro e he
      obtain ⟨e', he', rfl⟩ := List.mem_map.mp he
      obtain ⟨q1, j, m, q2, q3, q4, x, q5, q6⟩ := p1 e' he'
      exact ⟨q1, j, nodeOrTop m, q2, q3, by simp [graphOrTop, q4], edgeOrTop x, List.mem_map.mpr ⟨x, q5, rfl⟩, q6⟩
    · intro e he
      obtain ⟨e', he', rfl⟩ := List.mem_map.mp he
      obtain ⟨q1, j, m, q2, q3, q4, x, q5, q6⟩ := p2 e' he'
      exact ⟨q1, j, nodeOrTop m, q2, q3, by simp [graphOrTop, q4], edgeOrTop x, List.mem_map.mpr ⟨x, q5, rfl⟩, q6⟩
  obtain ⟨prev, dist, rfl, l1, l2, _, _, h⟩ := C22_dijkstra ha' hlink' hnn' (by rw [hlen]; exact hs) hr'
  refine ⟨prev, dist.map .num, rfl, by omega, by simp; omega, fun v h0 h1 => ?_⟩
  obtain ⟨d, p, a1, a2, a3, a4, a5⟩ := h v h0 (by omega)
  refine ⟨d, by rw [atInt_map, a1]; rfl, fun path c hp => a3 path c (pathTo_mono (fun _ _ _ => numEdge_orTop) hp), fun hd => ?_⟩
  obtain ⟨path, hp, hf⟩ := a5 (fun hp => hd (a4 hp))
  exact ⟨path, pathTo_num hinf (fun u v w ⟨i, n, _, h2, e, he, _, h4⟩ => h4 ▸ hnn' i n h2 e he) hp hd, hf⟩

/-! ### Three nodes in a line, the second edge is a NaN -/

section Demo

def demoGraph : Graph Unit (Dbl ℕ∞) :=
  [⟨(), [⟨1, 0, .num 2, 0⟩], [⟨0, 1, .num 2, 0⟩]⟩,
   ⟨(), [⟨0, 1, .num 2, 0⟩, ⟨2, 1, .nan, 0⟩], [⟨1, 0, .num 2, 0⟩, ⟨1, 2, .nan, 0⟩]⟩,
   ⟨(), [⟨1, 2, .nan, 0⟩], [⟨2, 1, .nan, 0⟩]⟩]

def demoGet (i : Int) : Res (Node Unit (Dbl ℕ∞)) := atInt demoGraph i

theorem demo_access : Access demoGraph 3 demoGet := by
  refine ⟨rfl, fun i n h => ?_⟩
  unfold demoGet atInt atChecked
  rw [if_neg (by omega), Int.toNat_natCast, h]

theorem demo_link : ValidLinkage demoGraph := by
  intro i n h
  match i, h with
  | 0, h => cases h; simp only [List.mem_cons, List.not_mem_nil, or_false, forall_eq_or_imp, forall_eq]
            exact ⟨⟨rfl, 1, _, rfl, by decide, rfl, _, List.mem_cons_self, rfl⟩, ⟨rfl, 1, _, rfl, by decide, rfl, _, List.mem_cons_self, rfl⟩⟩
  | 1, h => cases h; simp only [List.mem_cons, List.not_mem_nil, or_false, forall_eq_or_imp, forall_eq]
            exact ⟨⟨⟨rfl, 0, _, rfl, by decide, rfl, _, List.mem_cons_self, rfl⟩, ⟨rfl, 2, _, rfl, by decide, rfl, _, List.mem_cons_self, rfl⟩⟩,
              ⟨⟨rfl, 0, _, rfl, by decide, rfl, _, List.mem_cons_self, rfl⟩, ⟨rfl, 2, _, rfl, by decide, rfl, _, List.mem_cons_self, rfl⟩⟩⟩
  | 2, h => cases h; simp only [List.mem_cons, List.not_mem_nil, or_false, forall_eq_or_imp, forall_eq]
            exact ⟨⟨rfl, 1, _, rfl, by decide, rfl, ⟨1, 2, .nan, 0⟩, List.mem_cons_of_mem _ List.mem_cons_self, rfl⟩,
              ⟨rfl, 1, _, rfl, by decide, rfl, ⟨2, 1, .nan, 0⟩, List.mem_cons_of_mem _ List.mem_cons_self, rfl⟩⟩
  | i + 3, h => cases h

theorem demo_nonneg : ∀ (i : Nat) (n : Node Unit (Dbl ℕ∞)), demoGraph[i]? = some n → ∀ e ∈ n.ins, NotNegative e.weight := by
  intro i n h
  match i, h with
  | 0, h => cases h; simp [NotNegative, Dbl.zero_def]
  | 1, h => cases h; simp [NotNegative, Dbl.zero_def]
  | 2, h => cases h; simp [NotNegative, Dbl.zero_def]
  | i + 3, h => cases h

/-- Node 1 is at distance 2, node 2 cannot be reached. -/
theorem demo_run : DijkstraRun 3 demoGet 0 (.ok ([0, 0, -1], [.num 0, .num 2, .num ⊤])) := by
  have := DijkstraRun.done (size := 3) (get := demoGet) (start := 0)
    (st := ⟨[0, 0, -1], [.num 0, .num 2, .num ⊤], [], [1, 0]⟩) rfl
    (.step (b := ⟨[0, 0, -1], [.num 0, .num 2, .num ⊤], [(1, .num 2)], [0]⟩)
      (.mk (top := (0, .num 0)) (rest := []) ⟨List.Perm.refl _, by simp⟩ (by rfl))
      (.step (.mk (top := (1, .num 2)) (rest := []) ⟨List.Perm.refl _, by simp⟩ (by rfl)) (.refl _))) rfl
  exact this

example := C102_dijkstra_distances (fun _ => by simp) demo_access demo_link demo_nonneg (by decide) demo_run

end Demo

end CRU.NaN
