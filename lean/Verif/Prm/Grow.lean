import Verif.Prm.Linear
/-
  C66: what `GrowRoadMap` does.
-/
namespace CRU.Prm
open CRU.Graph CRU.Knn CRU.Parallel CRU.GraphSearch

variable {V C σ : Type} [LinearOrder C] [Zero C]

/-- Any two nodes of the roadmap are at a distance other than zero, measured from the earlier to the later. -/
def NoZeroDistance (dist : V → V → C) (g : Graph V C) : Prop :=
  ∀ (i j : Nat) (n m : Node V C), i < j → g[i]? = some n → g[j]? = some m → dist n.value m.value ≠ 0

/-! ### Sizes -/

theorem addEdge_length (g : Graph V C) (s d : Int) (w : C) : (CRU.Graph.addEdge g s d w).1.length = g.length := by
  rw [addEdge_eq]
  split
  · split
    · rfl
    · exact length_link g _ _ w
  · rfl

theorem optEdge_length (g : Graph V C) (s d : Int) (w : C) :
    (if 0 ≤ w then graphOps.addEdge g s d w else (g, Res.ok ())).1.length = g.length := by
  split
  · exact addEdge_length g s d w
  · rfl

theorem addEdgesLoop_length (k : Int) (l : List (Entry C × (C × C))) (g : Graph V C) :
    (addEdgesLoop graphOps k l g).1.length = g.length := by
  induction l generalizing g with
  | nil => rfl
  | cons p l ih =>
    obtain ⟨e, d⟩ := p
    have h1 := optEdge_length g e.index k d.1
    unfold addEdgesLoop
    generalize (if 0 ≤ d.1 then graphOps.addEdge g e.index k d.1 else (g, Res.ok ())) = r1 at h1
    obtain ⟨g1, _ | x | _⟩ := r1
    · have h2 := optEdge_length g1 k e.index d.2
      dsimp only
      generalize (if 0 ≤ d.2 then graphOps.addEdge g1 k e.index d.2 else (g1, Res.ok ())) = r2 at h2
      obtain ⟨g2, _ | x | _⟩ := r2
      · exact (ih g2).trans (h2.trans h1)
      · exact h2.trans h1
      · exact h2.trans h1
    · exact h1
    · exact h1

theorem insertState_length (e : Env V C) (state : V) (dir : Dir) (l : List (Entry C)) (order : List Int) (init : List (C × C))
    (g : Graph V C) : (insertState graphOps e state dir l order init g).1.length = g.length + 1 := by
  have hA : (graphOps.addValue g state).1.length = g.length + 1 := by
    show (addNodeValue g state).1.length = _
    rw [((C14_effects g).1 state).1]; simp
  unfold insertState
  generalize graphOps.addValue g state = p at hA
  obtain ⟨g1, k⟩ := p
  dsimp only
  split
  · rename_i ds _
    have := addEdgesLoop_length k (l.zip ds) g1
    generalize addEdgesLoop graphOps k (l.zip ds) g1 = q at this
    obtain ⟨g2, _ | x | _⟩ := q <;> exact this.trans hA
  · exact hA
  · exact hA

theorem addNode_length {e : Env V C} {state : V} {dir : Dir} {maxNode : Int} {g : Graph V C} {r : Graph V C × Res Int}
    (h : AddNodeRun graphOps e state dir maxNode g r) : g.length ≤ r.1.length := by
  cases h with
  | knnThrows => exact le_rfl
  | knnUb => exact le_rfl
  | duplicate => exact le_rfl
  | added => rw [insertState_length]; omega

theorem grow_length {e : Env V C} {ge : GrowEnv σ V} {s : σ} {g : Graph V C} {st : Stats} {out : Graph V C × Res Stats}
    (h : GrowRun e ge s g st out) : g.length ≤ out.1.length := by
  induction h with
  | stop => exact le_rfl
  | failed _ _ _ _ ih => exact ih
  | grown _ _ _ ha _ ih => exact le_trans (addNode_length ha) ih
  | throws _ _ _ ha => exact addNode_length ha
  | ub _ _ _ ha => exact addNode_length ha

/-- Every edge of the grown roadmap is an edge of the old one, or was accepted by the check in its own direction, carries the
distance in its own direction and touches a new node. -/
theorem addNode_edges (e : Env V C) (hs : e.knn.Sound e.dist) (hK : 0 ≤ e.K) (hinf : e.infeasible < 0) (state : V)
    (maxNode : Int) (g g' : Graph V C) (i : Int) (h0 : 0 ≤ maxNode) (h1 : maxNode ≤ g.length) (hsz : InI64 g.length) (hth : InI64 e.threads)
   
    (hsym : e.symmetric = true → SymmetricFns e.valid e.dist)
    (hr : AddNodeRun graphOps e state .roadmapToNew maxNode g (g', .ok i))
    (hE : EdgesSatisfy g (fun a b w => Checked e.valid e.dist a b w ∧ 0 ≤ w)) :
    EdgesSatisfy g' (fun a b w => Checked e.valid e.dist a b w ∧ 0 ≤ w) := by
  rcases C40_add_node_partial e hs hK hinf state .roadmapToNew maxNode g h0 h1 hsz hth _ hr with
    ⟨_, k, n, h, _⟩ | ⟨g'', l, b1, b2, b3, b4, _, _, b5⟩
  · cases h; exact hE
  cases b1
  have hval : ∀ u a, HasValue g u a → HasValue g' u a := by
    rintro u a ⟨k, n, rfl, hn, rfl⟩
    obtain ⟨n', c1, c2, _⟩ := b4.old k n hn
    exact ⟨k, n', rfl, c1, c2⟩
  have hnew : HasValue g' (g.length : Int) state := by
    obtain ⟨n, c1, c2⟩ := b4.new
    exact ⟨g.length, n, rfl, c1, c2⟩
  intro u v w hw
  rcases (b5 (by rintro (h | h); · exact hsym h
                 · cases h) u v w).mp hw with h | ⟨nb, hnb, b, hb, h⟩
  · obtain ⟨a, b, ha, hb, h⟩ := hE u v w h
    exact ⟨a, b, hval u a ha, hval v b hb, h⟩
  · rcases h with ⟨rfl, rfl, c1, c2, c3⟩ | ⟨rfl, rfl, c1, c2, c3⟩
    · exact ⟨b, state, hval _ b hb, hnew, ⟨c1, c2⟩, c3⟩
    · exact ⟨state, b, hnew, hval _ b hb, ⟨c1, c2⟩, c3⟩

/-- C66: whatever the samples are, when `GrowRoadMap` ends it has not failed; the statistics add up, the roadmap has grown by
exactly the successful samples, its old nodes keep their states and edges, linkage is kept, and if the edges of the old
roadmap were checked in their own direction, so are those of the new one. -/
theorem C66_grow_roadmap (e : Env V C) (ge : GrowEnv σ V) (hs : e.knn.Sound e.dist) (hK : 0 ≤ e.K) (hinf : e.infeasible < 0)
    (hth : InI64 e.threads)
   
    (hsym : e.symmetric = true → SymmetricFns e.valid e.dist) (s : σ) (g : Graph V C) (out : Graph V C × Res Stats)
    (hr : GrowRun e ge s g ⟨0, 0, 0, 0⟩ out) (hsz : InI64 out.1.length) :
    ∃ st, out.2 = .ok st ∧ st.total = st.successful + st.duplicate + st.failed ∧
      out.1.length = g.length + st.successful ∧
      (e.addDuplicates = true → st.duplicate = 0) ∧
      (∀ (i : Nat) (n : Node V C), g[i]? = some n → ∃ n', out.1[i]? = some n' ∧ n'.value = n.value ∧
        n.ins <+: n'.ins ∧ n.outs <+: n'.outs) ∧
      (Mirrored g → Mirrored out.1) ∧ (ValidLinkage g → ValidLinkage out.1) ∧
      (EdgesSatisfy g (fun a b w => Checked e.valid e.dist a b w ∧ 0 ≤ w) →
        EdgesSatisfy out.1 (fun a b w => Checked e.valid e.dist a b w ∧ 0 ≤ w)) := by
  have key : ∀ st0, GrowRun e ge s g st0 out → InI64 out.1.length →
      ∃ st, out.2 = .ok st ∧
        st.total + (st0.successful + st0.duplicate + st0.failed) = st0.total + (st.successful + st.duplicate + st.failed) ∧
        out.1.length + st0.successful = g.length + st.successful ∧
        (e.addDuplicates = true → st.duplicate = st0.duplicate) ∧
        (∀ (i : Nat) (n : Node V C), g[i]? = some n → ∃ n', out.1[i]? = some n' ∧ n'.value = n.value ∧
          n.ins <+: n'.ins ∧ n.outs <+: n'.outs) ∧
        (Mirrored g → Mirrored out.1) ∧ (ValidLinkage g → ValidLinkage out.1) ∧
        (EdgesSatisfy g (fun a b w => Checked e.valid e.dist a b w ∧ 0 ≤ w) →
          EdgesSatisfy out.1 (fun a b w => Checked e.valid e.dist a b w ∧ 0 ≤ w)) := by
    intro st0 h hsz
    clear hr
    induction h with
    | @stop s g st h =>
      exact ⟨st, rfl, rfl, rfl, fun _ => rfl, fun i n hn => ⟨n, hn, rfl, List.prefix_rfl, List.prefix_rfl⟩, id, id, id⟩
    | @failed s g st out s1 s2 s3 x h h2 h3 rest ih =>
      obtain ⟨st', a1, a2, a3, a4, a5⟩ := ih hsz hsz
      exact ⟨st', a1, by dsimp only at a2; omega, a3, a4, a5⟩
    | @grown s g g' st out s1 s2 s3 x i h h2 h3 ha rest ih =>
      have hg' : g'.length ≤ out.1.length := grow_length rest
      have hgg : g.length ≤ g'.length := addNode_length ha
      have hI : InI64 g.length := by unfold InI64 at *; omega
      obtain ⟨st', a1, a2, a3, a4, a5, a6, a7, a8⟩ := ih hsz hsz
      have hedge := addNode_edges e hs hK hinf x g.length g g' i (by omega) le_rfl hI hth hsym ha
      rcases C40_add_node_partial e hs hK hinf x .roadmapToNew g.length g (by omega) le_rfl hI hth _ ha with
        ⟨hd, k, n, hk, _⟩ | ⟨g'', l, b1, b2, b3, b4, b5, b6, b7⟩
      · cases hk
        rw [if_neg (by omega)] at a2 a3 a4
        dsimp only at a2 a3 a4
        exact ⟨st', a1, by omega, by omega, fun h => (by rw [hd] at h; cases h), a5, a6, a7, a8⟩
      · cases b1
        have hl := b4.length
        rw [if_pos (by omega)] at a2 a3 a4
        dsimp only at a2 a3 a4
        refine ⟨st', a1, by omega, by omega, a4, fun i n hn => ?_, fun h => a6 (b5 h), fun h => a7 (b6 h), fun h => a8 (hedge h)⟩
        obtain ⟨n1, c1, c2, c3, c4⟩ := b4.old i n hn
        obtain ⟨n2, d1, d2, d3, d4⟩ := a5 i n1 c1
        exact ⟨n2, d1, d2.trans c2, c3.trans d3, c4.trans d4⟩
    | @throws s g g' st s1 s2 s3 x ex h h2 h3 ha =>
      exfalso
      have hgg : g.length ≤ g'.length := addNode_length ha
      have hI : InI64 g.length := by have hsz : InI64 g'.length := hsz; unfold InI64 at *; omega
      rcases C40_add_node_partial e hs hK hinf x .roadmapToNew g.length g (by omega) le_rfl hI hth _ ha with ⟨_, k, n, hk, _⟩ | ⟨g'', l, b1, _⟩
      · cases hk
      · cases b1
    | @ub s g g' st s1 s2 s3 x h h2 h3 ha =>
      exfalso
      have hgg : g.length ≤ g'.length := addNode_length ha
      have hI : InI64 g.length := by have hsz : InI64 g'.length := hsz; unfold InI64 at *; omega
      rcases C40_add_node_partial e hs hK hinf x .roadmapToNew g.length g (by omega) le_rfl hI hth _ ha with ⟨_, k, n, hk, _⟩ | ⟨g'', l, b1, _⟩
      · cases hk
      · cases b1
  obtain ⟨st, a1, a2, a3, a4, a5⟩ := key _ hr hsz
  exact ⟨st, a1, by dsimp only at a2; omega, by dsimp only at a3; omega, a4, a5⟩

/-- Growing keeps states. -/
theorem grow_keeps (e : Env V C) (ge : GrowEnv σ V) (hs : e.knn.Sound e.dist) (hK : 0 ≤ e.K) (hinf : e.infeasible < 0) (hth : InI64 e.threads)
    {s : σ} {g : Graph V C} {st0 : Stats} {out : Graph V C × Res Stats} (hr : GrowRun e ge s g st0 out) (hsz : InI64 out.1.length) :
    ∀ (i : Nat) (n : Node V C), g[i]? = some n → ∃ n', out.1[i]? = some n' ∧ n'.value = n.value := by
  have one : ∀ {x : V} {g g' : Graph V C} {r : Res Int}, InI64 g.length →
      AddNodeRun graphOps e x .roadmapToNew g.length g (g', r) → ∀ (i : Nat) (n : Node V C), g[i]? = some n →
      ∃ n', g'[i]? = some n' ∧ n'.value = n.value := by
    intro x g g' r hI ha i n hn
    rcases C40_add_node_partial e hs hK hinf x .roadmapToNew g.length g (by omega) le_rfl hI hth _ ha with
      ⟨_, k, m, hk, _⟩ | ⟨g'', l, b1, b2, b3, b4, _⟩
    · cases hk; exact ⟨n, hn, rfl⟩
    · cases b1
      obtain ⟨n1, c1, c2, -⟩ := b4.old i n hn
      exact ⟨n1, c1, c2⟩
  induction hr with
  | stop => exact fun i n hn => ⟨n, hn, rfl⟩
  | failed _ _ _ _ ih => exact ih hsz
  | @grown s g g' st out s1 s2 s3 x i h h2 h3 ha rest ih =>
    have hg' : g'.length ≤ out.1.length := grow_length rest
    have hgg : g.length ≤ g'.length := addNode_length ha
    intro k n hn
    obtain ⟨n1, c1, c2⟩ := one (by unfold InI64 at *; omega) ha k n hn
    obtain ⟨n2, d1, d2⟩ := ih hsz k n1 c1
    exact ⟨n2, d1, d2.trans c2⟩
  | @throws s g g' st s1 s2 s3 x ex h h2 h3 ha =>
    have hgg : g.length ≤ g'.length := addNode_length ha
    exact one (by have hsz : InI64 g'.length := hsz; unfold InI64 at *; omega) ha
  | @ub s g g' st s1 s2 s3 x h h2 h3 ha =>
    have hgg : g.length ≤ g'.length := addNode_length ha
    exact one (by have hsz : InI64 g'.length := hsz; unfold InI64 at *; omega) ha

/-- C66: every state that `GrowRoadMap` adds was sampled and then found valid. -/
theorem C66_grow_states_valid (e : Env V C) (ge : GrowEnv σ V) (hs : e.knn.Sound e.dist) (hK : 0 ≤ e.K) (hinf : e.infeasible < 0)
    (hth : InI64 e.threads) (s : σ) (g : Graph V C) (st0 : Stats) (out : Graph V C × Res Stats) (hr : GrowRun e ge s g st0 out)
    (hsz : InI64 out.1.length) :
    ∀ (i : Nat) (n : Node V C), g.length ≤ i → out.1[i]? = some n →
      ∃ s1 s2 s3, ge.sample s1 = (n.value, s2) ∧ ge.stateValid s2 n.value = (true, s3) := by
  have one : ∀ {x : V} {g g' : Graph V C} {r : Res Int} {s1 s2 s3 : σ}, InI64 g.length → ge.sample s1 = (x, s2) → ge.stateValid s2 x = (true, s3) →
      AddNodeRun graphOps e x .roadmapToNew g.length g (g', r) → ∀ (i : Nat) (n : Node V C), g.length ≤ i → g'[i]? = some n →
      ∃ s1 s2 s3, ge.sample s1 = (n.value, s2) ∧ ge.stateValid s2 n.value = (true, s3) := by
    intro x g g' r s1 s2 s3 hI hx hv ha i n hi hn
    obtain ⟨hlt, -⟩ := List.getElem?_eq_some_iff.mp hn
    rcases C40_add_node_partial e hs hK hinf x .roadmapToNew g.length g (by omega) le_rfl hI hth _ ha with
      ⟨_, k, m, hk, _⟩ | ⟨g'', l, b1, b2, b3, b4, _⟩
    · cases hk; omega
    · cases b1
      have hl := b4.length
      obtain rfl : i = g.length := by omega
      obtain ⟨m, d1, d2⟩ := b4.new
      rw [hn] at d1; cases d1
      rw [d2]
      exact ⟨s1, s2, s3, hx, hv⟩
  induction hr with
  | @stop s g st h =>
    intro i n hi hn
    obtain ⟨hlt, -⟩ := List.getElem?_eq_some_iff.mp hn
    exact absurd hlt (by simpa using hi)
  | failed _ _ _ _ ih => exact ih hsz
  | @grown s g g' st out s1 s2 s3 x i h h2 h3 ha rest ih =>
    have hg' : g'.length ≤ out.1.length := grow_length rest
    have hgg : g.length ≤ g'.length := addNode_length ha
    have hI : InI64 g'.length := by unfold InI64 at *; omega
    intro k n hk hn
    by_cases hkl : g'.length ≤ k
    · exact ih hsz k n hkl hn
    · have hlt : k < g'.length := by omega
      obtain ⟨n', c1, c2⟩ := grow_keeps e ge hs hK hinf hth rest hsz k g'[k] (List.getElem?_eq_getElem hlt)
      rw [hn] at c1; cases c1
      rw [c2]
      exact one (by unfold InI64 at *; omega) h2 h3 ha k g'[k] hk (List.getElem?_eq_getElem hlt)
  | @throws s g g' st s1 s2 s3 x ex h h2 h3 ha =>
    have hgg : g.length ≤ g'.length := addNode_length ha
    exact one (by have hsz : InI64 g'.length := hsz; unfold InI64 at *; omega) h2 h3 ha
  | @ub s g g' st s1 s2 s3 x h h2 h3 ha =>
    have hgg : g.length ≤ g'.length := addNode_length ha
    exact one (by have hsz : InI64 g'.length := hsz; unfold InI64 at *; omega) h2 h3 ha

/-- C66: with a provider that finds the nearest node (`K ≥ 1`), duplicates refused and distances not negative, growing
never puts two states at distance zero into the roadmap. -/
theorem C66_grow_no_duplicates (e : Env V C) (ge : GrowEnv σ V) (hs : e.knn.Nearest e.dist) (hK : 1 ≤ e.K)
    (hinf : e.infeasible < 0) (hth : InI64 e.threads)
   
    (hdup : e.addDuplicates = false) (hpos : ∀ a b, 0 ≤ e.dist a b) (s : σ) (g : Graph V C) (out : Graph V C × Res Stats)
    (hr : GrowRun e ge s g ⟨0, 0, 0, 0⟩ out) (hsz : InI64 out.1.length) (hg : NoZeroDistance e.dist g) :
    NoZeroDistance e.dist out.1 := by
  have hone : ∀ (x : V) (g g' : Graph V C) (r : Res Int), InI64 g.length → NoZeroDistance e.dist g →
      AddNodeRun graphOps e x .roadmapToNew g.length g (g', r) → NoZeroDistance e.dist g' := by
    intro x g g' r hI hg ha
    rcases C40_add_node_partial e hs.sound (by omega) hinf x .roadmapToNew g.length g (by omega) le_rfl hI hth _ ha with ⟨_, k, n, hk, _⟩ | ⟨g'', l, b1, b2, b3, b4, _⟩
    · cases hk; exact hg
    cases b1
    have hacc : Access g g.length (getNode g) :=
      ⟨rfl, fun i n hn => by obtain ⟨hi, rfl⟩ := List.getElem?_eq_some_iff.mp hn; exact getNode_ok g i hi⟩
    obtain ⟨l', hl', hnear⟩ := hs g g.length (getNode g) x e.K .roadmapToNew g.length (.ok l) hacc hI (by omega) (by omega) le_rfl b2
    cases hl'
    -- no old node is at distance zero from the new state
    have hnz : ∀ (i : Nat) (n : Node V C), g[i]? = some n → e.dist n.value x ≠ 0 := by
      intro i n hn hz
      obtain ⟨hi, _⟩ := List.getElem?_eq_some_iff.mp hn
      have hdist : nodeDist e.dist .roadmapToNew g x (i : Int) = 0 := by
        unfold nodeDist
        rw [Int.toNat_natCast, hn]
        exact hz
      by_cases hmem : (i : Int) ∈ l.map (·.index)
      · obtain ⟨nb, hnb, hidx⟩ := List.mem_map.mp hmem
        have := hnear.trueDist nb hnb
        rw [hidx, hdist] at this
        exact b3 hdup nb hnb this
      · have hne : l ≠ [] := by
          intro h
          have := hnear.length
          rw [h] at this
          simp only [List.length_nil, Nat.cast_zero] at this
          omega
        obtain ⟨nb, hnb⟩ := List.exists_mem_of_ne_nil l hne
        have h1 := hnear.nearest nb hnb i (by omega) (by omega) hmem
        rw [hdist] at h1
        have h2 : 0 ≤ nb.dist := by
          obtain ⟨c1, c2⟩ := hnear.inRange nb hnb
          rw [hnear.trueDist nb hnb]
          unfold nodeDist
          rw [List.getElem?_eq_getElem (by omega : nb.index.toNat < g.length)]
          exact hpos _ _
        exact b3 hdup nb hnb (le_antisymm h1 h2)
    intro i j n m hij hn hm
    obtain ⟨hj, _⟩ := List.getElem?_eq_some_iff.mp hm
    have hlen' := b4.length
    have hilt : i < g.length := by omega
    obtain ⟨n1, c1, c2, _⟩ := b4.old i g[i] (List.getElem?_eq_getElem hilt)
    rw [hn] at c1; cases c1
    rw [c2]
    by_cases hjl : j < g.length
    · obtain ⟨m1, d1, d2, _⟩ := b4.old j g[j] (List.getElem?_eq_getElem hjl)
      rw [hm] at d1; cases d1
      rw [d2]
      exact hg i j _ _ hij (List.getElem?_eq_getElem hilt) (List.getElem?_eq_getElem hjl)
    · obtain rfl : j = g.length := by omega
      obtain ⟨m1, d1, d2⟩ := b4.new
      rw [hm] at d1; cases d1
      rw [d2]
      exact hnz i _ (List.getElem?_eq_getElem hilt)
  generalize (⟨0, 0, 0, 0⟩ : Stats) = st0 at hr
  induction hr with
  | stop => exact hg
  | failed _ _ _ _ ih => exact ih hsz hg
  | @grown s g g' st out s1 s2 s3 x i h h2 h3 ha rest ih =>
    have hg' : g'.length ≤ out.1.length := grow_length rest
    have hgg : g.length ≤ g'.length := addNode_length ha
    exact ih hsz (hone x g g' _ (by unfold InI64 at *; omega) hg ha)
  | @throws s g g' st s1 s2 s3 x ex h h2 h3 ha =>
    have hgg : g.length ≤ g'.length := addNode_length ha
    exact hone x g g' _ (by have hsz : InI64 g'.length := hsz; unfold InI64 at *; omega) hg ha
  | @ub s g g' st s1 s2 s3 x h h2 h3 ha =>
    have hgg : g.length ≤ g'.length := addNode_length ha
    exact hone x g g' _ (by have hsz : InI64 g'.length := hsz; unfold InI64 at *; omega) hg ha

/-- The sampler of the example returns the numbers 0, 5, 5, 7; 7 is not valid; it stops after four samples. -/
def exampleGrow : GrowEnv Nat Int where
  sample s := ((if s = 0 then 0 else if s ≤ 2 then 5 else 7), s + 1)
  stateValid s x := (decide (x < 6), s)
  terminate s _ := (decide (s = 4), s)

/-- The hypotheses of C66 hold: a run that meets a duplicate and an invalid sample. -/
example : ∃ g, GrowRun (upEnv false) exampleGrow 0 [] ⟨0, 0, 0, 0⟩ (g, .ok ⟨4, 2, 1, 1⟩) ∧ g.length = 2 := by
  have q0 : KnnQuery (upEnv false).knn (graphOps.size ([] : Graph Int Int)) (graphOps.get ([] : Graph Int Int)) 0 2 .roadmapToNew 0
      (.ok []) := by
    refine ⟨.ok [], ?_, rfl⟩
    show KnnRun psSort .async 1 ([] : List (Node Int Int)) _ 0 0 2 _
    unfold KnnRun
    rw [if_neg (by omega)]
    rfl
  have r0 := AddNodeRun.added (ops := graphOps) (e := upEnv false) (state := 0) (dir := .roadmapToNew) (maxNode := 0)
      (g := ([] : Graph Int Int)) (order := []) (init := []) q0 (Or.inr rfl) ⟨[], [], rfl, .done (by simp), rfl⟩ rfl
  have r1 := AddNodeRun.added (ops := graphOps) (e := upEnv false) (state := 5) (dir := .roadmapToNew) (maxNode := 1)
      (g := [(⟨0, [], []⟩ : Node Int Int)]) (order := [0]) (init := [(0, 0)]) (upEnv_query false 5 .roadmapToNew) (Or.inr rfl)
      ⟨[[⟨0, 0⟩]], [⟨0, 0⟩], rfl, .step 0 _ [] [] rfl (.done (by simp)), rfl⟩ rfl
  have q2 : KnnQuery (upEnv false).knn 2 (getNode [(⟨0, [], [⟨0, 1, 10, 0⟩]⟩ : Node Int Int), ⟨5, [⟨0, 1, 10, 0⟩], []⟩]) 5 2
      .roadmapToNew 2 (.ok [⟨0, 10⟩, ⟨1, 0⟩]) := by
    refine ⟨.ok [⟨0, 10⟩, ⟨1, 0⟩], ?_, rfl⟩
    show KnnRun psSort .async 1 [(⟨0, [], [⟨0, 1, 10, 0⟩]⟩ : Node Int Int), ⟨5, [⟨0, 1, 10, 0⟩], []⟩] _ 0 2 2 _
    unfold KnnRun
    rw [if_neg (by omega)]
    rfl
  have r2 := AddNodeRun.duplicate (ops := graphOps) (e := upEnv false) (state := 5) (dir := .roadmapToNew) (maxNode := 2)
      (g := [(⟨0, [], [⟨0, 1, 10, 0⟩]⟩ : Node Int Int), ⟨5, [⟨0, 1, 10, 0⟩], []⟩]) (d := ⟨1, 0⟩) q2 rfl rfl
  exact ⟨_, .grown (x := 0) (i := 0) (g' := [⟨0, [], []⟩]) rfl rfl rfl r0 (.grown (x := 5) (i := 1) rfl rfl rfl r1
    (.grown (x := 5) (i := 1) rfl rfl rfl r2 (.failed rfl rfl rfl (.stop rfl)))), rfl⟩

end CRU.Prm
