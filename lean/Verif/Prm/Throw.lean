import Verif.Prm.Linear
import Verif.Prm.Grow
import Verif.Knn.Throw
/-
  C108, roadmap construction with functions that may throw: the neighbour query, the edge checks, the distances, and the sampling, state checking and
  termination functions. `.ok (.error x)` means that the call throws the caller's exception `x`; `Res` has the library's own exceptions.
-/
namespace CRU.Prm.Throw
open CRU.Graph CRU.Knn CRU.Parallel CRU.GraphSearch CRU.Distances.Throw
open CRU.Knn.Throw (assignAll assignAll_ok assignAll_fill)
set_option linter.unusedSectionVars false

variable {V C G σ ε : Type}

/-- A neighbour query that may throw. (simple_prm_planner.hpp:37-79) -/
abbrev Provider (V C ε : Type) :=
  (size : Int) → (get : Int → Res (Node V C)) → (state : V) → (K : Int) → (dir : Dir) → (maxNode : Int) →
    (r : Res (Except ε (List (Entry C)))) → Prop

/-- The arguments of the functions of the planner. (simple_prm_planner.hpp:233-245) -/
structure Env (V C ε : Type) where
  knn : Provider V C ε
  dist : V → V → Except ε C
  valid : V → V → Except ε Bool
  infeasible : C
  K : Int
  backend : Backend
  threads : Int
  symmetric : Bool
  addDuplicates : Bool

/-! ### Model -/

section
variable [LinearOrder C] [Zero C]

/-- simple_prm_planner.hpp:46-79 `GetKNearestNeighbors`. -/
def KnnQuery (knn : Provider V C ε) (size : Int) (get : Int → Res (Node V C)) (state : V) (K : Int) (dir : Dir) (maxNode : Int)
    (r : Res (Except ε (List (Entry C)))) : Prop :=
  ∃ r0, knn size get state K dir maxNode r0 ∧ r = (do
    match ← r0 with
    | .error x => pure (.error x)
    | .ok l =>
      sanityCheck l size maxNode
      pure (.ok l))

/-- simple_prm_planner.hpp:276-319, `per_item_work` for a neighbour with state `nb` at distance `d`. -/
def itemWork (e : Env V C ε) (dir : Dir) (state nb : V) (d : C) : Except ε (C × C) :=
  match e.valid nb state with
  | .error x => .error x
  | .ok graphToNodeValid =>
    if graphToNodeValid && e.symmetric then .ok (d, d)
    else if !e.symmetric then
      match e.valid state nb with
      | .error x => .error x
      | .ok nodeToGraphValid =>
        match e.dist state nb with
        | .error x => .error x
        | .ok nodeToGraphDistance =>
          let realGraphToNode := if graphToNodeValid then d else e.infeasible
          let realNodeToGraph := if nodeToGraphValid then nodeToGraphDistance else e.infeasible
          match dir with
          | .roadmapToNew => .ok (realGraphToNode, realNodeToGraph)
          | .newToRoadmap => .ok (realNodeToGraph, realGraphToNode)
    else .ok (e.infeasible, e.infeasible)

/-- simple_prm_planner.hpp:271-320 `per_item_work`: one pair of distances for its place, or an exception. -/
def itemBody (ops : GraphOps G V C) (e : Env V C ε) (dir : Dir) (state : V) (l : List (Entry C)) (g1 : G) (c : Call) :
    Res (Effects (Int × (C × C)) ε) := do
  let nb ← atInt l c.index
  let n ← ops.get g1 nb.index
  match itemWork e dir state n.value nb.dist with
  | .error x => pure ([], some x)
  | .ok p => pure ([(c.index, p)], none)

/-- simple_prm_planner.hpp:322-348: the edges, unless the loop has thrown. -/
def finish (ops : GraphOps G V C) (newIdx : Int) (l : List (Entry C)) (g1 : G) : Res (Except ε (List (C × C))) → G × Res (Except ε Int)
  | .ok (.error x) => (g1, .ok (.error x))
  | .ok (.ok ds) =>
    match addEdgesLoop ops newIdx (l.zip ds) g1 with
    | (g2, .ok ()) => (g2, .ok (.ok newIdx))
    | (g2, .throw x) => (g2, .throw x)
    | (g2, .ub) => (g2, .ub)
  | .throw x => (g1, .throw x)
  | .ub => (g1, .ub)

/-- simple_prm_planner.hpp:233-349 `AddNodeToRoadmap`: the roadmap that is left behind, and the outcome. -/
inductive AddNodeRun (ops : GraphOps G V C) (e : Env V C ε) (state : V) (dir : Dir) (maxNode : Int) (g : G) : G × Res (Except ε Int) → Prop
  | knnRaises {x : ε} (h : KnnQuery e.knn (ops.size g) (ops.get g) state e.K dir maxNode (.ok (.error x))) :
      AddNodeRun ops e state dir maxNode g (g, .ok (.error x))
  | knnThrows {x : Exc} (h : KnnQuery e.knn (ops.size g) (ops.get g) state e.K dir maxNode (.throw x)) :
      AddNodeRun ops e state dir maxNode g (g, .throw x)
  | knnUb (h : KnnQuery e.knn (ops.size g) (ops.get g) state e.K dir maxNode .ub) : AddNodeRun ops e state dir maxNode g (g, .ub)
  | duplicate {l : List (Entry C)} {d : Entry C}
      (h : KnnQuery e.knn (ops.size g) (ops.get g) state e.K dir maxNode (.ok (.ok l))) (hd : e.addDuplicates = false)
      (hf : firstDuplicate l = some d) : AddNodeRun ops e state dir maxNode g (g, .ok (.ok d.index))
  | added {l : List (Entry C)} {ws : List (List Call)} {init : List (C × C)} {o : Res (Except ε (List (C × C)))}
      (h : KnnQuery e.knn (ops.size g) (ops.get g) state e.K dir maxNode (.ok (.ok l)))
      (hd : e.addDuplicates = true ∨ firstDuplicate l = none)
      (hw : staticIndexLoop e.backend e.threads 0 l.length = .ok ws) (hi : init.length = l.length)
      (ho : BodyRun e.backend.isOmp (itemBody ops e dir state l (ops.addValue g state).1) ws (fun tr => assignAll tr init) o) :
      AddNodeRun ops e state dir maxNode g (finish ops (ops.addValue g state).2 l (ops.addValue g state).1 o)

/-- The functions handed to `GrowRoadMap`, which may have a state of their own. (simple_prm_planner.hpp:379-391) -/
structure GrowEnv (σ V ε : Type) where
  sample : σ → Except ε V × σ
  stateValid : σ → V → Except ε Bool × σ
  terminate : σ → Int → Except ε Bool × σ

/-- simple_prm_planner.hpp:379-432 `GrowRoadMap`: the roadmap that is left behind, and the outcome. -/
inductive GrowRun (e : Env V C ε) (ge : GrowEnv σ V ε) : σ → Graph V C → Stats → Graph V C × Res (Except ε Stats) → Prop
  | stop {s s1 : σ} {g : Graph V C} {st : Stats} (h : ge.terminate s g.length = (.ok true, s1)) : GrowRun e ge s g st (g, .ok (.ok st))
  | terminateRaises {s s1 : σ} {g : Graph V C} {st : Stats} {x : ε} (h : ge.terminate s g.length = (.error x, s1)) :
      GrowRun e ge s g st (g, .ok (.error x))
  | sampleRaises {s s1 s2 : σ} {g : Graph V C} {st : Stats} {x : ε} (h : ge.terminate s g.length = (.ok false, s1))
      (hs : ge.sample s1 = (.error x, s2)) : GrowRun e ge s g st (g, .ok (.error x))
  | validRaises {s s1 s2 s3 : σ} {g : Graph V C} {st : Stats} {q : V} {x : ε} (h : ge.terminate s g.length = (.ok false, s1))
      (hs : ge.sample s1 = (.ok q, s2)) (hv : ge.stateValid s2 q = (.error x, s3)) : GrowRun e ge s g st (g, .ok (.error x))
  | failed {s : σ} {g : Graph V C} {st : Stats} {out : Graph V C × Res (Except ε Stats)} {s1 s2 s3 : σ} {q : V}
      (h : ge.terminate s g.length = (.ok false, s1)) (hs : ge.sample s1 = (.ok q, s2)) (hv : ge.stateValid s2 q = (.ok false, s3))
      (rest : GrowRun e ge s3 g { st with total := st.total + 1, failed := st.failed + 1 } out) : GrowRun e ge s g st out
  | grown {s : σ} {g g' : Graph V C} {st : Stats} {out : Graph V C × Res (Except ε Stats)} {s1 s2 s3 : σ} {q : V} {i : Int}
      (h : ge.terminate s g.length = (.ok false, s1)) (hs : ge.sample s1 = (.ok q, s2)) (hv : ge.stateValid s2 q = (.ok true, s3))
      (ha : AddNodeRun graphOps e q .roadmapToNew g.length g (g', .ok (.ok i)))
      (rest : GrowRun e ge s3 g' (if (g'.length : Int) > g.length
        then { st with total := st.total + 1, successful := st.successful + 1 }
        else { st with total := st.total + 1, duplicate := st.duplicate + 1 }) out) : GrowRun e ge s g st out
  | addRaises {s : σ} {g g' : Graph V C} {st : Stats} {s1 s2 s3 : σ} {q : V} {x : ε}
      (h : ge.terminate s g.length = (.ok false, s1)) (hs : ge.sample s1 = (.ok q, s2)) (hv : ge.stateValid s2 q = (.ok true, s3))
      (ha : AddNodeRun graphOps e q .roadmapToNew g.length g (g', .ok (.error x))) : GrowRun e ge s g st (g', .ok (.error x))
  | addThrows {s : σ} {g g' : Graph V C} {st : Stats} {s1 s2 s3 : σ} {q : V} {x : Exc}
      (h : ge.terminate s g.length = (.ok false, s1)) (hs : ge.sample s1 = (.ok q, s2)) (hv : ge.stateValid s2 q = (.ok true, s3))
      (ha : AddNodeRun graphOps e q .roadmapToNew g.length g (g', .throw x)) : GrowRun e ge s g st (g', .throw x)
  | addUb {s : σ} {g g' : Graph V C} {st : Stats} {s1 s2 s3 : σ} {q : V}
      (h : ge.terminate s g.length = (.ok false, s1)) (hs : ge.sample s1 = (.ok q, s2)) (hv : ge.stateValid s2 q = (.ok true, s3))
      (ha : AddNodeRun graphOps e q .roadmapToNew g.length g (g', .ub)) : GrowRun e ge s g st (g', .ub)

/-! ### Specification -/

/-- Where it returns, the provider keeps its contract (as `Provider.Sound` in Prm/Spec.lean). -/
def Provider.Sound (knn : Provider V C ε) (dist : V → V → Except ε C) : Prop :=
  ∀ (g : Graph V C) (size : Int) (get : Int → Res (Node V C)) (state : V) (K : Int) (dir : Dir) (maxNode : Int)
    (r : Res (Except ε (List (Entry C)))), Access g size get → InI64 size → 0 ≤ K → 0 ≤ maxNode → maxNode ≤ size →
    knn size get state K dir maxNode r →
    (∃ x, r = .ok (.error x)) ∨
    ∃ l, r = .ok (.ok l) ∧ InI64 l.length ∧ ∀ e ∈ l, ∃ (i : Nat) (n : Node V C), e.index = i ∧ (i : Int) < maxNode ∧ g[i]? = some n ∧
      dirDist dist dir n.value state = .ok e.dist

/-- The checks made for a neighbour with state `b` throw `x`: first the check of the edge from the neighbour; then, unless connections are declared
symmetric, the check of the edge to the neighbour, and then the distance to it. -/
def Raises (e : Env V C ε) (state b : V) (x : ε) : Prop :=
  e.valid b state = .error x ∨
  e.symmetric = false ∧ Returns (e.valid b state) ∧
    (e.valid state b = .error x ∨ Returns (e.valid state b) ∧ e.dist state b = .error x)

/-- The same arguments with functions that always return. -/
def Env.total (e : Env V C ε) (valid : V → V → Bool) (dist : V → V → C) : Prm.Env V C where
  knn size get state K dir maxNode r := e.knn size get state K dir maxNode (r >>= fun l => .ok (.ok l))
  dist := dist
  valid := valid
  infeasible := e.infeasible
  K := e.K
  backend := e.backend
  threads := e.threads
  symmetric := e.symmetric
  addDuplicates := e.addDuplicates

/-- `valid` and `dist` have the values of the functions of `e` wherever these return. -/
def Extends (e : Env V C ε) (valid : V → V → Bool) (dist : V → V → C) : Prop :=
  (∀ a b c, e.valid a b = .ok c → valid a b = c) ∧ ∀ a b c, e.dist a b = .ok c → dist a b = c

/-! ### Proofs -/

theorem itemWork_spec (e : Env V C ε) (dir : Dir) (state b : V) (d : C) :
    (∃ p, itemWork e dir state b d = .ok p ∧ (∀ x, ¬ Raises e state b x) ∧
      ∀ valid dist, Extends e valid dist → itemDistances (e.total valid dist) dir state b d = p) ∨
    ∃ x, itemWork e dir state b d = .error x ∧ Raises e state b x := by
  unfold itemWork Raises
  cases h1 : e.valid b state with
  | error x => exact .inr ⟨x, rfl, .inl rfl⟩
  | ok c1 =>
    dsimp only
    cases hsy : e.symmetric with
    | true =>
      left
      cases c1
      · refine ⟨_, rfl, by simp, fun valid dist hx => ?_⟩
        unfold itemDistances
        simp [Env.total, hx.1 _ _ _ h1, hsy]
      · refine ⟨_, rfl, by simp, fun valid dist hx => ?_⟩
        unfold itemDistances
        simp [Env.total, hx.1 _ _ _ h1, hsy]
    | false =>
      simp only [Bool.and_false, Bool.false_eq_true, if_false, Bool.not_false, if_true]
      cases h2 : e.valid state b with
      | error x => exact .inr ⟨x, rfl, .inr ⟨trivial, ⟨_, rfl⟩, .inl rfl⟩⟩
      | ok c2 =>
        dsimp only
        cases h3 : e.dist state b with
        | error x => exact .inr ⟨x, rfl, .inr ⟨trivial, ⟨_, rfl⟩, .inr ⟨⟨_, rfl⟩, rfl⟩⟩⟩
        | ok c3 =>
          left
          dsimp only
          have hd : ∀ valid dist, Extends e valid dist → itemDistances (e.total valid dist) dir state b d =
              (match dir with
              | .roadmapToNew => ((if c1 = true then d else e.infeasible), (if c2 = true then c3 else e.infeasible))
              | .newToRoadmap => ((if c2 = true then c3 else e.infeasible), (if c1 = true then d else e.infeasible))) := by
            intro valid dist hx
            unfold itemDistances
            simp [Env.total, hx.1 _ _ _ h1, hx.1 _ _ _ h2, hx.2 _ _ _ h3, hsy]
            cases dir <;> rfl
          cases dir
          · exact ⟨_, rfl, by simp, hd⟩
          · exact ⟨_, rfl, by simp, hd⟩

theorem index_calls {b : Backend} {threads : Int} {n : Nat} {ws : List (List Call)} (hth : InI64 threads) (hn : InI64 n)
    (hw : staticIndexLoop b threads 0 n = .ok ws) : ∀ c ∈ ws.flatten, 0 ≤ c.index ∧ c.index.toNat < n := by
  intro c hc
  obtain ⟨tr, htr⟩ := Interleaving.exists_run ws
  have hr : IndexRun b threads 0 n (tr.map (·.index)) := ⟨ws, tr, hw, htr, rfl⟩
  have hp := hr.perm (by unfold InI64; omega) hn hth (by simpa using hn) (by omega)
  have := mem_irange.mp (hp.subset (List.mem_map.mpr ⟨c, htr.perm.symm.subset hc, rfl⟩))
  omega

theorem index_all {b : Backend} {threads : Int} {n : Nat} {ws : List (List Call)} (hth : InI64 threads) (hn : InI64 n)
    (hw : staticIndexLoop b threads 0 n = .ok ws) (i : Nat) (hi : i < n) : ∃ c ∈ ws.flatten, c.index.toNat = i := by
  obtain ⟨tr, htr⟩ := Interleaving.exists_run ws
  have hr : IndexRun b threads 0 n (tr.map (·.index)) := ⟨ws, tr, hw, htr, rfl⟩
  have hp := hr.perm (by unfold InI64; omega) hn hth (by simpa using hn) (by omega)
  have hm : (i : Int) ∈ tr.map (·.index) := hp.symm.subset (mem_irange.mpr (by omega))
  obtain ⟨c, hc, hci⟩ := List.mem_map.mp hm
  exact ⟨c, htr.perm.subset hc, by omega⟩

/-- The outcome of the loop over the neighbours. -/
theorem loop_spec (ops : GraphOps G V C) (e : Env V C ε) (dir : Dir) (state : V) (l : List (Entry C)) (g1 : G)
    (val : Entry C → V) (hget : ∀ nb ∈ l, ∃ n, ops.get g1 nb.index = .ok n ∧ n.value = val nb)
    (hth : InI64 e.threads) (hl : InI64 l.length) {ws : List (List Call)} (hw : staticIndexLoop e.backend e.threads 0 l.length = .ok ws)
    {init : List (C × C)} (hi : init.length = l.length) {o : Res (Except ε (List (C × C)))}
    (ho : BodyRun e.backend.isOmp (itemBody ops e dir state l g1) ws (fun tr => assignAll tr init) o) :
    ((∀ nb ∈ l, ∀ x, ¬ Raises e state (val nb) x) ∧ ∃ order ds, IndexRun e.backend e.threads 0 l.length order ∧ o = .ok (.ok ds) ∧
      ∀ valid dist, Extends e valid dist → fillAll (fun i => do
        let nb ← atInt l i
        let n ← ops.get g1 nb.index
        pure (itemDistances (e.total valid dist) dir state n.value nb.dist)) 0 order init = .ok ds) ∨
    ∃ nb ∈ l, ∃ x, Raises e state (val nb) x ∧ o = .ok (.error x) := by
  have hidx := index_calls hth hl hw
  let u : Call → Effects (Int × (C × C)) ε := fun c =>
    match l[c.index.toNat]? with
    | none => ([], none)
    | some nb =>
      match itemWork e dir state (val nb) nb.dist with
      | .error x => ([], some x)
      | .ok p => ([(c.index, p)], none)
  have hu : ∀ c, (hc : c ∈ ws.flatten) → ∃ hlt : c.index.toNat < l.length, u c = (match itemWork e dir state (val l[c.index.toNat]) l[c.index.toNat].dist with
      | .error x => ([], some x)
      | .ok p => ([(c.index, p)], none)) := by
    intro c hc
    refine ⟨(hidx c hc).2, ?_⟩
    simp only [u]
    rw [List.getElem?_eq_getElem (hidx c hc).2]
  have hf : ∀ c ∈ ws.flatten, itemBody ops e dir state l g1 c = .ok (u c) := by
    intro c hc
    obtain ⟨hlt, hu'⟩ := hu c hc
    obtain ⟨n, hn1, hn2⟩ := hget l[c.index.toNat] (List.getElem_mem _)
    unfold itemBody
    rw [atInt_ok l c.index (hidx c hc).1 hlt, Res.ok_bind, hn1, Res.ok_bind, hu', hn2]
    cases itemWork e dir state (val l[c.index.toNat]) l[c.index.toNat].dist <;> rfl
  rcases bodyRun_spec hf (fun tr htr => assignAll_ok tr init (fun a ha => by
      obtain ⟨c, hc, hac⟩ := htr a ha
      obtain ⟨hlt, hu'⟩ := hu c hc
      rw [hu'] at hac
      have := hidx c hc
      cases hd : itemWork e dir state (val l[c.index.toNat]) l[c.index.toNat].dist with
      | error x => rw [hd] at hac; simp at hac
      | ok v => rw [hd] at hac; simp at hac; rw [hac]; simp only; omega)) ho with
      ⟨hno, tr, v, htr, hv, rfl⟩ | ⟨pre, c, post, x, hsplit, hcx, rfl, -⟩
  · left
    have hok : ∀ c, (hc : c ∈ ws.flatten) → ∃ hlt : c.index.toNat < l.length, ∃ p, itemWork e dir state (val l[c.index.toNat]) l[c.index.toNat].dist = .ok p ∧
        u c = ([(c.index, p)], none) := by
      intro c hc
      obtain ⟨hlt, hu'⟩ := hu c hc
      have hn := hno c hc
      refine ⟨hlt, ?_⟩
      rw [hu'] at hn ⊢
      cases hd : itemWork e dir state (val l[c.index.toNat]) l[c.index.toNat].dist with
      | error x => rw [hd] at hn; simp at hn
      | ok p => exact ⟨p, rfl, rfl⟩
    let gp : Int → C × C := fun i =>
      match l[i.toNat]? with
      | none => (e.infeasible, e.infeasible)
      | some nb =>
        match itemWork e dir state (val nb) nb.dist with
        | .error _ => (e.infeasible, e.infeasible)
        | .ok p => p
    have hm : (ws.map fun w => w.flatMap fun c => (u c).1) = ws.map (List.map fun c : Call => (c.index, gp c.index)) := by
      refine List.map_congr_left fun w hwm => ?_
      rw [← List.flatMap_pure_eq_map]
      refine List.flatMap_congr fun c hc => ?_
      obtain ⟨hlt, p, hp, hup⟩ := hok c (List.mem_flatten.mpr ⟨w, hwm, hc⟩)
      rw [hup]
      simp only [gp, Function.comp]
      rw [List.getElem?_eq_getElem hlt]
      simp only [hp]
      rfl
    rw [hm] at htr
    obtain ⟨order, h2, rfl⟩ := interleaving_map_inv _ htr
    refine ⟨fun nb hnb x hx => ?_, order.map (·.index), v, ⟨ws, order, hw, h2, rfl⟩, rfl, fun valid dist hx => ?_⟩
    · obtain ⟨i, hi', rfl⟩ := List.getElem_of_mem hnb
      obtain ⟨c, hc, rfl⟩ := index_all hth hl hw i hi'
      obtain ⟨hlt, p, hp, -⟩ := hok c hc
      rcases itemWork_spec e dir state (val l[c.index.toNat]) l[c.index.toNat].dist with ⟨_, -, h, -⟩ | ⟨y, h, -⟩
      · exact h x hx
      · rw [hp] at h; cases h
    · rw [fillAll_congr _ (fun i => .ok (gp i)) 0 _ init ?_]
      · rw [← assignAll_fill gp 0 _ init, List.map_map]
        simpa [Function.comp_def] using hv
      · intro i hio
        obtain ⟨c, hc, rfl⟩ := List.mem_map.mp hio
        have hc' := h2.perm.subset hc
        obtain ⟨hlt, p, hp, -⟩ := hok c hc'
        obtain ⟨n, hn1, hn2⟩ := hget l[c.index.toNat] (List.getElem_mem _)
        rw [atInt_ok l c.index (hidx c hc').1 hlt, Res.ok_bind, hn1, Res.ok_bind, hn2]
        simp only [gp]
        rw [List.getElem?_eq_getElem hlt]
        simp only [hp]
        rcases itemWork_spec e dir state (val l[c.index.toNat]) l[c.index.toNat].dist with ⟨q, hq, -, h⟩ | ⟨y, h, -⟩
        · rw [hp] at hq; cases hq
          rw [h valid dist hx]; rfl
        · rw [hp] at h; cases h
  · right
    have hc : c ∈ ws.flatten := by rw [hsplit]; simp
    obtain ⟨hlt, hu'⟩ := hu c hc
    refine ⟨l[c.index.toNat], List.getElem_mem _, x, ?_, rfl⟩
    rcases itemWork_spec e dir state (val l[c.index.toNat]) l[c.index.toNat].dist with ⟨q, hq, -, -⟩ | ⟨y, hy, hr⟩
    · rw [hu', hq] at hcx; simp at hcx
    · rw [hu', hy] at hcx; simp at hcx; subst hcx; exact hr

/-- The neighbour query of a sound provider. -/
theorem query_spec {e : Env V C ε} (hs : e.knn.Sound e.dist) {g : Graph V C} {state : V} {dir : Dir} {maxNode : Int} (hK : 0 ≤ e.K)
    (h0 : 0 ≤ maxNode) (h1 : maxNode ≤ g.length) (hsz : InI64 g.length) {r : Res (Except ε (List (Entry C)))}
    (h : KnnQuery e.knn g.length (getNode g) state e.K dir maxNode r) :
    (∃ x, r = .ok (.error x) ∧ e.knn g.length (getNode g) state e.K dir maxNode (.ok (.error x))) ∨
    ∃ l, r = .ok (.ok l) ∧ e.knn g.length (getNode g) state e.K dir maxNode (.ok (.ok l)) ∧ InI64 l.length ∧
      (∀ nb ∈ l, ∃ (i : Nat) (n : Node V C), nb.index = i ∧ (i : Int) < maxNode ∧ g[i]? = some n ∧ dirDist e.dist dir n.value state = .ok nb.dist) ∧
      ∀ valid dist, Prm.KnnQuery (e.total valid dist).knn g.length (getNode g) state e.K dir maxNode (.ok l) := by
  obtain ⟨r0, hr0, rfl⟩ := h
  have hacc : Access g g.length (getNode g) :=
    ⟨rfl, fun i n hn => by obtain ⟨hi, rfl⟩ := List.getElem?_eq_some_iff.mp hn; exact getNode_ok g i hi⟩
  rcases hs g g.length (getNode g) state e.K dir maxNode r0 hacc hsz hK h0 h1 hr0 with ⟨x, rfl⟩ | ⟨l, rfl, hl, hs⟩
  · exact .inl ⟨x, rfl, hr0⟩
  · have hc : sanityCheck l g.length maxNode = .ok () := by
      unfold sanityCheck
      rw [if_neg]
      intro hany
      obtain ⟨nb, hnb, hb⟩ := List.any_eq_true.mp hany
      obtain ⟨i, n, a1, a2, -⟩ := hs nb hnb
      simp only [ge_iff_le, Bool.or_eq_true, decide_eq_true_eq] at hb
      omega
    refine .inr ⟨l, ?_, hr0, hl, hs, fun valid dist => ⟨.ok l, hr0, ?_⟩⟩
    · simp only [Res.ok_bind, hc, Res.pure_eq]
    · simp only [Res.ok_bind, hc, Res.pure_eq]

/-- The value of a node, or anything. -/
theorem val_exists (g : Graph V C) (state : V) : ∃ val : Entry C → V, ∀ (nb : Entry C) (i : Nat) (n : Node V C), nb.index = i → g[i]? = some n → val nb = n.value :=
  ⟨fun nb => match g[nb.index.toNat]? with | some n => n.value | none => state, fun nb i n h1 h2 => by
    dsimp only; rw [h1, Int.toNat_natCast, h2]⟩

/-! ### Theorems -/

/-- C108, one state: either the neighbour query throws, and so does the call, with the roadmap unchanged; or a check for one of the neighbours throws
`x`, and the call throws the exception of one such check, with the state left in the roadmap as a node without edges; or the call returns, having
done what it does with functions that always return and have the same values (C40), and if it has added the state then no check for a neighbour has
thrown. -/
theorem C108_add_node (e : Env V C ε) (hs : e.knn.Sound e.dist) (hK : 0 ≤ e.K) (state : V) (dir : Dir) (maxNode : Int) (g : Graph V C)
    (h0 : 0 ≤ maxNode) (h1 : maxNode ≤ g.length) (hsz : InI64 g.length) (hth : InI64 e.threads) (r : Graph V C × Res (Except ε Int))
    (hr : AddNodeRun graphOps e state dir maxNode g r) :
    (∃ x, e.knn g.length (getNode g) state e.K dir maxNode (.ok (.error x)) ∧ r = (g, .ok (.error x))) ∨
    (∃ l, e.knn g.length (getNode g) state e.K dir maxNode (.ok (.ok l)) ∧ (e.addDuplicates = false → ∀ nb ∈ l, nb.dist ≠ 0) ∧
      ∃ nb ∈ l, ∃ b x, HasValue g nb.index b ∧ Raises e state b x ∧ r = (g ++ [⟨state, [], []⟩], .ok (.error x))) ∨
    ∃ g' i, r = (g', .ok (.ok i)) ∧
      (∀ valid dist, Extends e valid dist → Prm.AddNodeRun graphOps (e.total valid dist) state dir maxNode g (g', .ok i)) ∧
      (g.length < g'.length → ∃ l, e.knn g.length (getNode g) state e.K dir maxNode (.ok (.ok l)) ∧
        ∀ nb ∈ l, ∀ b x, HasValue g nb.index b → ¬ Raises e state b x) := by
  have hA : (graphOps.addValue g state : Graph V C × Int) = (g ++ [⟨state, [], []⟩], (g.length : Int)) :=
    Prod.ext ((C14_effects g).1 state).1 ((C14_effects g).1 state).2
  cases hr with
  | knnRaises h =>
    rcases query_spec hs hK h0 h1 hsz h with ⟨x, hx, hk⟩ | ⟨l, hl, -⟩
    · cases hx; exact .inl ⟨_, hk, rfl⟩
    · cases hl
  | knnThrows h =>
    rcases query_spec hs hK h0 h1 hsz h with ⟨x, hx, -⟩ | ⟨l, hx, -⟩ <;> cases hx
  | knnUb h =>
    rcases query_spec hs hK h0 h1 hsz h with ⟨x, hx, -⟩ | ⟨l, hx, -⟩ <;> cases hx
  | @duplicate l d h hd hf =>
    rcases query_spec hs hK h0 h1 hsz h with ⟨x, hx, hk⟩ | ⟨l', hl, hk, hI, hsd, hq⟩
    · cases hx
    · cases hl
      exact .inr (.inr ⟨g, _, rfl, fun valid dist _ => .duplicate (hq valid dist) hd hf, fun h => absurd h (lt_irrefl _)⟩)
  | @added l ws init o h hd hw hi ho =>
    rcases query_spec hs hK h0 h1 hsz h with ⟨x, hx, hk⟩ | ⟨l', hl, hk, hI, hsd, hq⟩
    · cases hx
    cases hl
    obtain ⟨val, hval⟩ := val_exists g state
    rw [hA] at ho ⊢
    have hget : ∀ nb ∈ l, ∃ n, (graphOps (V := V) (C := C)).get (g ++ [⟨state, [], []⟩]) nb.index = .ok n ∧ n.value = val nb := by
      intro nb hnb
      obtain ⟨i, n, a1, -, a3, -⟩ := hsd nb hnb
      exact ⟨n, by rw [a1]; exact getNode_append g n _ i a3, (hval nb i n a1 a3).symm⟩
    have hdup : e.addDuplicates = false → ∀ nb ∈ l, nb.dist ≠ 0 := by
      intro hf nb hnb hz
      rcases hd with hd | hd
      · rw [hf] at hd; cases hd
      · have := List.find?_eq_none.mp hd nb hnb
        simp [hz] at this
    rcases loop_spec graphOps e dir state l _ val hget hth hI hw hi ho with ⟨hno, order, ds, hor, rfl, hfill⟩ | ⟨nb, hnb, x, hx, rfl⟩
    · right; right
      have hfin : ∀ valid dist, Extends e valid dist → insertState graphOps (e.total valid dist) state dir l order init g =
          ((finish (ε := ε) graphOps g.length l (g ++ [⟨state, [], []⟩]) (.ok (.ok ds))).1, .ok (g.length : Int)) ∧
          finish (ε := ε) graphOps g.length l (g ++ [⟨state, [], []⟩]) (.ok (.ok ds)) =
          ((finish (ε := ε) graphOps g.length l (g ++ [⟨state, [], []⟩]) (.ok (.ok ds))).1, .ok (.ok (g.length : Int))) := by
        intro valid dist hx
        obtain ⟨g', hg', -⟩ := insertState_ok (e.total valid dist) state dir g l order init
          (fun nb hnb => by obtain ⟨i, n, a1, -, a3, -⟩ := hsd nb hnb; exact ⟨i, n, a1, a3⟩)
          (hor.perm (by unfold InI64; omega) hI hth (by simpa using hI) (by omega)) hi
        have h2 := hg'
        unfold insertState at h2
        rw [hA] at h2
        dsimp only at h2
        rw [hfill valid dist hx] at h2
        dsimp only at h2
        unfold finish
        dsimp only
        rw [hg']
        generalize hE : addEdgesLoop graphOps (g.length : Int) (l.zip ds) (g ++ [⟨state, [], []⟩]) = p at h2 ⊢
        obtain ⟨g2, o⟩ := p
        cases o with
        | ok _ => cases h2; exact ⟨rfl, rfl⟩
        | throw x => cases h2
        | ub => cases h2
      obtain ⟨valid, dist, hext⟩ : ∃ valid dist, Extends e valid dist :=
        ⟨fun a b => match e.valid a b with | .ok c => c | .error _ => false, fun a b => match e.dist a b with | .ok c => c | .error _ => 0,
          fun a b c h => by dsimp only; rw [h], fun a b c h => by dsimp only; rw [h]⟩
      refine ⟨_, _, (hfin valid dist hext).2, fun valid dist hx => ?_, fun _ => ⟨l, hk, fun nb hnb b x hb => ?_⟩⟩
      · rw [← (hfin valid dist hx).1]
        exact .added (hq valid dist) hd hor hi
      · obtain ⟨i, n, c1, c2, rfl⟩ := hb
        rw [← hval nb i n c1 c2]
        exact hno nb hnb x
    · right; left
      obtain ⟨i, n, a1, -, a3, -⟩ := hsd nb hnb
      exact ⟨l, hk, hdup, nb, hnb, val nb, x, ⟨i, n, a1, a3, (hval nb i n a1 a3).symm⟩, hx, rfl⟩

/-- The edge from `a` to `b` was accepted by the check, and `w` is what the distance function returned. -/
def CheckedT (e : Env V C ε) (a b : V) (w : C) : Prop := e.valid a b = .ok true ∧ e.dist a b = .ok w ∧ 0 ≤ w

/-- The functions of `e`, with `false` and the mark for an infeasible edge where they throw. -/
def tvalid (e : Env V C ε) (a b : V) : Bool := match e.valid a b with | .ok c => c | .error _ => false
def tdist (e : Env V C ε) (a b : V) : C := match e.dist a b with | .ok c => c | .error _ => e.infeasible

theorem extends_t (e : Env V C ε) : Extends e (tvalid e) (tdist e) :=
  ⟨fun a b c h => by unfold tvalid; rw [h], fun a b c h => by unfold tdist; rw [h]⟩

theorem checked_t {e : Env V C ε} (hinf : e.infeasible < 0) (a b : V) (w : C) :
    (Checked (tvalid e) (tdist e) a b w ∧ 0 ≤ w) ↔ CheckedT e a b w := by
  unfold Checked CheckedT tvalid tdist
  constructor
  · rintro ⟨⟨h1, h2⟩, h3⟩
    refine ⟨?_, ?_, h3⟩
    · cases h : e.valid a b with
      | ok c => rw [h] at h1; simp at h1; rw [h1]
      | error x => rw [h] at h1; simp at h1
    · cases h : e.dist a b with
      | ok c => rw [h] at h2; simp at h2; rw [h2]
      | error x => rw [h] at h2; simp at h2; rw [h2] at h3; exact absurd h3 (not_le.mpr hinf)
  · rintro ⟨h1, h2, h3⟩
    rw [h1, h2]
    exact ⟨⟨rfl, rfl⟩, h3⟩

theorem sound_t {e : Env V C ε} (hs : e.knn.Sound e.dist) : (e.total (tvalid e) (tdist e)).knn.Sound (tdist e) := by
  intro g size get state K dir maxNode r hacc hI hK h0 h1 hr
  rcases hs g size get state K dir maxNode _ hacc hI hK h0 h1 hr with ⟨x, hx⟩ | ⟨l, hl, hlI, hsd⟩
  · cases r with
    | ok l => cases hx
    | throw y => cases hx
    | ub => cases hx
  · cases r with
    | ok l' =>
      cases hl
      refine ⟨l, rfl, hlI, fun nb hnb => ?_⟩
      obtain ⟨i, n, a1, a2, a3, a4⟩ := hsd nb hnb
      refine ⟨i, n, a1, a2, a3, ?_⟩
      cases dir
      · exact ((extends_t e).2 _ _ _ a4).symm
      · exact ((extends_t e).2 _ _ _ a4).symm
    | throw y => cases hl
    | ub => cases hl

/-- What growing keeps. -/
structure Grown (e : Env V C ε) (g g' : Graph V C) (P : V → Prop) : Prop where
  length : g.length ≤ g'.length
  old : ∀ (i : Nat) (n : Node V C), g[i]? = some n → ∃ n', g'[i]? = some n' ∧ n'.value = n.value ∧ n.ins <+: n'.ins ∧ n.outs <+: n'.outs
  new : ∀ (i : Nat) (n : Node V C), g.length ≤ i → g'[i]? = some n → P n.value
  mirrored : Mirrored g → Mirrored g'
  linkage : ValidLinkage g → ValidLinkage g'
  edges : EdgesSatisfy g (CheckedT e) → EdgesSatisfy g' (CheckedT e)

theorem Grown.refl (e : Env V C ε) (g : Graph V C) (P : V → Prop) : Grown e g g P :=
  ⟨le_rfl, fun _ n h => ⟨n, h, rfl, List.prefix_rfl, List.prefix_rfl⟩, fun i n hi hn => by
    obtain ⟨hlt, -⟩ := List.getElem?_eq_some_iff.mp hn; omega, id, id, id⟩

theorem Grown.trans {e : Env V C ε} {a b c : Graph V C} {P : V → Prop} (h : Grown e a b P) (h' : Grown e b c P) : Grown e a c P := by
  refine ⟨h.length.trans h'.length, fun i n hn => ?_, fun i n hi hn => ?_, h'.mirrored ∘ h.mirrored, h'.linkage ∘ h.linkage, h'.edges ∘ h.edges⟩
  · obtain ⟨n1, a1, a2, a3, a4⟩ := h.old i n hn
    obtain ⟨n2, b1, b2, b3, b4⟩ := h'.old i n1 a1
    exact ⟨n2, b1, b2.trans a2, a3.trans b3, a4.trans b4⟩
  · by_cases hb : b.length ≤ i
    · exact h'.new i n hb hn
    · have hlt : i < b.length := by omega
      obtain ⟨n1, a1, a2, -⟩ := h'.old i b[i] (List.getElem?_eq_getElem hlt)
      rw [hn] at a1; cases a1
      rw [a2]
      exact h.new i b[i] hi (List.getElem?_eq_getElem hlt)

/-- One state. -/
theorem add_grown (e : Env V C ε) (hs : e.knn.Sound e.dist) (hK : 0 ≤ e.K) (hinf : e.infeasible < 0)
    (hsym : e.symmetric = true → ∀ a b, e.valid a b = e.valid b a ∧ e.dist a b = e.dist b a) (state : V) (g : Graph V C)
    (hsz : InI64 g.length) (hth : InI64 e.threads) {g' : Graph V C} {o : Res (Except ε Int)}
    (hr : AddNodeRun graphOps e state .roadmapToNew g.length g (g', o)) :
    Grown e g g' (· = state) ∧ g'.length ≤ g.length + 1 ∧
      ((∃ i, o = .ok (.ok i) ∧ (g'.length = g.length → e.addDuplicates = false)) ∨
      ∃ x, o = .ok (.error x) ∧ ((∃ get, Access g g.length get ∧ e.knn g.length get state e.K .roadmapToNew g.length (.ok (.error x))) ∨
        ∃ i b, HasValue g i b ∧ Raises e state b x)) := by
  have hacc : Access g g.length (getNode g) :=
    ⟨rfl, fun i n hn => by obtain ⟨hi, rfl⟩ := List.getElem?_eq_some_iff.mp hn; exact getNode_ok g i hi⟩
  rcases C108_add_node e hs hK state .roadmapToNew g.length g (by omega) le_rfl hsz hth _ hr with
    ⟨x, hk, h⟩ | ⟨l, hk, -, nb, hnb, b, x, hb, hx, h⟩ | ⟨g'', i, h, ht, -⟩
  · cases h
    exact ⟨.refl e g _, by omega, .inr ⟨x, rfl, .inl ⟨_, hacc, hk⟩⟩⟩
  · cases h
    refine ⟨?_, by simp, .inr ⟨x, rfl, .inr ⟨_, b, hb, hx⟩⟩⟩
    have hrun := insertState_ok (e.total (tvalid e) (tdist e)) state .roadmapToNew g [] [] [] (by simp) (by simp [irange]) rfl
    obtain ⟨g2, h2, h3, h4, h5, h6⟩ := hrun
    have hA : (graphOps.addValue g state : Graph V C × Int) = (g ++ [⟨state, [], []⟩], (g.length : Int)) :=
      Prod.ext ((C14_effects g).1 state).1 ((C14_effects g).1 state).2
    have hg2 : g2 = g ++ [⟨state, [], []⟩] := by
      unfold insertState at h2
      rw [hA] at h2
      simp [fillAll, addEdgesLoop] at h2
      exact h2.symm
    subst hg2
    refine ⟨by simp, h3.old, fun i n hi hn => ?_, h5, h6, fun hE u v w hw => ?_⟩
    · rw [List.getElem?_append_right hi] at hn
      have : i - g.length = 0 := by
        by_contra hc
        rw [List.getElem?_eq_none (by simp; omega)] at hn
        cases hn
      rw [this] at hn
      simp at hn
      rw [← hn]
    · rcases (h4 u v w).mp hw with h | ⟨nb, hnb, -⟩
      · obtain ⟨a, b, ha, hb, h⟩ := hE u v w h
        have hval : ∀ u a, HasValue g u a → HasValue (g ++ [⟨state, [], []⟩]) u a := by
          rintro u a ⟨k, n, rfl, hn, rfl⟩
          obtain ⟨n', c1, c2, _⟩ := h3.old k n hn
          exact ⟨k, n', rfl, c1, c2⟩
        exact ⟨a, b, hval u a ha, hval v b hb, h⟩
      · simp at hnb
  · cases h
    have hrun := ht _ _ (extends_t e)
    have hsymt : (e.total (tvalid e) (tdist e)).symmetric = true → SymmetricFns (tvalid e) (tdist e) := by
      intro h a b
      have := hsym h a b
      unfold tvalid tdist
      rw [this.1, this.2]
      exact ⟨rfl, rfl⟩
    have hE := addNode_edges (e.total (tvalid e) (tdist e)) (sound_t hs) hK hinf state g.length g g' i (by omega) le_rfl hsz hth hsymt hrun
    have hE' : EdgesSatisfy g (CheckedT e) → EdgesSatisfy g' (CheckedT e) := by
      intro h u v w hw
      obtain ⟨a, b, ha, hb, hc⟩ := hE (fun u v w hw => by
        obtain ⟨a, b, ha, hb, hc⟩ := h u v w hw
        exact ⟨a, b, ha, hb, (checked_t hinf a b w).mpr hc⟩) u v w hw
      exact ⟨a, b, ha, hb, (checked_t hinf a b w).mp hc⟩
    rcases C40_add_node_partial (e.total (tvalid e) (tdist e)) (sound_t hs) hK hinf state .roadmapToNew g.length g (by omega) le_rfl hsz hth _ hrun with
      ⟨hd, k, n, h, _⟩ | ⟨g'', l, b1, b2, b3, b4, b5, b6, _⟩
    · cases h
      exact ⟨.refl e g _, by omega, .inl ⟨_, rfl, fun _ => hd⟩⟩
    · cases b1
      refine ⟨⟨by rw [b4.length]; omega, b4.old, fun j n hj hn => ?_, b5, b6, hE'⟩, by rw [b4.length], .inl ⟨_, rfl, fun h => by rw [b4.length] at h; omega⟩⟩
      obtain ⟨hlt, -⟩ := List.getElem?_eq_some_iff.mp hn
      have hl := b4.length
      obtain rfl : j = g.length := by omega
      obtain ⟨m, d1, d2⟩ := b4.new
      rw [hn] at d1; cases d1
      exact d2

theorem add_length {e : Env V C ε} {state : V} {dir : Dir} {maxNode : Int} {g : Graph V C} {r : Graph V C × Res (Except ε Int)}
    (h : AddNodeRun graphOps e state dir maxNode g r) : g.length ≤ r.1.length := by
  cases h with
  | knnRaises => exact le_rfl
  | knnThrows => exact le_rfl
  | knnUb => exact le_rfl
  | duplicate => exact le_rfl
  | @added l ws init o h hd hw hi ho =>
    have hA : (graphOps.addValue g state : Graph V C × Int) = (g ++ [⟨state, [], []⟩], (g.length : Int)) :=
      Prod.ext ((C14_effects g).1 state).1 ((C14_effects g).1 state).2
    rw [hA]
    unfold finish
    match o with
    | .ok (.error x) => simp
    | .throw x => simp
    | .ub => simp
    | .ok (.ok ds) =>
      have := addEdgesLoop_length (g.length : Int) (l.zip ds) (g ++ [(⟨state, [], []⟩ : Node V C)])
      dsimp only
      generalize hE : addEdgesLoop graphOps (g.length : Int) (l.zip ds) (g ++ [⟨state, [], []⟩]) = p at this ⊢
      obtain ⟨g2, o⟩ := p
      have h2 : g.length ≤ g2.length := by simp at this; omega
      cases o <;> exact h2

theorem grow_length {e : Env V C ε} {ge : GrowEnv σ V ε} {s : σ} {g : Graph V C} {st : Stats} {out : Graph V C × Res (Except ε Stats)}
    (h : GrowRun e ge s g st out) : g.length ≤ out.1.length := by
  induction h with
  | stop => exact le_rfl
  | terminateRaises => exact le_rfl
  | sampleRaises => exact le_rfl
  | validRaises => exact le_rfl
  | failed _ _ _ _ ih => exact ih
  | grown _ _ _ ha _ ih => exact le_trans (add_length ha) ih
  | addRaises _ _ _ ha => exact add_length ha
  | addThrows _ _ _ ha => exact add_length ha
  | addUb _ _ _ ha => exact add_length ha

/-- `x` was thrown by one of the functions handed to `GrowRoadMap`. -/
def Caused (e : Env V C ε) (ge : GrowEnv σ V ε) (x : ε) : Prop :=
  (∃ s n s', ge.terminate s n = (.error x, s')) ∨ (∃ s s', ge.sample s = (.error x, s')) ∨ (∃ s q s', ge.stateValid s q = (.error x, s')) ∨
  (∃ (g : Graph V C) (get : Int → Res (Node V C)) (q : V), Access g g.length get ∧ e.knn g.length get q e.K .roadmapToNew g.length (.ok (.error x))) ∨
  ∃ a b, e.valid a b = .error x ∨ e.dist a b = .error x

/-- A state that was sampled and then found valid. -/
def Accepted (ge : GrowEnv σ V ε) (q : V) : Prop := ∃ s s1 s2, ge.sample s = (.ok q, s1) ∧ ge.stateValid s1 q = (.ok true, s2)

/-- C108, growing: `GrowRoadMap` returns statistics that add up, or throws an exception that one of the functions it was handed has thrown. Either
way the roadmap that is left behind has the old nodes with their states and edges, all new states were sampled and found valid, linkage is kept, and if
all edges were accepted by the check and weighted by the distance function before, so they are now. -/
theorem C108_grow (e : Env V C ε) (ge : GrowEnv σ V ε) (hs : e.knn.Sound e.dist) (hK : 0 ≤ e.K) (hinf : e.infeasible < 0)
    (hth : InI64 e.threads) (hsym : e.symmetric = true → ∀ a b, e.valid a b = e.valid b a ∧ e.dist a b = e.dist b a) (s : σ) (g : Graph V C)
    (out : Graph V C × Res (Except ε Stats)) (hr : GrowRun e ge s g ⟨0, 0, 0, 0⟩ out) (hsz : InI64 out.1.length) :
    ((∃ st, out.2 = .ok (.ok st) ∧ st.total = st.successful + st.duplicate + st.failed ∧ out.1.length = g.length + st.successful ∧
      (e.addDuplicates = true → st.duplicate = 0)) ∨ ∃ x, out.2 = .ok (.error x) ∧ Caused e ge x) ∧
    Grown e g out.1 (Accepted ge) := by
  have acc : ∀ {g g' : Graph V C} {q : V}, Accepted ge q → Grown e g g' (· = q) → Grown e g g' (Accepted ge) :=
    fun hq h => ⟨h.length, h.old, fun i n hi hn => by rw [h.new i n hi hn]; exact hq, h.mirrored, h.linkage, h.edges⟩
  have key : ∀ st0, GrowRun e ge s g st0 out → InI64 out.1.length →
      ((∃ st, out.2 = .ok (.ok st) ∧
        st.total + (st0.successful + st0.duplicate + st0.failed) = st0.total + (st.successful + st.duplicate + st.failed) ∧
        out.1.length + st0.successful = g.length + st.successful ∧
        (e.addDuplicates = true → st.duplicate = st0.duplicate)) ∨ ∃ x, out.2 = .ok (.error x) ∧ Caused e ge x) ∧
      Grown e g out.1 (Accepted ge) := by
    intro st0 h hsz
    clear hr
    induction h with
    | @stop s s1 g st h => exact ⟨.inl ⟨st, rfl, rfl, rfl, fun _ => rfl⟩, .refl e g _⟩
    | @terminateRaises s s1 g st x h => exact ⟨.inr ⟨x, rfl, .inl ⟨_, _, _, h⟩⟩, .refl e g _⟩
    | @sampleRaises s s1 s2 g st x h h2 => exact ⟨.inr ⟨x, rfl, .inr (.inl ⟨_, _, h2⟩)⟩, .refl e g _⟩
    | @validRaises s s1 s2 s3 g st q x h h2 h3 => exact ⟨.inr ⟨x, rfl, .inr (.inr (.inl ⟨_, _, _, h3⟩))⟩, .refl e g _⟩
    | @failed s g st out s1 s2 s3 q h h2 h3 rest ih =>
      obtain ⟨ho, hg⟩ := ih hsz hsz
      refine ⟨?_, hg⟩
      rcases ho with ⟨st', a1, a2, a3, a4⟩ | ho
      · exact .inl ⟨st', a1, by dsimp only at a2; omega, a3, a4⟩
      · exact .inr ho
    | @grown s g g' st out s1 s2 s3 q i h h2 h3 ha rest ih =>
      have hg' : g'.length ≤ out.1.length := grow_length rest
      have hgg : g.length ≤ g'.length := add_length ha
      have hI : InI64 g.length := by unfold InI64 at *; omega
      obtain ⟨k1, k2, k3⟩ := add_grown e hs hK hinf hsym q g hI hth ha
      obtain ⟨ho, hg⟩ := ih hsz hsz
      refine ⟨?_, (acc ⟨s1, s2, s3, h2, h3⟩ k1).trans hg⟩
      rcases ho with ⟨st', a1, a2, a3, a4⟩ | ho
      · refine .inl ⟨st', a1, ?_⟩
        by_cases hlt : (g'.length : Int) > g.length
        · rw [if_pos hlt] at a2 a3 a4
          dsimp only at a2 a3 a4
          exact ⟨by omega, by omega, a4⟩
        · rw [if_neg hlt] at a2 a3 a4
          dsimp only at a2 a3 a4
          refine ⟨by omega, by omega, fun hd => ?_⟩
          rcases k3 with ⟨_, -, hz⟩ | ⟨x, hx, -⟩
          · have := hz (by omega)
            rw [hd] at this; cases this
          · cases hx
      · exact .inr ho
    | @addRaises s g g' st s1 s2 s3 q x h h2 h3 ha =>
      have hgg : g.length ≤ g'.length := add_length ha
      have hI : InI64 g.length := by have hsz : InI64 g'.length := hsz; unfold InI64 at *; omega
      obtain ⟨k1, k2, k3⟩ := add_grown e hs hK hinf hsym q g hI hth ha
      refine ⟨.inr ⟨x, rfl, ?_⟩, acc ⟨s1, s2, s3, h2, h3⟩ k1⟩
      rcases k3 with ⟨_, hx, -⟩ | ⟨y, hx, hy⟩
      · cases hx
      · cases hx
        rcases hy with ⟨get, hacc, hk⟩ | ⟨_, b, -, hy⟩
        · exact .inr (.inr (.inr (.inl ⟨g, get, q, hacc, hk⟩)))
        · refine .inr (.inr (.inr (.inr ?_)))
          rcases hy with hy | ⟨-, -, hy | ⟨-, hy⟩⟩
          · exact ⟨_, _, .inl hy⟩
          · exact ⟨_, _, .inl hy⟩
          · exact ⟨_, _, .inr hy⟩
    | @addThrows s g g' st s1 s2 s3 q x h h2 h3 ha =>
      have hgg : g.length ≤ g'.length := add_length ha
      have hI : InI64 g.length := by have hsz : InI64 g'.length := hsz; unfold InI64 at *; omega
      obtain ⟨-, -, ⟨_, hx, -⟩ | ⟨y, hx, -⟩⟩ := add_grown e hs hK hinf hsym q g hI hth ha <;> cases hx
    | @addUb s g g' st s1 s2 s3 q h h2 h3 ha =>
      have hgg : g.length ≤ g'.length := add_length ha
      have hI : InI64 g.length := by have hsz : InI64 g'.length := hsz; unfold InI64 at *; omega
      obtain ⟨-, -, ⟨_, hx, -⟩ | ⟨y, hx, -⟩⟩ := add_grown e hs hK hinf hsym q g hI hth ha <;> cases hx
  obtain ⟨ho, hg⟩ := key _ hr hsz
  refine ⟨?_, hg⟩
  rcases ho with ⟨st, a1, a2, a3, a4⟩ | ho
  · dsimp only at a2 a3 a4
    exact .inl ⟨st, a1, by omega, by omega, a4⟩
  · exact .inr ho

/-- C108: adding a state again after a check has thrown. The state is in the roadmap already, as a node without edges; if duplicates are not added,
the neighbours are the nearest nodes and no other state is at distance zero, then the call finds this node, changes nothing and returns its index. The
state is never connected. -/
theorem C108_retry_stays_isolated (e : Prm.Env V C) (hs : e.knn.Nearest e.dist) (hK : 1 ≤ e.K) (hinf : e.infeasible < 0) (hth : InI64 e.threads)
    (hdup : e.addDuplicates = false) (hpos : ∀ a b, 0 ≤ e.dist a b) (state : V) (hself : e.dist state state = 0) (g : Graph V C)
    (hother : ∀ (i : Nat) (n : Node V C), g[i]? = some n → e.dist n.value state ≠ 0) (hsz : InI64 (g.length + 1))
    (r : Graph V C × Res Int)
    (hr : Prm.AddNodeRun graphOps e state .roadmapToNew (g.length + 1) (g ++ [⟨state, [], []⟩]) r) :
    r = (g ++ [⟨state, [], []⟩], .ok (g.length : Int)) := by
  have hlen : ((g ++ [(⟨state, [], []⟩ : Node V C)]).length : Int) = g.length + 1 := by simp
  have hnew : (g ++ [(⟨state, [], []⟩ : Node V C)])[g.length]? = some ⟨state, [], []⟩ := by simp
  rcases C40_add_node_partial e hs.sound (by omega) hinf state .roadmapToNew (g.length + 1) (g ++ [⟨state, [], []⟩]) (by omega) (by omega)
    (by rw [hlen]; exact hsz) hth r hr with ⟨_, k, n, hk, hlt, hn, hz⟩ | ⟨g'', l, b1, b2, b3, b4, _⟩
  · rw [hk]
    have hkl : ¬ k < g.length := by
      intro h
      rw [List.getElem?_append_left h] at hn
      exact hother k n hn hz
    obtain rfl : k = g.length := by omega
    rfl
  · exfalso
    have hacc : Access (g ++ [(⟨state, [], []⟩ : Node V C)]) ((g ++ [(⟨state, [], []⟩ : Node V C)]).length : Int) (getNode _) :=
      ⟨rfl, fun i n hn => by obtain ⟨hi, rfl⟩ := List.getElem?_eq_some_iff.mp hn; exact getNode_ok _ i hi⟩
    obtain ⟨l', hl', hnear⟩ := hs _ _ (getNode _) state e.K .roadmapToNew (g.length + 1) (.ok l) hacc (by rw [hlen]; exact hsz) (by omega)
      (by omega) (by omega) b2
    cases hl'
    have hd0 : nodeDist e.dist .roadmapToNew (g ++ [⟨state, [], []⟩]) state (g.length : Int) = 0 := by
      unfold nodeDist
      rw [Int.toNat_natCast, hnew]
      exact hself
    by_cases hmem : (g.length : Int) ∈ l.map (·.index)
    · obtain ⟨nb, hnb, hidx⟩ := List.mem_map.mp hmem
      have := hnear.trueDist nb hnb
      rw [hidx, hd0] at this
      exact b3 hdup nb hnb this
    · have hne : l ≠ [] := by
        intro h
        have := hnear.length
        rw [h] at this
        simp only [List.length_nil, Nat.cast_zero] at this
        omega
      obtain ⟨nb, hnb⟩ := List.exists_mem_of_ne_nil l hne
      have h1 := hnear.nearest nb hnb g.length (by omega) (by omega) hmem
      rw [hd0] at h1
      have h2 : 0 ≤ nb.dist := by
        obtain ⟨c1, c2⟩ := hnear.inRange nb hnb
        rw [hnear.trueDist nb hnb]
        unfold nodeDist
        rw [List.getElem?_eq_getElem (by omega : nb.index.toNat < (g ++ [(⟨state, [], []⟩ : Node V C)]).length)]
        exact hpos _ _
      exact b3 hdup nb hnb (le_antisymm h1 h2)

/-! ### The linear provider -/

/-- simple_prm_planner.hpp:129-205 `LinearGraphKNNProvider`, with a distance function that may throw. -/
def linearProvider (ps : Nat → List (Entry C) → List (Entry C)) (b : Backend) (threads : Int) (dist : V → V → Except ε C) : Provider V C ε :=
  fun size get state K dir maxNode r =>
  match adapterItems size get maxNode with
  | .ok items => CRU.Knn.Throw.KnnRun ps b threads items (fun n : Node V C => dirDist dist dir n.value state) 0 items.length K r
  | .throw x => r = .throw x
  | .ub => r = .ub

/-- C108: where the distance function returns, the linear provider keeps the contract; where it throws, the provider throws the same exception. -/
theorem C108_linear_provider (ps : Nat → List (Entry C) → List (Entry C)) (hps : LawfulPartialSort ps) (b : Backend) (threads : Int)
    (hth : InI64 threads) (h1 : 1 ≤ threads) (htid : ∀ (n : Int) (t : Nat), (t : Int) < min threads n → (b.tid t : Int) < min threads n)
    (hinj : ∀ t u : Nat, (t : Int) < threads → (u : Int) < threads → b.tid t = b.tid u → t = u) (dist : V → V → Except ε C) :
    (linearProvider ps b threads dist).Sound dist ∧
    ∀ (g : Graph V C) (size : Int) (get : Int → Res (Node V C)) (state : V) (K : Int) (dir : Dir) (maxNode : Int) (x : ε), Access g size get →
      InI64 size → 0 ≤ K → 0 ≤ maxNode → maxNode ≤ size → linearProvider ps b threads dist size get state K dir maxNode (.ok (.error x)) →
      ∃ (i : Nat) (n : Node V C), (i : Int) < maxNode ∧ g[i]? = some n ∧ dirDist dist dir n.value state = .error x := by
  have main : ∀ (g : Graph V C) (size : Int) (get : Int → Res (Node V C)) (state : V) (K : Int) (dir : Dir) (maxNode : Int)
      (r : Res (Except ε (List (Entry C)))), Access g size get → InI64 size → 0 ≤ K → 0 ≤ maxNode → maxNode ≤ size →
      linearProvider ps b threads dist size get state K dir maxNode r →
      (∃ x, r = .ok (.error x) ∧ ∃ (i : Nat) (n : Node V C), (i : Int) < maxNode ∧ g[i]? = some n ∧ dirDist dist dir n.value state = .error x) ∨
      ∃ l, r = .ok (.ok l) ∧ InI64 l.length ∧ ∀ e ∈ l, ∃ (i : Nat) (n : Node V C), e.index = i ∧ (i : Int) < maxNode ∧ g[i]? = some n ∧
        dirDist dist dir n.value state = .ok e.dist := by
    intro g size get state K dir maxNode r ha hsz hK h0 hle hr
    have hm : maxNode.toNat ≤ g.length := by have := ha.1; omega
    have hit : adapterItems size get maxNode = .ok (g.take maxNode.toNat) := by
      unfold adapterItems
      rw [if_neg (by omega), if_neg (by omega), mapM_get g get ha.2 _ hm]
    unfold linearProvider at hr
    rw [hit] at hr
    dsimp only at hr
    have hlen : (g.take maxNode.toNat).length = maxNode.toNat := by simp; omega
    have hI : InI64 (g.take maxNode.toNat).length := by have := ha.1; unfold InI64 at *; omega
    by_cases htriv : K = 0 ∨ maxNode.toNat = 0
    · have := (CRU.Knn.Throw.C107_knn_no_calls ps b threads _ _ 0 _ K r hr).2 (by omega) le_rfl hK (by omega)
      exact .inr ⟨[], this, by unfold InI64; simp, by simp⟩
    · rcases CRU.Knn.Throw.C107_knn ps b threads (g.take maxNode.toNat) (fun n : Node V C => dirDist dist dir n.value state) 0 _ K (by omega) le_rfl
        (by omega) hI hth h1 (htid _) r hr with ⟨hret, r', hr', hag⟩ | ⟨i, x, hi, -, -, hx, hrx, -⟩
      · right
        let d' : V → V → C := fun a c => match dist a c with | .ok v => v | .error _ => 0
        have hd' : ∀ a c v, dirDist dist dir a c = .ok v → dirDist d' dir a c = v := by
          intro a c v h
          cases dir <;> (simp only [dirDist] at h ⊢; simp only [d', h])
        have hrun := hag (fun n : Node V C => dirDist d' dir n.value state) (fun i h _ hi => by
          obtain ⟨v, hv⟩ := hret i h (by omega) hi
          dsimp only
          rw [hv, hd' _ _ v hv])
        have hp : Prm.linearProvider ps b threads d' size get state K dir maxNode r' := by
          unfold Prm.linearProvider
          rw [hit]
          exact hrun
        have htid' : ∀ t : Nat, (t : Int) < threads → (b.tid t : Int) < threads := fun t ht => by
          have := htid threads t (by omega); omega
        obtain ⟨l, rfl, hl, hsd⟩ := (C40_linear_provider_nearest ps hps b threads hth htid' hinj d').sound g size get state K dir maxNode r' ha hsz hK h0 hle hp
        refine ⟨l, hr', hl, fun e he => ?_⟩
        obtain ⟨i, n, a1, a2, a3, a4⟩ := hsd e he
        obtain ⟨hlt, hgi⟩ := List.getElem?_eq_some_iff.mp a3
        have hti : i < (g.take maxNode.toNat).length := by omega
        obtain ⟨v, hv⟩ := hret i hti (by omega) hti
        simp only [List.getElem_take, hgi] at hv
        exact ⟨i, n, a1, a2, a3, by rw [a4, hd' _ _ v hv]; exact hv⟩
      · left
        refine ⟨x, hrx, i, g[i]'(by omega), by omega, List.getElem?_eq_getElem _, ?_⟩
        simpa [List.getElem_take] using hx
  refine ⟨fun g size get state K dir maxNode r a1 a2 a3 a4 a5 a6 => ?_, fun g size get state K dir maxNode x a1 a2 a3 a4 a5 a6 => ?_⟩
  · rcases main g size get state K dir maxNode r a1 a2 a3 a4 a5 a6 with ⟨x, h, -⟩ | h
    · exact .inl ⟨x, h⟩
    · exact .inr h
  · rcases main g size get state K dir maxNode _ a1 a2 a3 a4 a5 a6 with ⟨y, h, hy⟩ | ⟨l, h, -⟩
    · cases h; exact hy
    · cases h

/-- The hypotheses about the threads hold, for example, with `std::async`. -/
example (dist : V → V → Except ε C) : (linearProvider psSort .async 4 dist).Sound dist :=
  (C108_linear_provider psSort psSort_lawful .async 4 (by decide) (by decide) (fun _ _ h => h) (fun _ _ _ _ h => h) dist).1

end

namespace Demo

/-- The check throws for edges that touch 5. -/
def env : Env Int Int String where
  knn := linearProvider psSort .async 1 (fun a b => .ok (upDist a b))
  dist a b := .ok (upDist a b)
  valid a b := if a = 5 ∨ b = 5 then .error "checker" else .ok (decide (a ≤ b))
  infeasible := -1
  K := 2
  backend := .async
  threads := 1
  symmetric := false
  addDuplicates := false

theorem env_sound : env.knn.Sound env.dist :=
  (C108_linear_provider psSort psSort_lawful .async 1 (by decide) (by decide) (fun _ _ h => h) (fun _ _ _ _ h => h) _).1

theorem env_query (state : Int) (dir : Dir) :
    KnnQuery env.knn (graphOps.size [(⟨0, [], []⟩ : Node Int Int)]) (graphOps.get [(⟨0, [], []⟩ : Node Int Int)]) state 2 dir 1
      (.ok (.ok [⟨0, dirDist upDist dir 0 state⟩])) := by
  refine ⟨.ok (.ok [⟨0, dirDist upDist dir 0 state⟩]), ?_, rfl⟩
  show CRU.Knn.Throw.KnnRun psSort .async 1 [(⟨0, [], []⟩ : Node Int Int)] _ 0 1 2 _
  unfold CRU.Knn.Throw.KnnRun
  rw [if_neg (by omega)]
  cases dir <;> rfl

/-- The state 5 is left in the roadmap without edges. -/
theorem env_add : AddNodeRun graphOps env 5 .roadmapToNew 1 [⟨0, [], []⟩] ([⟨0, [], []⟩, ⟨5, [], []⟩], .ok (.error "checker")) := by
  have := AddNodeRun.added (ops := graphOps) (e := env) (state := 5) (dir := .roadmapToNew) (maxNode := 1) (g := [(⟨0, [], []⟩ : Node Int Int)])
    (ws := [[⟨0, 0⟩]]) (init := [(0, 0)]) (o := .ok (.error "checker")) (env_query 5 .roadmapToNew) (.inr rfl) rfl rfl
    (.inl ⟨[([], some "checker")], [], some "checker", rfl, ⟨.done (by simp), rfl⟩, rfl⟩)
  exact this

/-- Growing: the state 5 is sampled and found valid, then the edge check throws. -/
example : ∃ ge : GrowEnv Nat Int String, GrowRun env ge 0 [⟨0, [], []⟩] ⟨0, 0, 0, 0⟩ ([⟨0, [], []⟩, ⟨5, [], []⟩], .ok (.error "checker")) :=
  ⟨⟨fun s => (.ok 5, s), fun s _ => (.ok true, s), fun s n => (.ok (decide (n ≥ 10)), s)⟩, .addRaises (q := 5) rfl rfl rfl env_add⟩

/-- With a checker that does not throw any more, the state 5 is a duplicate. -/
example (r : Graph Int Int × Res Int) (hr : Prm.AddNodeRun graphOps (upEnv false) 5 .roadmapToNew 2 [⟨0, [], []⟩, ⟨5, [], []⟩] r) :
    r = ([⟨0, [], []⟩, ⟨5, [], []⟩], .ok 1) := by
  refine C108_retry_stays_isolated (upEnv false) (C40_linear_provider_nearest psSort psSort_lawful .async 1 (by decide) (fun _ h => h)
    (fun _ _ _ _ h => h) upDist) (by decide) (by decide) (by decide) rfl (fun a b => ?_) 5 rfl [⟨0, [], []⟩] (fun i n hn => ?_) (by decide) r hr
  · show 0 ≤ upDist a b
    unfold upDist
    split <;> omega
  · obtain ⟨hi, hn⟩ := List.getElem?_eq_some_iff.mp hn
    have : i = 0 := by simp at hi; exact hi
    subst this
    simp at hn
    subst hn
    decide

end Demo
end CRU.Prm.Throw
