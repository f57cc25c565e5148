import Verif.Prm.AddNode
/-
  The linear neighbour provider keeps the contract, and the concrete cases of C40.
-/
namespace CRU.Prm
open CRU.Graph CRU.Knn CRU.Parallel CRU.GraphSearch

variable {V C : Type}

/-- simple_graph.hpp:303-333 `GraphKNNAdapter`: the first `maxNode` nodes as a container. (The code reads nodes on access.) -/
def adapterItems (size : Int) (get : Int → Res (Node V C)) (maxNode : Int) : Res (List (Node V C)) :=
  if maxNode > size then .throw .invalidArgument
  else if maxNode < 0 then .throw .invalidArgument
  else (List.range maxNode.toNat).mapM fun i : Nat => get (i : Int)

/-- simple_prm_planner.hpp:129-205 `LinearGraphKNNProvider`. -/
def linearProvider [LinearOrder C] (ps : Nat → List (Entry C) → List (Entry C)) (b : Backend) (threads : Int)
    (dist : V → V → C) : Provider V C := fun size get state K dir maxNode r =>
  match adapterItems size get maxNode with
  | .ok items => KnnRun ps b threads items (fun n : Node V C => dirDist dist dir n.value state) 0 items.length K r
  | .throw x => r = .throw x
  | .ub => r = .ub

theorem mapM_get (g : Graph V C) (get : Int → Res (Node V C)) (hg : ∀ (i : Nat) (n : Node V C), g[i]? = some n → get i = .ok n)
    (k : Nat) (hk : k ≤ g.length) : ((List.range k).mapM fun i : Nat => get (i : Int)) = .ok (g.take k) := by
  induction k with
  | zero => rfl
  | succ k ih =>
    have hlt : k < g.length := by omega
    rw [List.range_succ, List.mapM_append, ih (by omega), Res.ok_bind]
    simp only [List.mapM_cons, List.mapM_nil, hg k g[k] (List.getElem?_eq_getElem hlt), Res.ok_bind, Res.pure_eq,
      List.take_append_getElem hlt]

/-- C40: the linear provider, serial or parallel, returns the `K` nearest nodes of the first `maxNode`, with the distances in
the direction asked for. -/
theorem C40_linear_provider_nearest [LinearOrder C] [Zero C] (ps : Nat → List (Entry C) → List (Entry C)) (hps : LawfulPartialSort ps)
    (b : Backend) (threads : Int) (hth : InI64 threads)
    (htid : ∀ t : Nat, (t : Int) < threads → (b.tid t : Int) < threads)
    (hinj : ∀ t u : Nat, (t : Int) < threads → (u : Int) < threads → b.tid t = b.tid u → t = u) (dist : V → V → C) :
    (linearProvider ps b threads dist).Nearest dist := by
  intro g size get state K dir maxNode r ha hsz hK h0 h1 hr
  have hm : maxNode.toNat ≤ g.length := by have := ha.1; omega
  have hit : adapterItems size get maxNode = .ok (g.take maxNode.toNat) := by
    unfold adapterItems
    rw [if_neg (by omega), if_neg (by omega), mapM_get g get ha.2 _ hm]
  unfold linearProvider at hr
  rw [hit] at hr
  dsimp only at hr
  have hlen : (g.take maxNode.toNat).length = maxNode.toNat := by simp; omega
  have hd : ∀ i (h : i < (g.take maxNode.toNat).length), nodeDist dist dir g state (i : Int) =
      (fun n : Node V C => dirDist dist dir n.value state) (g.take maxNode.toNat)[i] := by
    intro i h
    unfold nodeDist
    rw [Int.toNat_natCast, List.getElem?_eq_getElem (by omega), List.getElem_take]
  unfold KnnRun at hr
  split at hr
  · rename_i ht
    obtain ⟨l, a1, a2, _⟩ := C09_parallel_knn_correct ps hps b threads (g.take maxNode.toNat)
      (fun n : Node V C => dirDist dist dir n.value state) (nodeDist dist dir g state) hd 0
      (g.take maxNode.toNat).length K (by omega) le_rfl hK (by have := ha.1; unfold InI64 at *; omega) hth (by omega) htid hinj
      r hr
    refine ⟨l, a1, ?_⟩
    have e1 : ((g.take maxNode.toNat).length : Int) = maxNode := by omega
    rw [e1] at a2
    exact a2
  · obtain ⟨l, a1, a2, _⟩ := C08_serial_knn_correct ps hps (g.take maxNode.toNat)
      (fun n : Node V C => dirDist dist dir n.value state) (nodeDist dist dir g state) hd 0
      (g.take maxNode.toNat).length K (by omega) le_rfl hK
    refine ⟨l, hr.trans a1, ?_⟩
    have e1 : ((g.take maxNode.toNat).length : Int) = maxNode := by omega
    rw [e1] at a2
    exact a2

/-- A provider that returns the `K` nearest nodes keeps the contract. -/
theorem Provider.Nearest.sound [LinearOrder C] [Zero C] {knn : Provider V C} {dist : V → V → C} (h : knn.Nearest dist) :
    knn.Sound dist := by
  intro g size get state K dir maxNode r ha hsz hK h0 h1 hr
  obtain ⟨l, rfl, hl⟩ := h g size get state K dir maxNode r ha hsz hK h0 h1 hr
  refine ⟨l, rfl, by have := hl.length; have := ha.1; unfold InI64 at *; omega, fun e he => ?_⟩
  obtain ⟨b1, b2⟩ := hl.inRange e he
  have hlt : e.index.toNat < g.length := by have := ha.1; omega
  refine ⟨e.index.toNat, g[e.index.toNat], by omega, by omega, List.getElem?_eq_getElem hlt, ?_⟩
  rw [hl.trueDist e he]
  unfold nodeDist
  rw [List.getElem?_eq_getElem hlt]

/-- C40: the linear provider rejects a number of nodes to look at that is negative or beyond the graph. -/
theorem C40_linear_provider_rejects [LinearOrder C] (ps : Nat → List (Entry C) → List (Entry C)) (b : Backend) (threads : Int) (dist : V → V → C)
    (size : Int) (get : Int → Res (Node V C)) (state : V) (K : Int) (dir : Dir) (maxNode : Int) (hm : maxNode < 0 ∨ size < maxNode)
    (r : Res (List (Entry C))) : linearProvider ps b threads dist size get state K dir maxNode r ↔ r = .throw .invalidArgument := by
  have h : adapterItems size get maxNode = .throw .invalidArgument := by
    unfold adapterItems
    split
    · rfl
    · rw [if_pos (by omega)]
  unfold linearProvider
  rw [h]

example : linearProvider psSort .async 1 (fun a b : Int => a - b) 1 (getNode [(⟨0, [], []⟩ : Node Int Int)]) 0 1 .roadmapToNew 2
    (.throw .invalidArgument) := (C40_linear_provider_rejects _ _ _ _ _ _ _ _ _ _ (by decide) _).mpr rfl

/-! ### Concrete cases -/

/-- One may only move up; moving up costs one more than moving down. -/
def upDist (a b : Int) : Int := if a < b then 2 * (b - a) else a - b

def upEnv (symmetric : Bool) : Env Int Int where
  knn := linearProvider psSort .async 1 upDist
  dist := upDist
  valid a b := decide (a ≤ b)
  infeasible := -1
  K := 2
  backend := .async
  threads := 1
  symmetric := symmetric
  addDuplicates := false

theorem upEnv_sound (s : Bool) : (upEnv s).knn.Sound (upEnv s).dist :=
  (C40_linear_provider_nearest psSort psSort_lawful .async 1 (by unfold InI64; omega) (fun _ h => h) (fun _ _ _ _ h => h)
    upDist).sound

theorem upEnv_query (s : Bool) (state : Int) (dir : Dir) :
    KnnQuery (upEnv s).knn (graphOps.size [(⟨0, [], []⟩ : Node Int Int)]) (graphOps.get [(⟨0, [], []⟩ : Node Int Int)]) state 2 dir 1
      (.ok [⟨0, dirDist upDist dir 0 state⟩]) := by
  refine ⟨.ok [⟨0, dirDist upDist dir 0 state⟩], ?_, rfl⟩
  show KnnRun psSort .async 1 [(⟨0, [], []⟩ : Node Int Int)] _ 0 1 2 _
  unfold KnnRun
  rw [if_neg (by omega)]
  rfl

/-- C40 is false of the code for `NEW_STATE_TO_ROADMAP` with asymmetric functions: from a roadmap with the single state 0 and the
new state 5, where only moving up is valid, the edge from 5 down to 0 is added and the valid edge from 0 up to 5 is not. -/
theorem C40_false :
    ∃ (e : Env Int Int) (g g' : Graph Int Int) (state : Int), e.knn.Sound e.dist ∧ e.symmetric = false ∧ ValidLinkage g ∧
      AddNodeRun graphOps e state .newToRoadmap g.length g (g', .ok 1) ∧
      HasValue g' 0 0 ∧ HasValue g' 1 5 ∧
      e.valid 5 0 = false ∧ e.valid 0 5 = true ∧ (∃ w, OutEdge g' 1 0 w) ∧ ¬ ∃ w, OutEdge g' 0 1 w := by
  refine ⟨upEnv false, [⟨0, [], []⟩], [⟨0, [⟨1, 0, 5, 0⟩], []⟩, ⟨5, [], [⟨1, 0, 5, 0⟩]⟩], 5, upEnv_sound _, rfl, ?_, ?_,
    ⟨0, _, rfl, rfl, rfl⟩, ⟨1, _, rfl, rfl, rfl⟩, rfl, rfl, ⟨5, 1, _, rfl, rfl, _, List.mem_singleton.mpr rfl, rfl, rfl⟩, ?_⟩
  · exact addNodeValue_valid (g := ([] : Graph Int Int)) (fun i n h => by simp at h) 0
  · have := AddNodeRun.added (ops := graphOps) (e := upEnv false) (state := 5) (dir := .newToRoadmap) (maxNode := 1)
      (g := [(⟨0, [], []⟩ : Node Int Int)]) (order := [0]) (init := [(0, 0)]) (upEnv_query false 5 .newToRoadmap) (Or.inr rfl)
      ⟨[[⟨0, 0⟩]], [⟨0, 0⟩], rfl, .step 0 _ [] [] rfl (.done (by simp)), rfl⟩ rfl
    exact this
  · rintro ⟨w, i, n, hi, hn, e, he, h⟩
    obtain rfl : i = 0 := by omega
    cases hn
    cases he

/-- The hypotheses of C40 hold, with asymmetric functions: adding 5 to the roadmap with the single state 0 gives the edge
from 0 up to 5, with the distance from 0 to 5, and no edge down. -/
example : ∃ g', AddNodeRun graphOps (upEnv false) 5 .roadmapToNew 1 [(⟨0, [], []⟩ : Node Int Int)] (g', .ok 1) ∧
    ∀ u v w, OutEdge g' u v w ↔ u = 0 ∧ v = 1 ∧ w = 10 := by
  have hrun := AddNodeRun.added (ops := graphOps) (e := upEnv false) (state := 5) (dir := .roadmapToNew) (maxNode := 1)
      (g := [(⟨0, [], []⟩ : Node Int Int)]) (order := [0]) (init := [(0, 0)]) (upEnv_query false 5 .roadmapToNew) (Or.inr rfl)
      ⟨[[⟨0, 0⟩]], [⟨0, 0⟩], rfl, .step 0 _ [] [] rfl (.done (by simp)), rfl⟩ rfl
  have hl : ∀ l, (upEnv false).knn 1 (getNode [(⟨0, [], []⟩ : Node Int Int)]) 5 2 .roadmapToNew 1 (.ok l) → l = [⟨0, 10⟩] := by
    intro l h
    have h' : KnnRun psSort .async 1 [(⟨0, [], []⟩ : Node Int Int)] (fun n : Node Int Int => upDist n.value 5) 0 1 2 (.ok l) := h
    unfold KnnRun at h'
    rw [if_neg (by omega)] at h'
    have : knnSerial psSort [(⟨0, [], []⟩ : Node Int Int)] (fun n : Node Int Int => upDist n.value 5) 0 1 2 = .ok [⟨0, 10⟩] := rfl
    rw [this] at h'
    cases h'
    rfl
  rcases C40_add_node_partial (upEnv false) (upEnv_sound _) (by decide) (by decide) 5 .roadmapToNew 1 [⟨0, [], []⟩] (by decide)
    (by decide) (by unfold InI64; simp) (by unfold InI64; simp [upEnv]) _ hrun with
    ⟨_, i, n, h, _⟩ | ⟨g', l, h1, h2, _, _, _, _, h3⟩
  · have h1 := congrArg (fun p => p.1.length) h
    cases h1
  · refine ⟨g', by rw [h1] at hrun; exact hrun, fun u v w => ?_⟩
    rw [h3 (by simp [upEnv]) u v w, hl l h2]
    constructor
    · rintro (⟨i, n, _, hn, e, he, _⟩ | ⟨nb, hnb, b, ⟨k, n, hk, hn, rfl⟩, h⟩)
      · rcases i with _ | i
        · cases hn; cases he
        · simp at hn
      · cases List.mem_singleton.mp hnb
        obtain rfl : k = 0 := by dsimp only at hk; omega
        cases hn
        rcases h with ⟨rfl, rfl, _, rfl, _⟩ | ⟨rfl, rfl, h, _⟩
        · exact ⟨rfl, rfl, rfl⟩
        · simp [upEnv] at h
    · rintro ⟨rfl, rfl, rfl⟩
      exact Or.inr ⟨⟨0, 10⟩, by simp, 0, ⟨0, _, rfl, rfl, rfl⟩, Or.inl ⟨rfl, rfl, rfl, rfl, by decide⟩⟩

/-- A provider with a wrong answer. -/
def negEnv : Env Int Int where
  knn _ _ _ _ _ _ r := r = .ok [⟨-1, 1⟩]
  dist := upDist
  valid _ _ := true
  infeasible := -1
  K := 2
  backend := .async
  threads := 1
  symmetric := true
  addDuplicates := false

/-- C40: a provider that answers a negative index is not caught by the check on its answers: the node is added, then the lookup of the
neighbour throws, and the new node without edges stays in the roadmap. -/
theorem C40_negative_neighbour_partial_effect :
    ∃ (e : Env Int Int) (g g' : Graph Int Int), AddNodeRun graphOps e 5 .roadmapToNew g.length g (g', .throw .outOfRange) ∧
      g'.length = g.length + 1 := by
  have hrun := AddNodeRun.added (ops := graphOps) (e := negEnv) (state := 5) (dir := .roadmapToNew) (maxNode := 1)
      (g := [(⟨0, [], []⟩ : Node Int Int)]) (l := [⟨-1, 1⟩]) (order := [0]) (init := [(0, 0)]) ⟨.ok [⟨-1, 1⟩], rfl, rfl⟩
      (Or.inr rfl) ⟨[[⟨0, 0⟩]], [⟨0, 0⟩], rfl, .step 0 _ [] [] rfl (.done (by simp)), rfl⟩ rfl
  exact ⟨negEnv, [⟨0, [], []⟩], [⟨0, [], []⟩, ⟨5, [], []⟩], hrun, rfl⟩

end CRU.Prm
