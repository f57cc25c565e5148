import Verif.Prm.QueryProps
import Mathlib.Algebra.Order.Monoid.WithTop
/-
  C67: queries end; concrete cases.
-/
namespace CRU.Prm
open CRU.Graph CRU.Knn CRU.Parallel CRU.GraphSearch

section
variable {V C : Type} [LinearOrder C] [Zero C]

theorem addNode_exists (e : Env V C) (hs : e.knn.Sound e.dist) (hk : ∀ size get state K dir maxNode, ∃ r, e.knn size get state K dir maxNode r)
    (hK : 0 ≤ e.K) (hth : InI64 e.threads) (state : V) (dir : Dir) (maxNode : Int) (g : Graph V C) (h0 : 0 ≤ maxNode)
    (h1 : maxNode ≤ g.length) (hsz : InI64 g.length) : ∃ r, AddNodeRun graphOps e state dir maxNode g r := by
  obtain ⟨r, hr⟩ := hk g.length (getNode g) state e.K dir maxNode
  have ha : Access g (graphOps.size g) (graphOps.get g) :=
    ⟨rfl, fun i n hn => by obtain ⟨hi, rfl⟩ := List.getElem?_eq_some_iff.mp hn; exact getNode_ok g i hi⟩
  obtain ⟨l, rfl, hl, hin⟩ := hs g _ _ state e.K dir maxNode r ha hsz hK h0 h1 hr
  have hq : KnnQuery e.knn (graphOps.size g) (graphOps.get g) state e.K dir maxNode (.ok l) := by
    refine ⟨.ok l, hr, ?_⟩
    rw [Res.ok_bind]
    unfold sanityCheck
    rw [if_neg]
    · rfl
    · simp only [List.any_eq_true, Bool.or_eq_true, decide_eq_true_eq, not_exists, not_and, not_or]
      intro x hx
      obtain ⟨i, n, q1, q2, q3, _⟩ := hin x hx
      obtain ⟨q4, _⟩ := List.getElem?_eq_some_iff.mp q3
      have : graphOps.size g = g.length := rfl
      omega
  by_cases hd : e.addDuplicates = false ∧ ∃ d, firstDuplicate l = some d
  · obtain ⟨hd, d, hf⟩ := hd
    exact ⟨_, .duplicate hq hd hf⟩
  · obtain ⟨order, ho⟩ := IndexRun.exists e.backend e.threads 0 l.length (by unfold InI64; omega) hl hth (by simpa using hl) (by omega)
    refine ⟨_, .added (init := List.replicate l.length (0, 0)) hq ?_ ho (by simp)⟩
    by_cases hd' : e.addDuplicates = true
    · exact Or.inl hd'
    · right
      cases hf : firstDuplicate l with
      | none => rfl
      | some d => exact absurd ⟨by simpa using hd', d, hf⟩ hd

theorem addAll_exists (e : Env V C) (hs : e.knn.Sound e.dist) (hk : ∀ size get state K dir maxNode, ∃ r, e.knn size get state K dir maxNode r)
    (hK : 0 ≤ e.K) (hinf : e.infeasible < 0) (hth : InI64 e.threads) (dir : Dir) (maxNode : Int) (h0 : 0 ≤ maxNode) (states : List V)
    (g : Graph V C) (h1 : maxNode ≤ g.length) (hsz : InI64 (g.length + states.length)) :
    ∃ g' r, AddAllRun graphOps e dir maxNode states g (g', r) := by
  induction states generalizing g with
  | nil => exact ⟨g, _, .nil⟩
  | cons s states ih =>
    have hsz' : InI64 g.length := by unfold InI64 at hsz ⊢; simp only [List.length_cons, Nat.cast_add, Nat.cast_one] at hsz; omega
    obtain ⟨r, hr⟩ := addNode_exists e hs hk hK hth s dir maxNode g h0 h1 hsz'
    rcases addNode_cases e hs hK s dir maxNode g h0 h1 hsz' hth r hr with ⟨_, i, n, rfl, _⟩ | ⟨g1, l, rfl, _, _, _, hg, _⟩
    · obtain ⟨g', r', h'⟩ := ih g h1 (by unfold InI64 at hsz ⊢; simp only [List.length_cons, Nat.cast_add, Nat.cast_one] at hsz; omega)
      exact ⟨g', _, .next hr h'⟩
    · have := hg.length
      obtain ⟨g', r', h'⟩ := ih g1 (by omega) (by unfold InI64 at hsz ⊢; simp only [List.length_cons, Nat.cast_add, Nat.cast_one] at hsz; omega)
      exact ⟨g', _, .next hr h'⟩

variable [Add C] [OrderTop C] [CostLaws C] [Inhabited V]

/-- C67: queries end. (That each run ends is part of C08-C09, C40 and C23.) -/
theorem C67_query_ends (e : Env V C) (hs : e.knn.Sound e.dist)
    (hk : ∀ size get state K dir maxNode, ∃ r, e.knn size get state K dir maxNode r) (hK : 0 ≤ e.K) (hinf : e.infeasible < 0)
    (hth : InI64 e.threads) (hsym : e.symmetric = true → SymmetricFns e.valid e.dist) (lazy limit : Bool) (starts goals : List V)
    (g : Graph V C) (hv : ValidLinkage g) (hw : ∀ u v w, OutEdge g u v w → 0 ≤ w)
    (hd : lazy = true → ∀ a b, 0 ≤ e.dist a b) (hI : InI64 (g.length + starts.length + goals.length)) (useOverlay : Bool) :
    ∃ r, QueryPathRun e lazy limit starts goals g useOverlay (g, r) := by
  have key : ∃ r, QueryPathRun e lazy limit starts goals g false (g, r) := by
    by_cases hst : starts = []
    · exact ⟨_, .copy (.noStarts hst)⟩
    by_cases hgo : goals = []
    · exact ⟨_, .copy (.noGoals hst hgo)⟩
    have hI1 : InI64 (g.length + starts.length) := by unfold InI64 at hI ⊢; omega
    obtain ⟨g1, r1, hr1⟩ := addAll_exists e hs hk hK hinf hth .newToRoadmap g.length (by omega) starts g le_rfl hI1
    obtain ⟨si, rfl, ha1, hv1, _⟩ := addAll_attached e hs hK hinf hth hsym .newToRoadmap g.length (by omega) starts g le_rfl hI1 hv g1 r1 hr1
    have hI2 : InI64 (g1.length + goals.length) := by have := ha1.length; unfold InI64 at hI ⊢; omega
    obtain ⟨g2, r2, hr2⟩ := addAll_exists e hs hk hK hinf hth .roadmapToNew g1.length (by omega) goals g1 le_rfl hI2
    obtain ⟨gi, rfl, ha2, hv2, _⟩ := addAll_attached e hs hK hinf hth hsym .roadmapToNew g1.length (by omega) goals g1 le_rfl hI2 hv1 g2 r2 hr2
    have hG : GraphLike g2 (graphOps.size g2) (graphOps.get g2) := graphLike_self hv2
    have hw2 : ∀ u v w, OutEdge g2 u v w → 0 ≤ w := by
      intro u v w ho
      rcases ha2.edges u v w ho with ho | ⟨s, _, b, k, i, _, _, hc⟩
      · rcases ha1.edges u v w ho with ho | ⟨s, _, b, k, i, _, _, hc⟩
        · exact hw u v w ho
        · exact connectsAs_nonneg hc
      · exact connectsAs_nonneg hc
    obtain ⟨r, hr⟩ : ∃ r, SearchRun graphOps e lazy limit g2 si gi r := by
      unfold SearchRun
      by_cases hl : lazy = true
      · simp only [hl, if_true]
        exact (C23_terminates hG si gi _
          (nonneg_value hG (fun u v w ⟨i, j, n, m, _, _, _, _, _, _, h⟩ => (by rw [h]; exact hd hl _ _))) _ limit).1
      · simp only [hl, if_false]
        exact (C23_terminates hG si gi _ (fun i n hn x hx => hw2 i x.dst x.weight ⟨i, n, rfl, hn, x, hx, rfl, rfl⟩) _ limit).1
    exact ⟨_, .copy (.searched hst hgo hr1 hr2 hr)⟩
  cases useOverlay with
  | false => exact key
  | true =>
    obtain ⟨r, hr⟩ := key
    obtain ⟨r', hr', _⟩ := C67_overlay_agrees e lazy limit starts goals g false r hr
    exact ⟨r', hr'⟩

end

/-- The serial linear provider always answers. -/
theorem linearProvider_total {V C : Type} [LinearOrder C] (ps : Nat → List (Entry C) → List (Entry C)) (b : Backend) (dist : V → V → C)
    (size : Int) (get : Int → Res (Node V C)) (state : V) (K : Int) (dir : Dir) (maxNode : Int) :
    ∃ r, linearProvider ps b 1 dist size get state K dir maxNode r := by
  unfold linearProvider
  split
  · rename_i items _
    refine ⟨knnSerial ps items (fun n : Node V C => dirDist dist dir n.value state) 0 items.length K, ?_⟩
    unfold KnnRun
    rw [if_neg (by omega)]
  · exact ⟨_, rfl⟩
  · exact ⟨_, rfl⟩

/-! ### Concrete cases -/

/-- An environment over the integers, with costs in the integers and infinity. -/
def lineEnv (dist : Int → Int → Int) (valid : Int → Int → Bool) (symmetric : Bool) : Env Int (WithTop Int) where
  knn := linearProvider psSort .async 1 (fun a b => (dist a b : WithTop Int))
  dist a b := (dist a b : WithTop Int)
  valid := valid
  infeasible := ((-1 : Int) : WithTop Int)
  K := 2
  backend := .async
  threads := 1
  symmetric := symmetric
  addDuplicates := false

theorem lineEnv_sound (dist : Int → Int → Int) (valid : Int → Int → Bool) (s : Bool) :
    (lineEnv dist valid s).knn.Sound (lineEnv dist valid s).dist :=
  (C40_linear_provider_nearest psSort psSort_lawful .async 1 (by unfold InI64; omega) (fun _ h => h) (fun _ _ _ _ h => h)
    (lineEnv dist valid s).dist).sound

theorem lineEnv_inf (dist : Int → Int → Int) (valid : Int → Int → Bool) (s : Bool) : (lineEnv dist valid s).infeasible < 0 := by
  show ((-1 : Int) : WithTop Int) < ((0 : Int) : WithTop Int)
  exact WithTop.coe_lt_coe.mpr (by omega)

/-- A roadmap of one node. -/
def oneNode : Graph Int (WithTop Int) := [⟨0, [], []⟩]

theorem oneNode_valid : ValidLinkage oneNode :=
  addNodeValue_valid (g := ([] : Graph Int (WithTop Int))) (fun i n h => by simp at h) 0

theorem oneNode_edge (u v : Int) (w : WithTop Int) : ¬ OutEdge oneNode u v w := by
  rintro ⟨i, n, _, h, e, he, _⟩
  match i with
  | 0 => cases h; simp at he
  | i + 1 => simp [oneNode] at h

theorem chain_mono {l : List Int} (h : l.IsChain (fun a b => decide (a ≤ b) = true)) {a b : Int} (ha : l.head? = some a)
    (hb : l.getLast? = some b) : a ≤ b := by
  induction h generalizing a with
  | nil => cases ha
  | singleton => simp_all
  | cons_cons h1 _ ih =>
    simp at ha
    subst ha
    have := ih rfl (by simpa using hb)
    simp at h1
    omega

/-- C67 is false as stated for functions that are not symmetric: where one may only move up, `QueryPath` from 5 on a roadmap with
the single node 0 answers with a path down to 0, along an edge that the check rejects. -/
theorem C67_false : ∃ (e : Env Int (WithTop Int)) (g : Graph Int (WithTop Int)) (vals : List Int) (cost : WithTop Int),
    e.knn.Sound e.dist ∧ e.symmetric = false ∧ ValidLinkage g ∧ (∀ u v w, ¬ OutEdge g u v w) ∧
      QueryPathRun e false false [5] [0] g true (g, .ok (vals, cost)) ∧ ¬ vals.IsChain (fun a b => e.valid a b = true) := by
  let e := lineEnv (fun a b => |a - b|) (fun a b => decide (a ≤ b)) false
  obtain ⟨r, hr⟩ := C67_query_ends e (lineEnv_sound _ _ _) (linearProvider_total _ _ _) (by decide) (lineEnv_inf _ _ _)
    (by decide) (by intro h; cases h) false false [5] [0] oneNode oneNode_valid (fun u v w h => absurd h (oneNode_edge u v w))
    (by intro h; cases h) (by decide) true
  obtain ⟨g1, g2, si, gi, h1, h2, h3, h4, h5⟩ := C67_query e (lineEnv_sound _ _ _) (by decide) (lineEnv_inf _ _ _) (by decide)
    (by intro h; cases h) false false [5] [0] (by simp) (by simp) oneNode oneNode_valid
    (fun u v w h => absurd h (oneNode_edge u v w)) (by intro h; cases h) (by decide) true _ _ hr
  obtain ⟨x, rfl⟩ := h4 (by simp) (fun a b ha hb => by simp [ha, hb]) (by intro h; cases h)
  rcases h5 with ⟨x, hx⟩ | ⟨path, vals, cost, heq, hval, hemp, htop, hne, _⟩
  · cases hx
  cases heq
  refine ⟨e, oneNode, vals, cost, lineEnv_sound _ _ _, rfl, oneNode_valid, oneNode_edge, hr, ?_⟩
  -- the start is a new node
  have hsi : si = [1] ∧ g1.length = 2 ∧ HasValue g1 1 5 ∧ HasValue g1 0 0 ∧ (∀ u v w, OutEdge g1 u v w ↔ u = 1 ∧ v = 0 ∧ w = ((5 : Int) : WithTop Int)) := by
    cases h1 with
    | @existing _ _ _ _ _ i n hd hi hn hz hrest =>
      have hi' : i = 0 := by simp [oneNode] at hi; exact hi
      subst hi'
      cases hn
      simp [dirDist, e, lineEnv] at hz
    | @added _ _ _ g1' _ _ l hk _ hg he hrest =>
      cases hrest
      have hl : l = [⟨0, ((5 : Int) : WithTop Int)⟩] := by
        have h' : KnnRun psSort .async 1 oneNode (fun n : Node Int (WithTop Int) => ((|5 - n.value| : Int) : WithTop Int)) 0 1 2 (.ok l) := hk
        unfold KnnRun at h'
        rw [if_neg (by omega)] at h'
        cases h'
        rfl
      subst hl
      refine ⟨rfl, hg.length, ?_, ?_, ?_⟩
      · obtain ⟨n, q1, q2⟩ := hg.new
        exact ⟨1, n, rfl, q1, q2⟩
      · exact hg.value ⟨0, _, rfl, rfl, rfl⟩
      · intro u v w
        rw [he]
        constructor
        · rintro (h | ⟨nb, hnb, b, hb, hcn⟩)
          · exact absurd h (oneNode_edge u v w)
          · simp at hnb
            subst hnb
            obtain rfl := hb.unique ⟨0, _, rfl, rfl, rfl⟩
            unfold ConnectsAs ConnectsSwapped at hcn
            rw [if_pos ⟨rfl, rfl⟩] at hcn
            rcases hcn with ⟨_, _, hx, _⟩ | ⟨h1, h2, _, h4, _⟩
            · simp [e, lineEnv] at hx
            · exact ⟨by simpa [oneNode] using h1, h2, h4⟩
        · rintro ⟨rfl, rfl, rfl⟩
          refine Or.inr ⟨_, List.mem_singleton.mpr rfl, 0, ⟨0, _, rfl, rfl, rfl⟩, ?_⟩
          unfold ConnectsAs ConnectsSwapped
          rw [if_pos ⟨rfl, rfl⟩]
          refine Or.inr ⟨rfl, rfl, rfl, rfl, ?_⟩
          exact WithTop.coe_le_coe.mpr (by omega : (0 : Int) ≤ 5)
  obtain ⟨rfl, hlen, hv1, hv0, hedge⟩ := hsi
  -- the goal is the old node
  obtain ⟨rfl, rfl⟩ : gi = [0] ∧ g2 = g1 := by
    obtain ⟨k0, n0, e0, hn0, hx0⟩ := hv0
    obtain rfl : k0 = 0 := by exact_mod_cast e0.symm
    obtain ⟨k1, n1, e1, hn1, hx1⟩ := hv1
    obtain rfl : k1 = 1 := by exact_mod_cast e1.symm
    have hg1 : g1 = [n0, n1] := by
      match g1, hlen with
      | [a, b], _ => simp at hn0 hn1; rw [hn0, hn1]
    cases h2 with
    | @existing _ _ _ _ _ i n hd hi hn hz hrest =>
      cases hrest
      refine ⟨?_, rfl⟩
      have hi' : i < 2 := by omega
      have : i = 0 := by
        interval_cases i
        · rfl
        · rw [hn1] at hn
          cases hn
          simp [dirDist, e, lineEnv, hx1] at hz
      subst this
      rfl
    | @added _ _ _ g1' _ _ l hk hz hg he hrest =>
      exfalso
      have hl : ∃ nb ∈ l, nb.dist = 0 := by
        subst hg1
        have h' : KnnRun psSort .async 1 [n0, n1] (fun n : Node Int (WithTop Int) => ((|n.value - 0| : Int) : WithTop Int)) 0 2 2 (.ok l) := hk
        unfold KnnRun at h'
        rw [if_neg (by omega)] at h'
        have h6 : knnSerial psSort [n0, n1] (fun n : Node Int (WithTop Int) => ((|n.value - 0| : Int) : WithTop Int)) 0 2 2 =
            .ok [⟨0, ((|n0.value - 0| : Int) : WithTop Int)⟩, ⟨1, ((|n1.value - 0| : Int) : WithTop Int)⟩] := rfl
        rw [h6] at h'
        cases h'
        exact ⟨⟨0, ((|n0.value - 0| : Int) : WithTop Int)⟩, List.mem_cons_self, by simp [hx0]⟩
      obtain ⟨nb, q1, q2⟩ := hl
      exact hz rfl nb q1 q2
  have hpn : path ≠ [] := by
    intro hp
    refine hemp.mp hp [1, 0] (0 + ((5 : Int) : WithTop Int)) ?_ 0 (by simp) (by simp)
    refine Astar.Walk.step (l := []) (.start (by simp)) ?_
    unfold QueryEdge FiniteEdge
    rw [if_neg (by simp), hedge]
    exact ⟨⟨rfl, rfl, rfl⟩, WithTop.coe_lt_top 5⟩
  obtain ⟨⟨s, q1, q2⟩, ⟨t, q3, q4⟩, _⟩ := hne hpn
  simp at q1 q3
  subst q1; subst q3
  intro hch
  have hhead : vals.head? = some 5 := by
    cases hval with
    | nil => cases q2
    | cons a _ =>
      simp at q2
      subst q2
      obtain rfl := a.unique hv1
      rfl
  have hlast : vals.getLast? = some 0 := by
    obtain ⟨l, rfl⟩ := List.getLast?_eq_some_iff.mp q4
    obtain ⟨v1, b, rfl, _, q⟩ := forall₂_snoc hval
    obtain rfl := q.unique hv0
    simp
  have := chain_mono hch hhead hlast
  omega

/-- `QueryPath` on the line with symmetric functions meets the hypotheses: from 5 to 7 over a roadmap with the node 0 there is an
answer, and any answer is a path from 5 to 7 whose length is its cost. -/
example : ∃ vals cost, QueryPathRun (lineEnv (fun a b => |a - b|) (fun _ _ => true) true) false false [5] [7] oneNode true
    (oneNode, .ok (vals, cost)) ∧
      (vals ≠ [] → vals.head? = some 5 ∧ vals.getLast? = some 7 ∧ cost = pathLength (fun a b : Int => ((|a - b| : Int) : WithTop Int)) vals) := by
  let e := lineEnv (fun a b => |a - b|) (fun _ _ => true) true
  have hsy : SymmetricFns e.valid e.dist := fun a b => ⟨rfl, by simp [e, lineEnv, abs_sub_comm]⟩
  have hnn : ∀ a b, 0 ≤ e.dist a b := fun a b => WithTop.coe_le_coe.mpr (abs_nonneg (a - b))
  have hw : ∀ u v w, OutEdge oneNode u v w → 0 ≤ w := fun u v w h => absurd h (oneNode_edge u v w)
  have hc : (false = false → SymmetricFns e.valid e.dist ∧
      ∀ u v w, FiniteEdge oneNode u v w → ∃ a b, HasValue oneNode u a ∧ HasValue oneNode v b ∧ Checked e.valid e.dist a b w) :=
    fun _ => ⟨hsy, fun u v w h => absurd h.1 (oneNode_edge u v w)⟩
  obtain ⟨r, hr⟩ := C67_query_ends e (lineEnv_sound _ _ _) (linearProvider_total _ _ _) (by decide) (lineEnv_inf _ _ _)
    (by decide) (fun _ => hsy) false false [5] [7] oneNode oneNode_valid hw (fun _ => hnn) (by decide) true
  obtain ⟨g1, g2, si, gi, _, _, _, h4, _⟩ := C67_query e (lineEnv_sound _ _ _) (by decide) (lineEnv_inf _ _ _) (by decide)
    (fun _ => hsy) false false [5] [7] (by simp) (by simp) oneNode oneNode_valid hw (fun _ => hnn) (by decide) true _ _ hr
  obtain ⟨⟨vals, cost⟩, rfl⟩ := h4 (by simp) (fun a b ha hb => by simp [ha, hb]) (by intro h; cases h)
  refine ⟨vals, cost, hr, fun hv => ?_⟩
  obtain ⟨⟨s, a1, a2⟩, ⟨t, a3, a4⟩, _⟩ := (C67_answer_partial e (lineEnv_sound _ _ _) (by decide) (lineEnv_inf _ _ _) (by decide)
    (fun _ => hsy) false false [5] [7] (by simp) (by simp) oneNode oneNode_valid hw (fun _ => hnn) (by decide) hc true _ _ _ hr).2 hv
  obtain ⟨_, _, _, _, _, _, b, _⟩ := C67_shortest_partial e (lineEnv_sound _ _ _) (by decide) (lineEnv_inf _ _ _) (by decide)
    (fun _ => hsy) false false [5] [7] (by simp) (by simp) oneNode oneNode_valid hw (by decide) hnn (by simp [e, lineEnv])
    (fun a b c => by
      show ((|a - c| : Int) : WithTop Int) ≤ ((|a - b| : Int) : WithTop Int) + ((|b - c| : Int) : WithTop Int)
      rw [← WithTop.coe_add]
      exact WithTop.coe_le_coe.mpr (abs_sub_le a b c)) hc true _ _ _ hr
  have hz : ∀ x y : Int, ((|x - y| : Int) : WithTop Int) = 0 → x = y := by
    intro x y h
    have : |x - y| = 0 := by exact_mod_cast h
    rw [abs_eq_zero] at this
    omega
  refine ⟨?_, ?_, b hv⟩
  · rw [a1]
    rcases a2 with h | ⟨_, s', h, h'⟩
    · simpa using h
    · simp only [List.mem_singleton] at h; subst h
      rw [hz _ _ h']
  · rw [a3]
    rcases a4 with h | ⟨_, s', h, h'⟩
    · simpa using h
    · simp only [List.mem_singleton] at h; subst h
      rw [hz _ _ h']

end CRU.Prm
