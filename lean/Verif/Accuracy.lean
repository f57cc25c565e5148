import Verif.Double
import Verif.GraphSearch.Props
import Verif.Astar.Inflated
import Verif.Dtw.Props
/-
  C106: what binary64 rounding does to the answers of the searches. The models are those of GraphSearch, Astar and Dtw with the costs of
  Double.lean; nothing is modelled here.
-/
namespace CRU.Accuracy
open CRU.Graph CRU.GraphSearch CRU.Astar CRU.Double
set_option linter.unusedSectionVars false

variable {fl : ℚ → ℚ} [hfl : Fact (RoundsToNearest fl)]

/-! ### Specification -/

/-- The same edges with their exact weights. -/
def Exactly {α : Type} (edge : α → α → Double fl → Prop) (s t : α) (w : ENNReal) : Prop := ∃ x, edge s t x ∧ w = x.exact

/-! ### Proofs -/

/-- `m` roundings amount to a relative error of at most `m · 2⁻⁵²`. -/
theorem rho_pow (m : Nat) (hm : m ≤ 2 ^ 52) : rho ^ m ≤ 1 + m * 2⁻¹ ^ 52 := by
  have hu : (2⁻¹ : ENNReal) ^ 52 = 2 * 2⁻¹ ^ 53 := by
    rw [pow_succ _ 52, ← mul_assoc, mul_comm 2 (2⁻¹ ^ 52), mul_assoc, ENNReal.mul_inv_cancel (by norm_num) (by norm_num), mul_one]
  induction m with
  | zero => simp
  | succ m ih =>
    have h1 : (m : ENNReal) * 2⁻¹ ^ 52 ≤ 1 := by
      have : (m : ENNReal) ≤ 2 ^ 52 := by exact_mod_cast (by omega : m ≤ 2 ^ 52)
      calc (m : ENNReal) * 2⁻¹ ^ 52 ≤ 2 ^ 52 * 2⁻¹ ^ 52 := by gcongr
        _ = 1 := by rw [← mul_pow, ENNReal.mul_inv_cancel (by norm_num) (by norm_num), one_pow]
    calc rho ^ (m + 1) = rho ^ m * rho := pow_succ _ _
      _ ≤ (1 + m * 2⁻¹ ^ 52) * (1 + 2⁻¹ ^ 53) := by gcongr; exact ih (by omega); exact le_refl _
      _ = 1 + m * 2⁻¹ ^ 52 + (2⁻¹ ^ 53 + m * 2⁻¹ ^ 52 * 2⁻¹ ^ 53) := by ring
      _ ≤ 1 + m * 2⁻¹ ^ 52 + (2⁻¹ ^ 53 + 1 * 2⁻¹ ^ 53) := by gcongr
      _ = 1 + (m + 1 : Nat) * 2⁻¹ ^ 52 := by
        push_cast
        rw [hu]
        ring

section Paths
variable {edge : Int → Int → Double fl → Prop} {start v : Int} {path : List Int}

omit hfl in
theorem pathTo_ne_nil {C : Type} [Zero C] [Add C] {e : Int → Int → C → Prop} {c : C} (h : PathTo e start v path c) : 1 ≤ path.length := by
  cases h <;> simp

theorem pathTo_exact {c : Double fl} (h : PathTo edge start v path c) :
    ∃ L, PathTo (Exactly edge) start v path L ∧ L ≤ rho ^ (path.length - 1) * c.exact := by
  induction h with
  | here => exact ⟨0, .here, zero_le⟩
  | @step v u path c w hp he ih =>
    obtain ⟨L, h1, h2⟩ := ih
    refine ⟨L + w.exact, .step h1 ⟨w, he, rfl⟩, ?_⟩
    have := pathTo_ne_nil hp
    rw [List.length_cons, show path.length + 1 - 1 = path.length - 1 + 1 by omega]
    exact exact_bound_add h2

theorem pathTo_round {L : ENNReal} (h : PathTo (Exactly edge) start v path L) :
    ∃ c : Double fl, PathTo edge start v path c ∧ ∀ d : Double fl, d ≠ ⊤ → d ≤ c → d.exact ≤ rho ^ (path.length - 1) * L := by
  induction h with
  | here =>
    refine ⟨0, .here, fun d _ hd => ?_⟩
    have := exact_mono hd
    rw [exact_zero] at this
    simpa using this
  | @step v u path c w hp he ih =>
    obtain ⟨c', h1, h2⟩ := ih
    obtain ⟨x, hx, rfl⟩ := he
    refine ⟨c' + x, .step h1 hx, fun d hd hle => ?_⟩
    have := pathTo_ne_nil hp
    rw [List.length_cons, show path.length + 1 - 1 = path.length - 1 + 1 by omega]
    exact bound_add h2 hd hle

end Paths

theorem follows_det {prev : List Int} {start v : Int} {p q : List Int} (hp : Follows prev start v p) (hq : Follows prev start v q) : p = q := by
  induction hp generalizing q with
  | here => cases hq with
    | here => rfl
    | step hne _ _ => exact absurd rfl hne
  | step hne hp _ ih => cases hq with
    | here => exact absurd rfl hne
    | step _ hp' hq =>
      rw [hp] at hp'
      cases hp'
      rw [ih hq]

theorem follows_suffix {prev : List Int} {start v : Int} {p : List Int} (hp : Follows prev start v p) :
    ∀ x ∈ p, ∃ q, Follows prev start x q ∧ q.length ≤ p.length := by
  induction hp with
  | here => intro x hx; rw [List.mem_singleton] at hx; subst hx; exact ⟨_, .here, le_refl _⟩
  | step hne hp hf ih =>
    intro x hx
    rcases List.mem_cons.mp hx with rfl | hx
    · exact ⟨_, .step hne hp hf, le_refl _⟩
    · obtain ⟨q, h1, h2⟩ := ih x hx
      exact ⟨q, h1, by simp; omega⟩

theorem follows_nodup {prev : List Int} {start v : Int} {p : List Int} (hp : Follows prev start v p) : p.Nodup := by
  induction hp with
  | here => simp
  | step hne hp hf ih =>
    rw [List.nodup_cons]
    refine ⟨fun hx => ?_, ih⟩
    obtain ⟨q, h1, h2⟩ := follows_suffix hf _ hx
    have := follows_det h1 (.step hne hp hf)
    rw [this] at h2
    simp at h2

theorem follows_length {prev : List Int} {start v : Int} {p : List Int} (hp : Follows prev start v p) (hs : 0 ≤ start ∧ start < prev.length) :
    p.length ≤ prev.length := by
  have hr : ∀ x ∈ p, 0 ≤ x ∧ x < prev.length := by
    induction hp with
    | here => intro x hx; rw [List.mem_singleton] at hx; subst hx; exact hs
    | @step v p path hne hp hf ih =>
      intro x hx
      rcases List.mem_cons.mp hx with rfl | hx
      · by_contra hc
        unfold atInt at hp
        split at hp
        · cases hp
        · have : prev[x.toNat]? = none := List.getElem?_eq_none (by omega)
          unfold atChecked at hp
          rw [this] at hp
          cases hp
      · exact ih x hx
  have hn := follows_nodup hp
  have hsub : p ⊆ (List.range prev.length).map fun n : Nat => (n : Int) := by
    intro x hx
    obtain ⟨h1, h2⟩ := hr x hx
    exact List.mem_map.mpr ⟨x.toNat, List.mem_range.mpr (by omega), by omega⟩
  have := (hn.subperm hsub).length_le
  simpa using this

/-! ### Dijkstra -/

/-- The largest finite `double`. -/
def big : Double fl := ⟨((maxDouble.toNNRat : ℚ≥0) : WithTop ℚ≥0), by
  have h : ((maxDouble.toNNRat : ℚ≥0) : ℚ) = maxDouble := Rat.coe_toNNRat _ maxDouble_pos.le
  show Fl.Rep 53 (-1074) ((maxDouble.toNNRat : ℚ≥0) : ℚ) ∧ ((maxDouble.toNNRat : ℚ≥0) : ℚ) ≤ maxDouble
  rw [h]
  exact ⟨rep_max, le_refl _⟩⟩

theorem big_ne_top : (big : Double fl) ≠ ⊤ := by intro h; have := congrArg Rounded.val h; cases this

variable {V : Type}

/-- C106, Dijkstra: the graph has binary64 weights, sums are rounded. For every node, the distance `d` reported is related to exact path
lengths `L` as follows. If `d` is finite, the path given by the previous-index map has at most as many nodes as the graph, and its exact
length is at most `(1 + 2⁻⁵³)` to the number of its edges times `d`; and `d` is at most that factor, for the edges of any path to the start, times the exact
length of that path. If `d` is infinite, all paths to the start are so long that they overflow. -/
theorem C106_dijkstra {g : Graph V (Double fl)} {size : Int} {get : Int → Res (Node V (Double fl))} (ha : Access g size get)
    (hlink : ValidLinkage g) {start : Int} (hs : 0 ≤ start ∧ start < g.length) {r : Res (List Int × List (Double fl))}
    (hr : DijkstraRun size get start r) :
    ∃ prev dist, r = .ok (prev, dist) ∧ ∀ v : Int, 0 ≤ v → v < g.length → ∃ d, atInt dist v = .ok d ∧
      (d ≠ ⊤ → ∃ path L, Follows prev start v path ∧ path.length ≤ g.length ∧ PathTo (Exactly (InEdge g)) start v path L ∧
        L ≤ rho ^ (path.length - 1) * d.exact) ∧
      (∀ path L, PathTo (Exactly (InEdge g)) start v path L →
        (d ≠ ⊤ → d.exact ≤ rho ^ (path.length - 1) * L) ∧ (d = ⊤ → (big : Double fl).exact ≤ rho ^ (path.length - 1) * L)) := by
  obtain ⟨prev, dist, rfl, hl1, -, -, -, h⟩ := C22_dijkstra ha hlink (fun _ _ _ _ _ => Double.zero_le _) hs hr
  refine ⟨prev, dist, rfl, fun v h0 h1 => ?_⟩
  obtain ⟨d, p, a1, -, a3, a4, a5⟩ := h v h0 h1
  refine ⟨d, a1, fun hd => ?_, fun path L hp => ?_⟩
  · obtain ⟨path, b1, b2⟩ := a5 (fun hp => hd (a4 hp))
    obtain ⟨L, c1, c2⟩ := pathTo_exact b1
    refine ⟨path, L, b2, ?_, c1, c2⟩
    rw [← hl1]
    exact follows_length b2 (by rw [hl1]; exact hs)
  · obtain ⟨c, b1, b2⟩ := pathTo_round hp
    have hle := a3 path c b1
    refine ⟨fun hd => b2 d hd hle, fun hd => b2 big big_ne_top ?_⟩
    rw [hd] at hle
    exact le_trans le_top hle

/-- C106, Dijkstra, near optimality: on a graph of at most `2⁵¹` nodes the path given by the previous-index map is at most `1 + n · 2⁻⁵²` times
as long, exactly measured, as any simple path, where `n` is twice the number of nodes. -/
theorem C106_dijkstra_near_optimal {g : Graph V (Double fl)} {size : Int} {get : Int → Res (Node V (Double fl))} (ha : Access g size get)
    (hlink : ValidLinkage g) (hN : g.length ≤ 2 ^ 51) {start : Int} (hs : 0 ≤ start ∧ start < g.length) {prev : List Int} {dist : List (Double fl)}
    (hr : DijkstraRun size get start (.ok (prev, dist))) (v : Int) (h0 : 0 ≤ v) (h1 : v < g.length) (hd : atInt dist v ≠ .ok ⊤) :
    ∃ path L, Follows prev start v path ∧ PathTo (Exactly (InEdge g)) start v path L ∧
      ∀ path' L', PathTo (Exactly (InEdge g)) start v path' L' → path'.length ≤ g.length →
        L ≤ (1 + (2 * g.length : Nat) * 2⁻¹ ^ 52) * L' := by
  obtain ⟨prev', dist', he, h⟩ := C106_dijkstra ha hlink hs hr
  cases he
  obtain ⟨d, a1, a2, a3⟩ := h v h0 h1
  have hdt : d ≠ ⊤ := by rintro rfl; exact hd a1
  obtain ⟨path, L, b1, b2, b3, b4⟩ := a2 hdt
  refine ⟨path, L, b1, b3, fun path' L' hp hlen => ?_⟩
  have hge : ∀ k, k ≤ 2 * g.length → rho ^ k ≤ rho ^ (2 * g.length) := fun k hk => pow_le_pow_right₀ one_le_rho hk
  calc L ≤ rho ^ (path.length - 1) * d.exact := b4
    _ ≤ rho ^ (path.length - 1) * (rho ^ (path'.length - 1) * L') := by gcongr; exact (a3 path' L' hp).1 hdt
    _ = rho ^ (path.length - 1 + (path'.length - 1)) * L' := by rw [pow_add, mul_assoc]
    _ ≤ (1 + (2 * g.length : Nat) * 2⁻¹ ^ 52) * L' := by
      gcongr
      exact le_trans (hge _ (by omega)) (rho_pow _ (by omega))

/-! ### A* -/

variable {S : Type} [DecidableEq S]

/-- The same starts with their exact costs. -/
noncomputable def exactStarts (starts : List (S × Double fl)) : List (S × ENNReal) := starts.map fun x => (x.1, x.2.exact)

/-- The heuristic never exceeds the exact cost of a continuation to a goal. -/
def AdmissibleExactly (edge : S → S → Double fl → Prop) (goal : S → Bool) (h : S → Double fl) : Prop :=
  ∀ s path L, Walk [(s, 0)] (Exactly edge) path L → EndsInGoal goal path → (h s).exact ≤ L

theorem walk_exact {starts : List (S × Double fl)} {edge : S → S → Double fl → Prop} {p : List S} {c : Double fl} (hw : Walk starts edge p c) :
    ∃ L, Walk (exactStarts starts) (Exactly edge) p L ∧ L ≤ rho ^ (p.length - 1) * c.exact := by
  induction hw with
  | start h => exact ⟨_, .start (List.mem_map.mpr ⟨_, h, rfl⟩), by simp⟩
  | @step l s t c w _ he ih =>
    obtain ⟨L, h1, h2⟩ := ih
    refine ⟨L + w.exact, .step h1 ⟨w, he, rfl⟩, ?_⟩
    rw [show (l ++ [s] ++ [t]).length - 1 = (l ++ [s]).length - 1 + 1 by simp]
    exact exact_bound_add h2

theorem under_weaken {C : Type} [LinearOrder C] [Add C] {starts : List (S × C)} {edge : S → S → C → Prop} {h : S → C} {B B' : C} (hB : B ≤ B')
    {p : List S} {c : C} (hw : WalkUnder starts edge h B p c) : WalkUnder starts edge h B' p c := by
  induction hw with
  | start hs hb => exact .start hs (le_trans hb hB)
  | step _ he hb ih => exact .step ih he (le_trans hb hB)

theorem under_round {starts : List (S × Double fl)} {edge : S → S → Double fl → Prop} {h : S → Double fl} {T : ENNReal} {p : List S} {L : ENNReal}
    (hw : WalkUnder (exactStarts starts) (Exactly edge) (fun s => (h s).exact) T p L) :
    ∃ B X, WalkUnder starts edge h B p X ∧ (∀ d : Double fl, d ≠ ⊤ → d ≤ X → d.exact ≤ rho ^ (p.length - 1) * L) ∧
      ∀ d : Double fl, d ≠ ⊤ → d ≤ B → d.exact ≤ rho ^ p.length * T := by
  induction hw with
  | start hs hb =>
    obtain ⟨⟨s, c⟩, hm, he⟩ := List.mem_map.mp hs
    cases he
    refine ⟨c + h s, c, .start hm (le_refl _), fun d _ hle => by simpa using exact_mono hle, fun d hd hle => ?_⟩
    calc d.exact ≤ rho * (c.exact + (h s).exact) := le_exact_add hd hle
      _ ≤ rho ^ [s].length * T := by simp only [List.length_singleton, pow_one]; gcongr
  | @step l s t L w hw he hb ih =>
    obtain ⟨B, X, h1, h2, h3⟩ := ih
    obtain ⟨x, hx, rfl⟩ := he
    have hlen : (l ++ [s] ++ [t]).length - 1 = (l ++ [s]).length - 1 + 1 := by simp
    have hX : ∀ d : Double fl, d ≠ ⊤ → d ≤ X + x → d.exact ≤ rho ^ ((l ++ [s] ++ [t]).length - 1) * (L + x.exact) := by
      intro d hd hle
      rw [hlen]
      exact bound_add h2 hd hle
    refine ⟨max B (X + x + h t), X + x, .step (under_weaken (le_max_left _ _) h1) hx (le_max_right _ _), hX, fun d hd hle => ?_⟩
    rcases le_max_iff.mp hle with hle | hle
    · refine le_trans (h3 d hd hle) ?_
      gcongr
      · exact one_le_rho
      · simp
    · have := bound_add hX hd hle
      rw [show (l ++ [s] ++ [t]).length - 1 + 1 = (l ++ [s] ++ [t]).length by simp] at this
      refine le_trans this ?_
      gcongr

/-- C106, A*, main overload: all costs are binary64 numbers, sums are rounded, the heuristic never exceeds the exact cost to go. The exact cost
`L` of the path found is at most `(1 + 2⁻⁵³)` to the number of its edges times the reported cost, which in turn is at most that factor, to the
number of its states, times the exact cost of any path to a goal. -/
theorem C106_astar {P : Problem S (Double fl)} {starts : List (S × Double fl)} (hprov : StartProviso P.goal starts)
    (hadm : AdmissibleExactly (ChildEdge P.expand) P.goal P.h) {path : List S} {cost : Double fl}
    (h : AstarRun P starts (.ok (path, cost))) (hne : path ≠ []) :
    (∃ L, Walk (exactStarts starts) (Exactly (ChildEdge P.expand)) path L ∧ L ≤ rho ^ (path.length - 1) * cost.exact) ∧
    ∀ p L', Walk (exactStarts starts) (Exactly (ChildEdge P.expand)) p L' → EndsInGoal P.goal p → cost.exact ≤ rho ^ p.length * L' := by
  have hnn : NonnegChildren P.expand := fun _ _ _ _ => Double.zero_le _
  obtain ⟨⟨c, hw, hc⟩, -, hfin⟩ := C19_path_is_real hnn h hne
  obtain ⟨L, h1, h2⟩ := walk_exact hw
  refine ⟨⟨L, h1, le_trans h2 (by gcongr; exact exact_mono hc)⟩, fun p L' hp hg => ?_⟩
  have hu : WalkUnder (exactStarts starts) (Exactly (ChildEdge P.expand)) (fun s => (P.h s).exact) L' p L' := by
    refine under_of_tail hp ?_ hg
    rintro s x q k hq hgq rfl
    gcongr
    exact hadm s q k hq hgq
  obtain ⟨B, X, h3, -, h4⟩ := under_round hu
  exact h4 cost hfin (C105_bound hnn (fun _ _ => Double.zero_le _) (fun _ => Double.zero_le _) hprov h hne h3 hg)

/-- C106, A* on graphs (both graph types), with a heuristic that never exceeds the exact cost to any goal. -/
theorem C106_graph {g : Graph V (Double fl)} {size : Int} {get : Int → Res (Node V (Double fl))} (hG : GraphLike g size get)
    {starts goals : List Int} {valid : Edge (Double fl) → Bool} {dist : Edge (Double fl) → Double fl} {h : Int → Int → Double fl}
    (hadm : ∀ t ∈ goals, AdmissibleExactly (ValidOut g valid dist) (fun s => decide (s = t)) (fun s => h s t))
    {limit : Bool} {path : List Int} {cost : Double fl} (hr : LazyRun size get starts goals valid dist h limit (.ok (path, cost)))
    (hne : path ≠ []) :
    (∃ L, Walk (starts.map fun i => (i, (0 : ENNReal))) (Exactly (ValidOut g valid dist)) path L ∧ L ≤ rho ^ (path.length - 1) * cost.exact) ∧
    ∀ p L', Walk (starts.map fun i => (i, (0 : ENNReal))) (Exactly (ValidOut g valid dist)) p L' → (∃ t ∈ goals, p.getLast? = some t) →
      cost.exact ≤ rho ^ p.length * L' := by
  have hd : NonnegDist g dist := fun _ _ _ _ _ => Double.zero_le _
  have hst : exactStarts (starts.map fun i => (i, (0 : Double fl))) = starts.map fun i => (i, (0 : ENNReal)) := by
    unfold exactStarts
    rw [List.map_map]
    refine List.map_congr_left fun i _ => ?_
    simp [exact_zero]
  obtain ⟨⟨c, hw, hc⟩, h2, -⟩ := C23_path_is_real hG hd hr hne
  obtain ⟨L, h3, h4⟩ := walk_exact hw
  rw [hst] at h3
  refine ⟨⟨L, h3, le_trans h4 (by gcongr; exact exact_mono hc)⟩, ?_⟩
  rintro p L' hp ⟨t, ht, hl⟩
  rw [← hst] at hp
  have hu : WalkUnder (exactStarts (starts.map fun i => (i, (0 : Double fl)))) (Exactly (ValidOut g valid dist)) (fun s => (h s t).exact) L' p L' := by
    refine under_of_tail (goal := fun s => decide (s = t)) hp ?_ ⟨t, hl, by simp⟩
    rintro s x q k hq hgq rfl
    gcongr
    exact hadm t ht s q k hq hgq
  obtain ⟨B, X, h5, -, h6⟩ := under_round hu
  exact h6 cost ‹_› (C105_graph hG hd (fun _ _ _ => Double.zero_le _) hr hne ht h5 hl)

/-! ### Dynamic time warping -/

theorem add_comm_double (x y : Double fl) : x + y = y + x := by
  apply Rounded.val_inj
  show roundDouble fl (x.val + y.val) = roundDouble fl (y.val + x.val)
  rw [add_comm]

theorem warp_exact (d : Nat → Nat → Double fl) : ∀ l : List (Nat × Nat),
    Dtw.pathCost (fun i j => (d i j).exact) l ≤ rho ^ l.length * (Dtw.pathCost d l).exact
  | [] => by simp [Dtw.pathCost]
  | p :: l => by
    have := exact_bound_add (y := d p.1 p.2) (warp_exact d l)
    simp only [Dtw.pathCost, List.length_cons]
    rw [add_comm, add_comm_double (d p.1 p.2)]
    exact this

/-- A warping path has at most as many pairs as the sequences have elements, less one. -/
theorem warp_length {e : Nat × Nat} {l : List (Nat × Nat)} (h : Dtw.WarpPath e l) : l.length ≤ e.1 + e.2 + 1 := by
  induction h with
  | start => simp
  | @step p q l h hs ih => rcases hs with rfl | rfl | rfl <;> simp <;> omega

/-- C106, dynamic time warping: the result is, up to one factor `1 + 2⁻⁵³` per pair, at least the exact cost of a warping path; hence at least
the exact optimum, up to this factor. (An upper bound fails already without rounding: `C30_optimal_false`.) -/
theorem C106_dtw {A B : Type} {m : Dtw.Mat (Double fl)} (h : Dtw.Evaluator A B m) (xs : List A) (ys : List B) (hx : xs ≠ []) (hy : ys ≠ [])
    (dist : A → B → Double fl) :
    ∃ c, (Dtw.evaluate m xs ys (fun x y => .ok (dist x y))).2 = .ok c ∧ ∃ l, Dtw.WarpPath (xs.length - 1, ys.length - 1) l ∧
      l.length ≤ xs.length + ys.length - 1 ∧
      Dtw.pathCost (fun i j => (Dtw.pairCost xs ys dist i j).exact) l ≤ rho ^ l.length * c.exact := by
  obtain ⟨l, h1, h2⟩ := Dtw.C30_cost_is_real h xs ys hx hy dist
  have h3 := warp_length h1
  have hx' : 0 < xs.length := List.length_pos_iff.mpr hx
  have hy' : 0 < ys.length := List.length_pos_iff.mpr hy
  exact ⟨_, h2, l, h1, by dsimp only at h3; omega, warp_exact _ l⟩

/-! ### Non-vacuity: a graph whose sums are rounded -/
namespace Demo

/-- `double`. -/
abbrev D := Double (Fl.nearest 53 (-1074))

theorem one_le_max : (1 : ℚ) ≤ maxDouble := by
  unfold maxDouble
  have : (1 : ℚ) ≤ 2 ^ (971 : Int) := one_le_zpow₀ (by norm_num) (by norm_num)
  calc (1 : ℚ) ≤ 1 * 2 ^ (971 : Int) := by rwa [one_mul]
    _ ≤ (2 ^ 53 - 1) * 2 ^ (971 : Int) := mul_le_mul_of_nonneg_right (by norm_num) (by positivity)

/-- 1 -/
def one : D := ⟨((1 : ℚ≥0) : WithTop ℚ≥0), ⟨⟨1, 0, by norm_num, by norm_num, by norm_num⟩, by simpa using one_le_max⟩⟩

/-- 2⁻⁶⁰, lost when added to 1. -/
def tiny : D := ⟨((2⁻¹ ^ 60 : ℚ≥0) : WithTop ℚ≥0), ⟨⟨1, -60, by norm_num, by norm_num, by push_cast; rw [zpow_neg]; norm_num⟩,
  le_trans (by push_cast; norm_num) one_le_max⟩⟩

theorem exact_one : one.exact = 1 := by
  show (((1 : ℚ≥0) : NNReal) : ENNReal) = 1
  simp

def g : Graph String D :=
  [GrowOp.addNode "a", .addNode "b", .addNode "c", .addNode "d", .addEdge 0 1 one, .addEdge 1 2 tiny, .addEdge 0 2 one].foldl GrowOp.run []

theorem g_linkage : ValidLinkage g :=
  Mirrored.validLinkage (C58_mirrored_preserved _ ⟨by intro i n h; simp at h, by intro i j n m h; simp at h⟩ _)

/-- Dijkstra towards node 2: node 0 gets a distance of at most `(1 + 2⁻⁵³)` times the exact length 1 of the direct edge. -/
example : ∃ prev dist, DijkstraRun 4 (getNode g) 2 (.ok (prev, dist)) ∧ ∃ d, atInt dist 0 = .ok d ∧ (d ≠ ⊤ → d.exact ≤ rho * 1) := by
  obtain ⟨r, hr⟩ := (C22_terminates (access_self g) g_linkage (fun _ _ _ _ _ => Double.zero_le _) 2).1
  obtain ⟨prev, dist, rfl, h⟩ := C106_dijkstra (access_self g) g_linkage (start := 2) (by decide) hr
  obtain ⟨d, h1, -, h3⟩ := h 0 (by decide) (by decide)
  refine ⟨prev, dist, hr, d, h1, fun hd => ?_⟩
  have hp : PathTo (Exactly (InEdge g)) 2 0 [0, 2] (0 + one.exact) :=
    .step .here ⟨one, ⟨2, _, rfl, rfl, ⟨0, 2, one, 0⟩, by simp, rfl, rfl⟩, rfl⟩
  have := (h3 _ _ hp).1 hd
  rw [exact_one] at this
  simpa using this

example {prev : List Int} {dist : List D} (hr : DijkstraRun 4 (getNode g) 2 (.ok (prev, dist))) (hd : atInt dist 0 ≠ .ok ⊤) :=
  C106_dijkstra_near_optimal (access_self g) g_linkage (by rw [show g.length = 4 from rfl]; norm_num) (start := 2) (by decide) hr 0 (by decide)
    (by decide) hd

/-- A* from node 0 to node 2. -/
example : (∃ r, LazyRun 4 (getNode g) [0] [2] (fun _ => true) (fun e => e.weight) (fun _ _ => 0) true r) ∧
    ∀ path cost, LazyRun 4 (getNode g) [0] [2] (fun _ => true) (fun e => e.weight) (fun _ _ => 0) true (.ok (path, cost)) → path ≠ [] →
      cost.exact ≤ rho ^ 2 * 1 := by
  refine ⟨(C23_terminates (graphLike_self g_linkage) [0] [2] (fun _ => true) (dist := fun e => e.weight) (fun _ _ _ _ _ => Double.zero_le _)
    (fun _ _ => 0) true).1, fun path cost hr hne => ?_⟩
  have := (C106_graph (graphLike_self g_linkage) (fun t _ s p L _ _ => by rw [exact_zero]; exact zero_le) hr hne).2 [0, 2] (0 + one.exact)
    (.step (l := []) (.start (by simp)) ⟨one, ⟨0, _, rfl, rfl, ⟨0, 2, one, 0⟩, by simp, rfl, rfl, rfl⟩, rfl⟩) ⟨2, by simp, by simp⟩
  rw [exact_one] at this
  simpa using this

/-- States 0, 1, 2; from 0 to 2 directly or through 1. -/
def P : Problem Nat D := ⟨fun s => decide (s = 2), fun s => .ok (if s = 0 then [(1, one), (2, one)] else if s = 1 then [(2, tiny)] else []), fun _ => 0, true⟩

/-- A*, main overload. -/
example : (∃ r, AstarRun P [(0, 0)] r) ∧ ∀ path cost, AstarRun P [(0, 0)] (.ok (path, cost)) → path ≠ [] → cost.exact ≤ rho ^ 2 * 1 := by
  constructor
  · refine C21_terminates (fun _ _ _ _ => Double.zero_le _) _ (F := [0, 1, 2]) ⟨by simp, ?_⟩
    rintro s hs t w ⟨kids, hk, ht⟩
    simp only [P, Res.ok.injEq] at hk
    subst hk
    split at ht
    · simp at ht; rcases ht with ⟨rfl, -⟩ | ⟨rfl, -⟩ <;> simp
    · split at ht
      · simp at ht; simp [ht]
      · simp at ht
  · intro path cost hr hne
    have := (C106_astar (.inl (by simp [P])) (fun s p L _ _ => by simp only [P]; rw [exact_zero]; exact zero_le) hr hne).2 [0, 2] (0 + one.exact)
      (.step (l := []) (.start (List.mem_map.mpr ⟨(0, 0), by simp, by simp [exact_zero]⟩)) ⟨one, ⟨[(1, one), (2, one)], rfl, by simp⟩, rfl⟩)
      ⟨2, by simp, by simp [P]⟩
    rw [exact_one] at this
    simpa using this

/-- Dynamic time warping with a used evaluator. -/
example := C106_dtw (.use (.new (first := 4) (second := 1) rfl) [true] [false] (fun _ _ => .ok one) : Dtw.Evaluator Bool Bool (_ : Dtw.Mat D))
  [true, false, false] [true, false] (by simp) (by simp) (fun x y => if x = y then tiny else one)

end Demo

end CRU.Accuracy
