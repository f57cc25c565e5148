import Verif.Totp.PathProps
/-
  C77: switching points of paths, and what goes wrong for very short legs and repeated final waypoints.
-/
namespace CRU.Totp
open Real CRU.Math

variable {n : Nat}

/-! ### Short legs and repeated waypoints -/

theorem along_short (dev : ℝ) (hdev : 0 < dev) : ∀ (pre : List (V n)) (c1 a b : V n),
    (c1 :: pre ++ [a, b]).IsChain (fun x y => dist x y ≤ 1 / 1000000) → a ≠ b →
    along Seg.config none (buildSegments dev c1 c1 (pre ++ [a, b])) 0 = some a
  | [], c1, a, b, h, hne => by
    simp only [List.cons_append, List.nil_append, List.isChain_cons_cons] at h
    obtain ⟨h1, h2, _⟩ := h
    have hl1 : ‖a - (1 / 2 : ℝ) • (c1 + a)‖ < 1 / 1000000 := by
      rw [show a - (1 / 2 : ℝ) • (c1 + a) = (1 / 2 : ℝ) • (a - c1) by module, norm_smul, norm_of_nonneg (by norm_num)]
      rw [dist_comm, dist_eq_norm] at h1
      linarith [norm_nonneg (a - c1)]
    obtain ⟨e1, e2, _⟩ := C76_no_blend ((1 / 2 : ℝ) • (c1 + a)) a ((1 / 2 : ℝ) • (a + b)) dev (.inl hl1)
    change (cornerBlend c1 a b dev).length = 0 at e1
    change ∀ s, (cornerBlend c1 a b dev).config s = a at e2
    rw [List.nil_append, buildSegments, if_pos hdev, e2, e2, lineTo, if_neg (by rw [← dist_eq_norm, dist_comm]; exact not_lt.mpr h1), List.nil_append, buildSegments]
    have hz : (Seg.arc (cornerBlend c1 a b dev)).length = 0 := e1
    rw [(along_cons _ _ _ (by simp) _).1 hz.le, hz, sub_zero]
    exact (Chain.last (lin_good a b) (norm_pos_iff.mpr (sub_ne_zero.mpr hne.symm))).start
  | c2 :: pre, c1, a, b, h, hne => by
    rw [List.cons_append, List.cons_append, List.isChain_cons_cons] at h
    obtain ⟨h1, h2⟩ := h
    have ih := along_short dev hdev pre c2 a b h2 hne
    have hl1 : ‖c2 - (1 / 2 : ℝ) • (c1 + c2)‖ < 1 / 1000000 := by
      rw [show c2 - (1 / 2 : ℝ) • (c1 + c2) = (1 / 2 : ℝ) • (c2 - c1) by module, norm_smul, norm_of_nonneg (by norm_num)]
      rw [dist_comm, dist_eq_norm] at h1
      linarith [norm_nonneg (c2 - c1)]
    obtain ⟨c3, rest, hr⟩ : ∃ c3 rest, pre ++ [a, b] = c3 :: rest := by
      cases pre with
      | nil => exact ⟨a, [b], rfl⟩
      | cons x xs => exact ⟨x, xs ++ [a, b], rfl⟩
    rw [hr] at ih
    obtain ⟨e1, e2, _⟩ := C76_no_blend ((1 / 2 : ℝ) • (c1 + c2)) c2 ((1 / 2 : ℝ) • (c2 + c3)) dev (.inl hl1)
    change (cornerBlend c1 c2 c3 dev).length = 0 at e1
    change ∀ s, (cornerBlend c1 c2 c3 dev).config s = c2 at e2
    rw [List.cons_append, hr, buildSegments, if_pos hdev, e2, e2, lineTo, if_neg (by rw [← dist_eq_norm, dist_comm]; exact not_lt.mpr h1), List.nil_append]
    have hz : (Seg.arc (cornerBlend c1 c2 c3 dev)).length = 0 := e1
    have hne2 : buildSegments dev c2 c2 (c3 :: rest) ≠ [] := by
      intro h0; rw [h0] at ih; cases ih
    rw [(along_cons _ _ _ hne2 _).1 hz.le, hz, sub_zero, ih]

/-- C77 (finding): with a positive deviation, waypoints at most 1e-6 apart are skipped one after the other, however many there are: the
path starts at the last but one waypoint. -/
theorem C77_short_legs_false (dev : ℝ) (hdev : 0 < dev) (pre : List (V n)) (c1 a b : V n)
    (h : (c1 :: pre ++ [a, b]).IsChain (fun x y => dist x y ≤ 1 / 1000000)) (hne : a ≠ b) :
    ∃ p, Path.make (c1 :: pre ++ [a, b]) (.fin dev) = .ok p ∧ p.config 0 = some a := by
  obtain ⟨c2, rest, hr⟩ : ∃ c2 rest, pre ++ [a, b] = c2 :: rest := by
    cases pre with
    | nil => exact ⟨a, [b], rfl⟩
    | cons x xs => exact ⟨x, xs ++ [a, b], rfl⟩
  have := along_short dev hdev pre c1 a b h hne
  rw [List.cons_append, hr] at *
  exact ⟨_, rfl, by rw [assemble_config]; exact this⟩

/-- A point of the line. -/
noncomputable def pt (x : ℝ) : V 1 := EuclideanSpace.single 0 x

theorem pt_dist (x y : ℝ) : dist (pt x) (pt y) = |x - y| := by
  unfold pt
  rw [EuclideanSpace.dist_single_same, Real.dist_eq]

/-- The points `i * 1e-6` of the line, `i < m`. -/
noncomputable def dense (m : Nat) : List (V 1) := (List.range m).map (fun i : Nat => pt ((i : ℝ) * (1 / 1000000)))

/-- Non-vacuity of the finding: for every `m` there is a polyline of `m + 3` such points, and the path starts `m + 1` steps away from its
first waypoint. -/
example (m : Nat) : ∃ p, Path.make (dense (m + 3)) (.fin 1) = .ok p ∧ p.config 0 = some (pt (((m + 1 : Nat) : ℝ) * (1 / 1000000))) := by
  have e : dense (m + 3) = pt (((0 : Nat) : ℝ) * (1 / 1000000)) :: ((List.range m).map (fun i : Nat => pt (((i + 1 : Nat) : ℝ) * (1 / 1000000)))) ++
      [pt (((m + 1 : Nat) : ℝ) * (1 / 1000000)), pt (((m + 2 : Nat) : ℝ) * (1 / 1000000))] := by
    unfold dense
    rw [List.range_succ_eq_map, List.map_cons, List.map_map, List.range_succ, List.range_succ]
    simp only [List.map_append, List.map_cons, List.map_nil, List.append_assoc, List.cons_append, List.nil_append]
    rfl
  have hch : (dense (m + 3)).IsChain (fun x y => dist x y ≤ 1 / 1000000) := by
    unfold dense
    rw [List.isChain_map, List.isChain_iff_getElem]
    intro i hi
    rw [pt_dist, List.getElem_range, List.getElem_range]
    push_cast
    rw [show (i : ℝ) * (1 / 1000000) - (i + 1) * (1 / 1000000) = -(1 / 1000000) by ring, abs_neg, abs_of_nonneg (by norm_num)]
  rw [e] at hch ⊢
  refine C77_short_legs_false 1 one_pos _ _ _ _ hch ?_
  intro h
  have := pt_dist (((m + 1 : Nat) : ℝ) * (1 / 1000000)) (((m + 2 : Nat) : ℝ) * (1 / 1000000))
  rw [h, dist_self] at this
  push_cast at this
  rw [show ((m : ℝ) + 1) * (1 / 1000000) - (m + 2) * (1 / 1000000) = -(1 / 1000000) by ring, abs_neg, abs_of_nonneg (by norm_num)] at this
  norm_num at this

/-- C77 (finding): when the last waypoint is repeated, the end of the path is not a number. -/
theorem C77_repeated_end_false (a b : V n) :
    ∃ p, Path.make [a, b, b] (.fin 0) = .ok p ∧ p.config p.length = none ∧ p.tangent p.length = none := by
  refine ⟨_, rfl, ?_, ?_⟩
  · rw [assemble_config, (assemble_segments _).2]
    simp only [buildSegments, lt_irrefl, if_false]
    rw [(along_cons _ _ _ (by simp) _).1 (by simp [totalLength, Seg.length]), along]
    simp [totalLength, Seg.length, Seg.config]
  · rw [assemble_tangent, (assemble_segments _).2]
    simp only [buildSegments, lt_irrefl, if_false]
    rw [(along_cons _ _ _ (by simp) _).1 (by simp [totalLength, Seg.length]), along]
    simp [Seg.tangent]

/-! ### Switching points -/

/-- What is needed to know of the switching points of a segment. -/
structure Seg.Sw (g : Seg n) : Prop where
  len : 0 ≤ g.length
  sorted : g.switchingPoints.Pairwise (· ≤ ·)
  inside : ∀ s ∈ g.switchingPoints, 0 ≤ s ∧ s < g.length
  zero : ∀ s, 0 < s → s < g.length → s ∉ g.switchingPoints → ∀ T k, g.tangent s = some T → T k = 0 → ∀ u T', g.tangent u = some T' → T' k = 0

theorem lin_sw (a b : V n) : (Seg.lin a b).Sw := by
  refine ⟨norm_nonneg _, .nil, fun s hs => (List.not_mem_nil hs).elim, ?_⟩
  intro s _ _ _ T k hT h0 u T' hT'
  simp only [Seg.tangent] at hT hT'
  rw [hT] at hT'
  cases hT'
  exact h0

theorem none_sw (i : V n) : (Seg.arc (Arc.none i)).Sw := by
  have hnil : (Seg.arc (Arc.none i)).switchingPoints = [] := by
    refine List.eq_nil_iff_forall_not_mem.mpr fun s hs => ?_
    obtain ⟨h1, k, h2⟩ := (mem_switchingPoints _ _).mp hs
    have h3 : atan2 ((Arc.none i).y k) ((Arc.none i).x k) = 0 := Complex.arg_zero
    have : (Arc.none i).switchingPoint k = 0 := by
      unfold Arc.switchingPoint
      rw [if_neg (by rw [h3]; exact lt_irrefl 0), h3, zero_mul]
    rw [← h2, this] at h1
    exact lt_irrefl _ h1
  refine ⟨le_refl _, by rw [hnil]; exact .nil, by rw [hnil]; simp, ?_⟩
  intro s h0 h1
  exact absurd h1 (not_lt.mpr h0.le)

theorem corner_sw (c1 c2 c3 : V n) (dev : ℝ) (hdev : 0 < dev) (h12 : 2 / 1000000 < dist c1 c2) (h23 : 2 / 1000000 < dist c2 c3)
    (hrev : normalized (c3 - c2) ≠ -normalized (c2 - c1)) : (Seg.arc (cornerBlend c1 c2 c3 dev)).Sw := by
  have hm1 : c2 - (1 / 2 : ℝ) • (c1 + c2) = (1 / 2 : ℝ) • (c2 - c1) := by module
  have hm2 : (1 / 2 : ℝ) • (c2 + c3) - c2 = (1 / 2 : ℝ) • (c3 - c2) := by module
  have hn : ∀ v : V n, normalized ((1 / 2 : ℝ) • v) = normalized v := by
    intro v
    unfold normalized
    rw [norm_smul, smul_smul]
    congr 1
    rw [norm_of_nonneg (by norm_num), mul_inv]
    field_simp
  have hl1 : ‖c2 - (1 / 2 : ℝ) • (c1 + c2)‖ = dist c1 c2 / 2 := by
    rw [hm1, norm_smul, norm_of_nonneg (by norm_num), dist_comm, dist_eq_norm]; ring
  have hl2 : ‖(1 / 2 : ℝ) • (c2 + c3) - c2‖ = dist c2 c3 / 2 := by
    rw [hm2, norm_smul, norm_of_nonneg (by norm_num), dist_comm c2, dist_eq_norm]; ring
  by_cases hb : ‖normalized (c2 - c1) - normalized (c3 - c2)‖ < 1 / 1000000
  · have : cornerBlend c1 c2 c3 dev = Arc.none c2 := by
      unfold cornerBlend Arc.make
      rw [if_neg (by rw [hl1, hl2]; push Not; constructor <;> linarith), if_pos (by rw [hm1, hm2, hn, hn]; exact hb)]
    rw [this]
    exact none_sw c2
  · have hc : Corner ((1 / 2 : ℝ) • (c1 + c2)) c2 ((1 / 2 : ℝ) • (c2 + c3)) :=
      ⟨by rw [hl1]; linarith, by rw [hl2]; linarith, by rw [hm1, hm2, hn, hn]; exact not_lt.mp hb, by rw [hm1, hm2, hn, hn]; exact hrev⟩
    obtain ⟨h1, h2, h3⟩ := C76_switching_points _ _ _ dev hc hdev
    refine ⟨(C76_blend _ _ _ dev hc hdev).1.le, h1, h2, ?_⟩
    intro s s0 s1 hs T k hT h0 u T' hT'
    cases hT
    cases hT'
    by_contra hne
    exact hs ((h3 s s0 s1).mpr ⟨k, h0, u, hne⟩)

theorem build_sw (dev : ℝ) : ∀ (ws : List (V n)) (c1 start : V n), (0 < dev → NoReversal (c1 :: ws)) →
    ∀ g ∈ buildSegments dev c1 start ws, g.Sw
  | [], _, _, _, g, hg => by cases hg
  | [c2], _, _, _, g, hg => by
    rw [buildSegments, List.mem_singleton] at hg
    subst hg
    exact lin_sw _ _
  | c2 :: c3 :: rest, c1, start, hr, g, hg => by
    rw [buildSegments] at hg
    split_ifs at hg with hdev
    · obtain ⟨h12, hrv, hrest⟩ := hr hdev
      have h23 : 2 / 1000000 < dist c2 c3 := by
        cases rest with
        | nil => exact hrest
        | cons _ _ => exact hrest.1
      rcases List.mem_append.mp hg with hg | hg
      · unfold lineTo at hg
        split_ifs at hg
        · rw [List.mem_singleton] at hg; subst hg; exact lin_sw _ _
        · cases hg
      · rcases List.mem_cons.mp hg with rfl | hg
        · exact corner_sw c1 c2 c3 dev hdev h12 h23 hrv
        · exact build_sw dev (c3 :: rest) c2 _ (fun _ => hrest) g hg
    · rcases List.mem_cons.mp hg with rfl | hg
      · exact lin_sw _ _
      · exact build_sw dev (c3 :: rest) c2 _ (fun h => absurd h hdev) g hg

/-- All switching points, from position `b` on, ends of segments included. -/
noncomputable def allSwitching : ℝ → List (Seg n) → List (ℝ × Bool)
  | _, [] => []
  | b, g :: gs => g.switchingPoints.map (fun q => (b + q, false)) ++ (b + g.length, true) :: allSwitching (b + g.length) gs

/-- Invariant of the loop that collects the switching points. -/
structure SwInv (p : Path n) (all : List (ℝ × Bool)) : Prop where
  len : 0 ≤ p.length
  sorted : p.switching.Pairwise (fun x y => x.1 ≤ y.1)
  lo : ∀ x ∈ p.switching, 0 ≤ x.1
  shape : p.switching = [] ∨ ∃ l, p.switching = l ++ [(p.length, true)] ∧ ∀ x ∈ l, x.1 < p.length
  mem : ∀ x, x ∈ p.switching ↔ x ∈ all

theorem SwInv.le {p : Path n} {all : List (ℝ × Bool)} (h : SwInv p all) : ∀ x ∈ p.switching, x.1 ≤ p.length := by
  intro x hx
  rcases h.shape with h1 | ⟨l, h1, h2⟩
  · rw [h1] at hx; cases hx
  · rw [h1] at hx
    rcases List.mem_append.mp hx with hx | hx
    · exact (h2 x hx).le
    · rw [List.mem_singleton.mp hx]

theorem addSegment_inv {p : Path n} {all : List (ℝ × Bool)} (h : SwInv p all) {g : Seg n} (hg : g.Sw) :
    SwInv (addSegment p g) (all ++ (g.switchingPoints.map (fun q => (p.length + q, false)) ++ [(p.length + g.length, true)])) := by
  rcases hg.len.eq_or_lt with hz | hp
  · have hnil : g.switchingPoints = [] := by
      refine List.eq_nil_iff_forall_not_mem.mpr fun s hs => ?_
      have := hg.inside s hs
      linarith
    have hsw : (addSegment p g).switching = (p.switching.rdropWhile (fun x => decide (p.length ≤ x.1))) ++ [(p.length, true)] := by
      simp only [addSegment, hnil, List.map_nil, List.append_nil, ← hz, add_zero]
    have hlen : (addSegment p g).length = p.length := by simp only [addSegment, ← hz, add_zero]
    have hdrop : ∃ l, p.switching.rdropWhile (fun x => decide (p.length ≤ x.1)) = l ∧ (p.switching = [] ∧ l = [] ∨ p.switching = l ++ [(p.length, true)]) ∧
        ∀ x ∈ l, x.1 < p.length := by
      rcases h.shape with h1 | ⟨l, h1, h2⟩
      · exact ⟨[], by rw [h1]; rfl, .inl ⟨h1, rfl⟩, by simp⟩
      · refine ⟨l, ?_, .inr h1, h2⟩
        rw [h1, List.rdropWhile_concat_pos _ _ _ (by simp), List.rdropWhile_eq_self_iff]
        intro hl hc
        have := h2 _ (List.getLast_mem hl)
        simp only [decide_eq_true_eq] at hc
        linarith
    obtain ⟨l, h1, h2, h3⟩ := hdrop
    rw [h1] at hsw
    have hsame : l ++ [(p.length, true)] = p.switching ∨ p.switching = [] ∧ l = [] := by
      rcases h2 with h2 | h2
      · exact .inr h2
      · exact .inl h2.symm
    refine ⟨by rw [hlen]; exact h.len, ?_, ?_, .inr ⟨l, by rw [hsw, hlen], by rw [hlen]; exact h3⟩, ?_⟩
    · rw [hsw]
      rcases hsame with e | ⟨_, e⟩
      · rw [e]; exact h.sorted
      · rw [e]; simp
    · rw [hsw]
      rcases hsame with e | ⟨_, e⟩
      · rw [e]; exact h.lo
      · rw [e]; intro x hx; rw [List.nil_append, List.mem_singleton] at hx; rw [hx]; exact h.len
    · intro x
      rw [hsw, hnil, ← hz]
      simp only [List.map_nil, List.nil_append, add_zero, List.mem_append, List.mem_singleton]
      rw [← h.mem]
      rcases h2 with ⟨e1, e2⟩ | e
      · rw [e1, e2]
      · rw [e]
        simp only [List.mem_append, List.mem_singleton]
        tauto
  · have hall : ∀ x ∈ p.switching ++ g.switchingPoints.map (fun q => (p.length + q, false)), x.1 < p.length + g.length := by
      intro x hx
      rcases List.mem_append.mp hx with hx | hx
      · have := h.le x hx; linarith
      · obtain ⟨q, hq, rfl⟩ := List.mem_map.mp hx
        have := (hg.inside q hq).2
        show p.length + q < _
        linarith
    have hsw : (addSegment p g).switching = (p.switching ++ g.switchingPoints.map (fun q => (p.length + q, false))) ++ [(p.length + g.length, true)] := by
      simp only [addSegment]
      congr 1
      rw [List.rdropWhile_eq_self_iff]
      intro hl hc
      have := hall _ (List.getLast_mem hl)
      simp only [decide_eq_true_eq] at hc
      linarith
    refine ⟨add_nonneg h.len hp.le, ?_, ?_, .inr ⟨_, hsw, hall⟩, ?_⟩
    · rw [hsw, List.pairwise_append, List.pairwise_append]
      refine ⟨⟨h.sorted, ?_, ?_⟩, by simp, ?_⟩
      · rw [List.pairwise_map]
        exact hg.sorted.imp (fun h => by simpa using h)
      · intro x hx y hy
        obtain ⟨q, hq, rfl⟩ := List.mem_map.mp hy
        have h1 := h.le x hx
        have h2 := (hg.inside q hq).1
        show x.1 ≤ p.length + q
        linarith
      · intro x hx y hy
        rw [List.mem_singleton] at hy
        rw [hy]
        exact (hall x hx).le
    · rw [hsw]
      intro x hx
      simp only [List.mem_append, List.mem_singleton, List.mem_map] at hx
      rcases hx with (hx | ⟨q, hq, rfl⟩) | rfl
      · exact h.lo x hx
      · exact add_nonneg h.len (hg.inside q hq).1
      · exact add_nonneg h.len hp.le
    · intro x
      rw [hsw]
      simp only [List.mem_append]
      rw [h.mem]
      tauto

theorem foldl_sw : ∀ (gs : List (Seg n)) (p : Path n) (all : List (ℝ × Bool)), SwInv p all → (∀ g ∈ gs, g.Sw) →
    SwInv (gs.foldl addSegment p) (all ++ allSwitching p.length gs)
  | [], p, all, h, _ => by simpa [allSwitching] using h
  | g :: gs, p, all, h, hs => by
    have h1 := addSegment_inv h (hs g (by simp))
    have h2 := foldl_sw gs _ _ h1 (fun x hx => hs x (List.mem_cons_of_mem _ hx))
    rw [List.foldl_cons]
    have e : (addSegment p g).length = p.length + g.length := rfl
    rw [e] at h2
    simpa [allSwitching] using h2

theorem assemble_switching (gs : List (Seg n)) (hne : gs ≠ []) (hs : ∀ g ∈ gs, g.Sw) :
    (assemble gs).switching.Pairwise (fun x y => x.1 ≤ y.1) ∧ (∀ x ∈ (assemble gs).switching, 0 ≤ x.1 ∧ x.1 < (assemble gs).length) ∧
      ∀ x, x ∈ (assemble gs).switching ↔ x ∈ allSwitching 0 gs ∧ x.1 < (assemble gs).length := by
  have h := foldl_sw gs ⟨0, [], []⟩ [] ⟨le_refl _, .nil, by simp, .inl rfl, by simp⟩ hs
  rw [List.nil_append] at h
  have hl : (assemble gs).length = (gs.foldl addSegment ⟨0, [], []⟩).length := rfl
  have hd : (assemble gs).switching = (gs.foldl addSegment ⟨0, [], []⟩).switching.dropLast := rfl
  rcases h.shape with h1 | ⟨l, h1, h2⟩
  · exfalso
    cases gs with
    | nil => exact hne rfl
    | cons g gs =>
      have : ((0 : ℝ) + g.length, true) ∈ allSwitching 0 (g :: gs) := by simp [allSwitching]
      have := (h.mem _).mpr this
      rw [h1] at this
      cases this
  · have hd' : (assemble gs).switching = l := by rw [hd, h1, List.dropLast_concat]
    rw [hd', hl]
    refine ⟨?_, fun x hx => ⟨h.lo x (by rw [h1]; simp [hx]), h2 x hx⟩, fun x => ?_⟩
    · have := h.sorted
      rw [h1, List.pairwise_append] at this
      exact this.1
    · rw [← h.mem, h1]
      simp only [List.mem_append, List.mem_singleton]
      constructor
      · intro hx; exact ⟨.inl hx, h2 x hx⟩
      · rintro ⟨hx | rfl, hlt⟩
        · exact hx
        · exact absurd hlt (lt_irrefl _)

/-- Smooth at `s`: the tangent is the derivative, the curvature its derivative, and a coordinate of the tangent that is zero stays zero. -/
def SmoothAt (cfg tan : ℝ → Option (V n)) (curv : ℝ → V n) (s : ℝ) : Prop :=
  ∃ T, tan s = some T ∧ HasDerivAt (fun u => (cfg u).getD 0) T s ∧ HasDerivAt (fun u => (tan u).getD 0) (curv s) s ∧
    ∀ k, T k = 0 → ∀ᶠ u in nhds s, ((tan u).getD 0) k = 0

theorem smooth_seg {a b : V n} {g : Seg n} (hg : g.Good a b) (hsw : g.Sw) {s : ℝ} (h0 : 0 < s) (h1 : s < g.length)
    (hs : s ∉ g.switchingPoints) : SmoothAt g.config g.tangent g.curvature s := by
  obtain ⟨P, T, _, _, hP, hT, hd⟩ := hg.2.2 (by linarith)
  refine ⟨T s, (hT s).1, ?_, ?_, ?_⟩
  · refine (hd s).1.congr_of_eventuallyEq ?_
    filter_upwards [Ioo_mem_nhds h0 h1] with u hu
    rw [hP u hu.1.le hu.2.le]; rfl
  · refine (hd s).2.congr_of_eventuallyEq ?_
    filter_upwards with u
    rw [(hT u).1]; rfl
  · intro k hk
    filter_upwards with u
    rw [(hT u).1]
    exact hsw.zero s h0 h1 hs (T s) k (hT s).1 hk u (T u) (hT u).1

theorem SmoothAt.congr {cfg tan cfg' tan' : ℝ → Option (V n)} {curv curv' : ℝ → V n} {s d : ℝ} (h : SmoothAt cfg tan curv (s - d))
    (h1 : ∀ᶠ u in nhds s, cfg' u = cfg (u - d)) (h2 : ∀ᶠ u in nhds s, tan' u = tan (u - d)) (h3 : curv' s = curv (s - d)) :
    SmoothAt cfg' tan' curv' s := by
  obtain ⟨T, e1, e2, e3, e4⟩ := h
  have hsub : HasDerivAt (fun u : ℝ => u - d) 1 s := (hasDerivAt_id s).sub_const d
  refine ⟨T, by rw [h2.self_of_nhds, e1], ?_, ?_, ?_⟩
  · have := e2.scomp s hsub
    rw [one_smul] at this
    exact this.congr_of_eventuallyEq (h1.mono fun u hu => by show (cfg' u).getD 0 = _; rw [hu]; rfl)
  · have := e3.scomp s hsub
    rw [one_smul] at this
    rw [h3]
    exact this.congr_of_eventuallyEq (h2.mono fun u hu => by show (tan' u).getD 0 = _; rw [hu]; rfl)
  · intro k hk
    have ht : Filter.Tendsto (fun u : ℝ => u - d) (nhds s) (nhds (s - d)) := hsub.continuousAt
    filter_upwards [h2, ht.eventually (e4 k hk)] with u hu hv
    rw [hu]; exact hv

theorem mem_allSwitching_shift (gs : List (Seg n)) (b d : ℝ) (x : ℝ × Bool) :
    x ∈ allSwitching b gs ↔ (x.1 + d, x.2) ∈ allSwitching (b + d) gs := by
  induction gs generalizing b with
  | nil => simp [allSwitching]
  | cons g gs ih =>
    obtain ⟨x1, x2⟩ := x
    simp only [allSwitching, List.mem_append, List.mem_cons, List.mem_map, Prod.mk.injEq]
    rw [ih, show b + g.length + d = b + d + g.length by ring]
    refine or_congr ?_ (or_congr ?_ Iff.rfl)
    · refine exists_congr fun q => and_congr_right fun _ => and_congr_left fun _ => ?_
      constructor <;> intro h <;> linarith
    · refine and_congr_left fun _ => ?_
      constructor <;> intro h <;> linarith

theorem Chain.smooth {st e : V n} {gs : List (Seg n)} {k : Nat} (h : Chain st gs e k) (hsw : ∀ g ∈ gs, g.Sw) : ∀ s, 0 < s →
    s < totalLength gs → (∀ f, (s, f) ∉ allSwitching 0 gs) →
    SmoothAt (along Seg.config none gs) (along Seg.tangent none gs) (along Seg.curvature 0 gs) s := by
  have step : ∀ {a b e : V n} {g : Seg n} {gs : List (Seg n)} {k : Nat} (_ : g.Good a b) (_ : Chain b gs e k) (_ : ∀ x ∈ g :: gs, x.Sw)
      (_ : ∀ s, 0 < s → s < totalLength gs → (∀ f, (s, f) ∉ allSwitching 0 gs) →
        SmoothAt (along Seg.config none gs) (along Seg.tangent none gs) (along Seg.curvature 0 gs) s) (s : ℝ), 0 < s →
      s < totalLength (g :: gs) → (∀ f, (s, f) ∉ allSwitching 0 (g :: gs)) →
      SmoothAt (along Seg.config none (g :: gs)) (along Seg.tangent none (g :: gs)) (along Seg.curvature 0 (g :: gs)) s := by
    intro a b e g gs k hg hch hsw ih s h0 h1 hs
    rw [totalLength_cons] at h1
    simp only [allSwitching, zero_add, List.mem_append, List.mem_cons, not_or, List.map_id''] at hs
    rcases lt_trichotomy s g.length with hlt | heq | hgt
    · have := smooth_seg hg (hsw g (by simp)) h0 hlt (fun hc => (hs false).1 (List.mem_map.mpr ⟨s, hc, by simp⟩))
      rw [← sub_zero s] at this
      refine this.congr (d := 0) ?_ ?_ ?_
      · filter_upwards [Iio_mem_nhds hlt] with u hu
        rw [sub_zero, (along_cons _ _ _ hch.ne _).2 hu]
      · filter_upwards [Iio_mem_nhds hlt] with u hu
        rw [sub_zero, (along_cons _ _ _ hch.ne _).2 hu]
      · rw [sub_zero, (along_cons _ _ _ hch.ne _).2 hlt]
    · exact absurd (by rw [heq]) (hs true).2.1
    · have := ih (s - g.length) (by linarith) (by linarith) (fun f hc => (hs f).2.2 (by
        have := (mem_allSwitching_shift gs 0 g.length (s - g.length, f)).mp hc
        simpa using this))
      refine this.congr (d := g.length) ?_ ?_ ?_
      · filter_upwards [Ioi_mem_nhds hgt] with u hu
        rw [(along_cons _ _ _ hch.ne _).1 (le_of_lt hu)]
      · filter_upwards [Ioi_mem_nhds hgt] with u hu
        rw [(along_cons _ _ _ hch.ne _).1 (le_of_lt hu)]
      · rw [(along_cons _ _ _ hch.ne _).1 hgt.le]
  induction h with
  | @last a b g hg hl =>
    intro s h0 h1 hs
    simp only [totalLength, List.map_cons, List.map_nil, List.sum_cons, List.sum_nil, add_zero] at h1
    exact smooth_seg hg (hsw g (by simp)) h0 h1 (fun hc => hs false (by
      simp only [allSwitching, zero_add, List.mem_append]
      exact .inl (List.mem_map.mpr ⟨s, hc, rfl⟩)))
  | step hg h ih => exact step hg h hsw (ih (fun x hx => hsw x (List.mem_cons_of_mem _ hx)))
  | jump hg hj h ih => exact step hg h hsw (ih (fun x hx => hsw x (List.mem_cons_of_mem _ hx)))

/-- C77: the switching points are in order and inside the path, and wherever there is none, the path is smooth: the tangent is the
derivative of the configuration, the curvature the derivative of the tangent, and no coordinate of the tangent turns from zero to non-zero. -/
theorem C77_switching_points (ws : List (V n)) (dev : ℝ) (hr : Regular dev ws) (p : Path n) (hp : Path.make ws (.fin dev) = .ok p) :
    p.switching.Pairwise (fun x y => x.1 ≤ y.1) ∧ (∀ x ∈ p.switching, 0 ≤ x.1 ∧ x.1 < p.length) ∧
      ∀ s, 0 < s → s < p.length → (∀ f, (s, f) ∉ p.switching) → SmoothAt p.config p.tangent p.curvature s := by
  unfold Path.make at hp
  split at hp
  · rename_i c1 c2 rest dev' he
    cases he
    cases hp
    have hb := built dev c1 c2 rest hr
    obtain ⟨k, hk, e, he, hch, hk0⟩ := hb.chain
    have hsw := build_sw dev (c2 :: rest) c1 c1 hr.1
    obtain ⟨h1, h2, h3⟩ := assemble_switching _ hch.ne hsw
    refine ⟨h1, h2, fun s h0 hlt hs => ?_⟩
    have := hch.smooth hsw s h0 (by rw [← (assemble_segments _).2]; exact hlt) (fun f hc => hs f ((h3 _).mpr ⟨hc, hlt⟩))
    rw [← funext (assemble_config _), ← funext (assemble_tangent _), ← funext (assemble_curvature _)] at this
    exact this
  · cases hp

/-- C77: the next switching point after `s` is the first listed one beyond `s`, or the end of the path; there is none between. -/
theorem C77_next_switching_point (ws : List (V n)) (dev : ℝ) (hr : Regular dev ws) (p : Path n) (hp : Path.make ws (.fin dev) = .ok p)
    (s : ℝ) :
    ((p.nextSwitchingPoint s = (p.length, true) ∧ ∀ x ∈ p.switching, x.1 ≤ s) ∨ (p.nextSwitchingPoint s ∈ p.switching ∧ s < (p.nextSwitchingPoint s).1)) ∧
      (∀ x ∈ p.switching, s < x.1 → (p.nextSwitchingPoint s).1 ≤ x.1) ∧
      ∀ u, 0 < u → s < u → u < (p.nextSwitchingPoint s).1 → SmoothAt p.config p.tangent p.curvature u := by
  obtain ⟨h1, h2, h3⟩ := C77_switching_points ws dev hr p hp
  have key : ((p.nextSwitchingPoint s = (p.length, true) ∧ ∀ x ∈ p.switching, x.1 ≤ s) ∨ (p.nextSwitchingPoint s ∈ p.switching ∧ s < (p.nextSwitchingPoint s).1)) ∧
      (∀ x ∈ p.switching, s < x.1 → (p.nextSwitchingPoint s).1 ≤ x.1) := by
    unfold Path.nextSwitchingPoint
    clear h2 h3
    generalize p.switching = l at h1 ⊢
    induction l with
    | nil => simp
    | cons x l ih =>
      rw [List.dropWhile_cons]
      by_cases hx : x.1 ≤ s
      · rw [if_pos (by simpa using hx)]
        obtain ⟨h4, h5⟩ := ih (List.pairwise_cons.mp h1).2
        refine ⟨?_, ?_⟩
        · rcases h4 with ⟨h4, h6⟩ | ⟨h4, h6⟩
          · exact .inl ⟨h4, fun y hy => by rcases List.mem_cons.mp hy with rfl | hy; exacts [hx, h6 y hy]⟩
          · exact .inr ⟨List.mem_cons_of_mem _ h4, h6⟩
        · intro y hy hsy
          rcases List.mem_cons.mp hy with rfl | hy
          · exact absurd hsy (not_lt.mpr hx)
          · exact h5 y hy hsy
      · rw [if_neg (by simpa using hx)]
        refine ⟨.inr ⟨by simp, not_le.mp hx⟩, ?_⟩
        intro y hy _
        rcases List.mem_cons.mp hy with rfl | hy
        · exact le_refl _
        · exact (List.pairwise_cons.mp h1).1 y hy
  refine ⟨key.1, key.2, fun u h0 hsu hu => h3 u h0 ?_ (fun f hf => ?_)⟩
  · rcases key.1 with ⟨h4, _⟩ | ⟨h4, _⟩
    · rw [h4] at hu; exact hu
    · exact lt_trans hu (h2 _ h4).2
  · exact absurd hu (not_lt.mpr (key.2 _ hf hsu))

/-- Non-vacuity: a right-angled corner in the plane is regular, with any deviation. -/
example (dev : ℝ) : Regular (n := 2) dev [!₂[0, 0], !₂[1, 0], !₂[1, 1]] := by
  have e1 : (!₂[1, 0] - !₂[0, 0] : V 2) = !₂[1, 0] := by ext j; fin_cases j <;> simp
  have e2 : (!₂[1, 1] - !₂[1, 0] : V 2) = !₂[0, 1] := by ext j; fin_cases j <;> simp
  have n1 : ‖(!₂[1, 0] : V 2)‖ = 1 := by rw [EuclideanSpace.norm_eq]; simp
  have n2 : ‖(!₂[0, 1] : V 2)‖ = 1 := by rw [EuclideanSpace.norm_eq]; simp
  refine ⟨fun _ => ⟨?_, ?_, ?_⟩, ?_⟩
  · rw [dist_comm, dist_eq_norm, e1, n1]; norm_num
  · exact square_corner.no_reversal
  · show (2 / 1000000 : ℝ) < dist _ _
    rw [dist_comm, dist_eq_norm, e2, n2]; norm_num
  · intro pre a b h
    match pre with
    | [] => simp at h
    | [x] =>
      obtain ⟨_, rfl, rfl⟩ : _ ∧ _ ∧ _ := by simpa using h
      intro hc
      have := congrArg (fun v : V 2 => v 1) hc
      simp at this
    | _ :: _ :: _ :: _ => simp at h
    | [_, _] => simp at h

end CRU.Totp
