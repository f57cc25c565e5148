import Verif.Totp.Path
import Mathlib.Analysis.Calculus.MeanValue
/-
  C77: proofs.
-/
namespace CRU.Totp
open Real CRU.Math

variable {n : Nat}

/-! ### Good segments -/

/-- A segment from `a` to `b`, parametrized by arc length. -/
def Seg.Good (g : Seg n) (a b : V n) : Prop :=
  0 ≤ g.length ∧ (g.length = 0 → a = b) ∧ (0 < g.length → ∃ P T : ℝ → V n, P 0 = a ∧ P g.length = b ∧
    (∀ s, 0 ≤ s → s ≤ g.length → g.config s = some (P s)) ∧ (∀ s, g.tangent s = some (T s) ∧ ‖T s‖ = 1) ∧
    ∀ s, HasDerivAt P (T s) s ∧ HasDerivAt T (g.curvature s) s)

theorem lin_good (a b : V n) : (Seg.lin a b).Good a b := by
  refine ⟨norm_nonneg _, fun h => (sub_eq_zero.mp (norm_eq_zero.mp h)).symm, fun h => ?_⟩
  change 0 < ‖b - a‖ at h
  refine ⟨fun s => a + (s / ‖b - a‖) • (b - a), fun _ => ‖b - a‖⁻¹ • (b - a), ?_, ?_, ?_, ?_, ?_⟩
  · simp
  · show a + (‖b - a‖ / ‖b - a‖) • (b - a) = b
    rw [div_self h.ne', one_smul]; simp
  · intro s h0 h1
    change s ≤ ‖b - a‖ at h1
    simp only [Seg.config]
    rw [if_neg h.ne', show clamp01 (s / ‖b - a‖) = s / ‖b - a‖ by
      unfold clamp01
      rw [min_eq_right (by rw [div_le_one h]; exact h1), max_eq_right (by positivity)]]
  · intro s
    simp only [Seg.tangent]
    rw [if_neg h.ne']
    refine ⟨rfl, ?_⟩
    rw [norm_smul, norm_inv, norm_norm, inv_mul_cancel₀ h.ne']
  · intro s
    constructor
    · have := (((hasDerivAt_id s).div_const ‖b - a‖).smul_const (b - a)).const_add a
      refine this.congr_deriv ?_
      rw [one_div]
    · exact hasDerivAt_const _ _

theorem arc_good (a : Arc n) (hlen : 0 < a.length) (h : ∀ s, HasDerivAt a.config (a.tangent s) s ∧ ‖a.tangent s‖ = 1 ∧
    HasDerivAt a.tangent (a.curvature s) s) : (Seg.arc a).Good (a.config 0) (a.config a.length) := by
  refine ⟨hlen.le, fun h0 => absurd h0 hlen.ne', fun _ => ⟨a.config, a.tangent, rfl, rfl, fun _ _ _ => rfl, fun s => ⟨rfl, (h s).2.1⟩,
    fun s => ⟨(h s).1, (h s).2.2⟩⟩⟩

theorem none_good (i : V n) : (Seg.arc (Arc.none i)).Good i i :=
  ⟨le_refl _, fun _ => rfl, fun h => absurd h (lt_irrefl _)⟩

theorem Seg.Good.lip {g : Seg n} {a b : V n} (h : g.Good a b) {s t : ℝ} (h0 : 0 ≤ s) (h1 : s ≤ t) (h2 : t ≤ g.length) (hl : 0 < g.length) :
    ∃ x y, g.config s = some x ∧ g.config t = some y ∧ dist x y ≤ t - s ∧ dist a x ≤ s ∧ dist x b ≤ g.length - s := by
  obtain ⟨P, T, e0, e1, hP, hT, hd⟩ := h.2.2 hl
  have key : ∀ u v, u ≤ v → dist (P u) (P v) ≤ v - u := by
    intro u v huv
    have := Convex.norm_image_sub_le_of_norm_hasDerivWithin_le (f := P) (f' := T) (s := Set.univ) (C := 1)
      (fun x _ => (hd x).1.hasDerivWithinAt) (fun x _ => (hT x).2.le) convex_univ (Set.mem_univ u) (Set.mem_univ v)
    rw [one_mul, norm_of_nonneg (by linarith)] at this
    rw [dist_comm, dist_eq_norm]; exact this
  refine ⟨P s, P t, hP s h0 (by linarith), hP t (by linarith) h2, key _ _ h1, ?_, ?_⟩
  · rw [← e0]; have := key 0 s h0; linarith
  · rw [← e1]; exact key s _ (by linarith)

/-! ### Chains of segments -/

/-- The segments lead from `st` to `e`, joined up to `k` jumps of at most 1e-6; the last has some length. -/
inductive Chain : V n → List (Seg n) → V n → Nat → Prop
  | last {a b : V n} {g : Seg n} (hg : g.Good a b) (hl : 0 < g.length) : Chain a [g] b 0
  | step {a b e : V n} {g : Seg n} {gs : List (Seg n)} {k : Nat} (hg : g.Good a b) (h : Chain b gs e k) : Chain a (g :: gs) e k
  | jump {st a b e : V n} {g : Seg n} {gs : List (Seg n)} {k : Nat} (hg : g.Good a b) (hj : dist st a ≤ 1 / 1000000) (h : Chain b gs e k) :
      Chain st (g :: gs) e (k + 1)

theorem Chain.ne {st e : V n} {gs : List (Seg n)} {k : Nat} (h : Chain st gs e k) : gs ≠ [] := by
  cases h <;> simp

theorem totalLength_cons (g : Seg n) (gs : List (Seg n)) : totalLength (g :: gs) = g.length + totalLength gs := by
  simp [totalLength]

theorem Chain.pos {st e : V n} {gs : List (Seg n)} {k : Nat} (h : Chain st gs e k) : 0 < totalLength gs := by
  induction h with
  | last hg hl => simpa [totalLength] using hl
  | step hg h ih => rw [totalLength_cons]; linarith [hg.1]
  | jump hg hj h ih => rw [totalLength_cons]; linarith [hg.1]

theorem Chain.lip {st e : V n} {gs : List (Seg n)} {k : Nat} (h : Chain st gs e k) : ∀ s t, 0 ≤ s → s ≤ t → t ≤ totalLength gs →
    ∃ x y, along Seg.config none gs s = some x ∧ along Seg.config none gs t = some y ∧ dist x y ≤ t - s + k * (1 / 1000000) ∧
      dist st x ≤ s + k * (1 / 1000000) := by
  have step : ∀ {st a b e : V n} {g : Seg n} {gs : List (Seg n)} {k : Nat} {δ : ℝ} (_ : g.Good a b) (_ : dist st a ≤ δ)
      (_ : Chain b gs e k) (_ : ∀ s t, 0 ≤ s → s ≤ t → t ≤ totalLength gs →
        ∃ x y, along Seg.config none gs s = some x ∧ along Seg.config none gs t = some y ∧ dist x y ≤ t - s + k * (1 / 1000000) ∧
        dist b x ≤ s + k * (1 / 1000000)) (s t : ℝ), 0 ≤ s → s ≤ t → t ≤ totalLength (g :: gs) →
      ∃ x y, along Seg.config none (g :: gs) s = some x ∧ along Seg.config none (g :: gs) t = some y ∧
        dist x y ≤ t - s + k * (1 / 1000000) ∧ dist st x ≤ s + k * (1 / 1000000) + δ := by
    intro st a b e g gs k δ hg hδ hch ih s t h0 h1 h2
    rw [totalLength_cons] at h2
    have hk : (0 : ℝ) ≤ k * (1 / 1000000) := by positivity
    have hc := along_cons Seg.config none g hch.ne
    have tri : ∀ x, dist st x ≤ δ + dist a x := fun x => le_trans (dist_triangle _ a _) (by linarith)
    have hab : dist a b ≤ g.length := by
      rcases hg.1.eq_or_lt with h | h
      · rw [hg.2.1 h.symm, dist_self]; exact hg.1
      · obtain ⟨x, y, _, _, _, h5, h6⟩ := hg.lip (le_refl 0) hg.1 (le_refl _) h
        have := dist_triangle a x b
        linarith
    rcases le_or_gt g.length s with hs | hs
    · obtain ⟨x, y, hx, hy, hxy, hbx⟩ := ih (s - g.length) (t - g.length) (by linarith) (by linarith) (by linarith)
      refine ⟨x, y, by rw [(hc s).1 hs, hx], by rw [(hc t).1 (by linarith), hy], by linarith, ?_⟩
      have := tri x
      have := dist_triangle a b x
      linarith
    · have hl : 0 < g.length := by linarith
      rcases le_or_gt g.length t with ht | ht
      · obtain ⟨x, _, hx, _, _, h5, h6⟩ := hg.lip h0 (le_refl s) hs.le hl
        obtain ⟨y, _, hy, _, _, hby⟩ := ih (t - g.length) (t - g.length) (by linarith) (le_refl _) (by linarith)
        refine ⟨x, y, by rw [(hc s).2 hs, hx], by rw [(hc t).1 ht, hy], ?_, ?_⟩
        · have := dist_triangle x b y
          linarith
        · have := tri x; linarith
      · obtain ⟨x, y, hx, hy, hxy, h5, h6⟩ := hg.lip h0 h1 ht.le hl
        refine ⟨x, y, by rw [(hc s).2 hs, hx], by rw [(hc t).2 ht, hy], by linarith, ?_⟩
        have := tri x; linarith
  induction h with
  | last hg hl =>
    intro s t h0 h1 h2
    simp only [totalLength, List.map_cons, List.map_nil, List.sum_cons, List.sum_nil, add_zero] at h2
    obtain ⟨x, y, hx, hy, hxy, h5, _⟩ := hg.lip h0 h1 h2 hl
    exact ⟨x, y, hx, hy, by simpa using hxy, by simpa using h5⟩
  | @step a b e g gs k hg h ih =>
    intro s t h0 h1 h2
    obtain ⟨x, y, hx, hy, hxy, hst⟩ := step (δ := 0) hg (by rw [dist_self]) h ih s t h0 h1 h2
    exact ⟨x, y, hx, hy, hxy, by linarith⟩
  | @jump st a b e g gs k hg hj h ih =>
    intro s t h0 h1 h2
    obtain ⟨x, y, hx, hy, hxy, hst⟩ := step hg hj h ih s t h0 h1 h2
    refine ⟨x, y, hx, hy, ?_, ?_⟩ <;> push_cast <;> linarith

theorem Chain.end_ {st e : V n} {gs : List (Seg n)} {k : Nat} (h : Chain st gs e k) :
    along Seg.config none gs (totalLength gs) = some e := by
  induction h with
  | @last a b g hg hl =>
    obtain ⟨P, T, e0, e1, hP, _⟩ := hg.2.2 hl
    simp only [totalLength, List.map_cons, List.map_nil, List.sum_cons, List.sum_nil, add_zero, along]
    rw [hP _ hl.le (le_refl _), e1]
  | step hg h ih =>
    rw [totalLength_cons, (along_cons _ _ _ h.ne _).1 (by linarith [h.pos]), add_sub_cancel_left, ih]
  | jump hg hj h ih =>
    rw [totalLength_cons, (along_cons _ _ _ h.ne _).1 (by linarith [h.pos]), add_sub_cancel_left, ih]

/-- A chain without jumps starts at its start. -/
theorem Chain.start {st e : V n} {gs : List (Seg n)} (h : Chain st gs e 0) : along Seg.config none gs 0 = some st := by
  obtain ⟨x, _, hx, _, _, h5⟩ := h.lip 0 0 (le_refl _) (le_refl _) h.pos.le
  have : dist st x = 0 := le_antisymm (by simpa using h5) dist_nonneg
  rw [hx, dist_eq_zero.mp this]

/-- The tangents. -/
theorem Chain.tangent {st e : V n} {gs : List (Seg n)} {k : Nat} (h : Chain st gs e k) : ∀ s, 0 ≤ s → s ≤ totalLength gs →
    ∃ T, along Seg.tangent none gs s = some T ∧ ‖T‖ = 1 ∧
      (s < totalLength gs → HasDerivWithinAt (fun s => (along Seg.config none gs s).getD 0) T (Set.Ici s) s) := by
  have step : ∀ {a b e : V n} {g : Seg n} {gs : List (Seg n)} {k : Nat} (_ : g.Good a b) (_ : Chain b gs e k)
      (_ : ∀ s, 0 ≤ s → s ≤ totalLength gs → ∃ T, along Seg.tangent none gs s = some T ∧ ‖T‖ = 1 ∧
        (s < totalLength gs → HasDerivWithinAt (fun s => (along Seg.config none gs s).getD 0) T (Set.Ici s) s)) (s : ℝ),
      0 ≤ s → s ≤ totalLength (g :: gs) → ∃ T, along Seg.tangent none (g :: gs) s = some T ∧ ‖T‖ = 1 ∧
      (s < totalLength (g :: gs) → HasDerivWithinAt (fun s => (along Seg.config none (g :: gs) s).getD 0) T (Set.Ici s) s) := by
    intro a b e g gs k hg hch ih s h0 h1
    rw [totalLength_cons] at h1 ⊢
    rcases le_or_gt g.length s with hs | hs
    · obtain ⟨T, hT, hn, hd⟩ := ih (s - g.length) (by linarith) (by linarith)
      refine ⟨T, by rw [(along_cons _ _ _ hch.ne _).1 hs, hT], hn, fun hlt => ?_⟩
      have h2 := hd (by linarith)
      have h3 : HasDerivWithinAt (fun s => s - g.length) 1 (Set.Ici s) s := ((hasDerivAt_id s).sub_const _).hasDerivWithinAt
      have h4 := h2.scomp s h3 (fun u hu => by simp only [Set.mem_Ici] at hu ⊢; linarith)
      rw [one_smul] at h4
      refine h4.congr (fun u hu => ?_) ?_
      · rw [(along_cons _ _ _ hch.ne _).1 (le_trans hs hu)]; rfl
      · rw [(along_cons _ _ _ hch.ne _).1 hs]; rfl
    · have hl : 0 < g.length := by linarith
      obtain ⟨P, T, e0, e1, hP, hT, hd⟩ := hg.2.2 hl
      refine ⟨T s, by rw [(along_cons _ _ _ hch.ne _).2 hs, (hT s).1], (hT s).2, fun _ => ?_⟩
      refine ((hd s).1.hasDerivWithinAt).congr_of_eventuallyEq ?_ ?_
      · filter_upwards [self_mem_nhdsWithin, mem_nhdsWithin_of_mem_nhds (Iio_mem_nhds hs)] with u hu hu2
        rw [(along_cons _ _ _ hch.ne _).2 hu2, hP u (le_trans h0 hu) (le_of_lt hu2)]; rfl
      · rw [(along_cons _ _ _ hch.ne _).2 hs, hP s h0 hs.le]; rfl
  induction h with
  | @last a b g hg hl =>
    intro s h0 h1
    simp only [totalLength, List.map_cons, List.map_nil, List.sum_cons, List.sum_nil, add_zero] at h1
    obtain ⟨P, T, e0, e1, hP, hT, hd⟩ := hg.2.2 hl
    refine ⟨T s, (hT s).1, (hT s).2, fun hlt => ?_⟩
    simp only [totalLength, List.map_cons, List.map_nil, List.sum_cons, List.sum_nil, add_zero] at hlt
    refine ((hd s).1.hasDerivWithinAt).congr_of_eventuallyEq ?_ ?_
    · filter_upwards [self_mem_nhdsWithin, mem_nhdsWithin_of_mem_nhds (Iio_mem_nhds hlt)] with u hu hu2
      simp only [along]
      rw [hP u (le_trans h0 hu) (le_of_lt hu2)]; rfl
    · simp only [along]
      rw [hP s h0 hlt.le]; rfl
  | step hg h ih => exact step hg h ih
  | jump hg hj h ih => exact step hg h ih

/-! ### Passing the waypoints -/

/-- There are places along the segments, in order and none before `lo`, within `tol` of the given points. -/
def Passes (tol lo : ℝ) (gs : List (Seg n)) (ws : List (V n)) : Prop :=
  ∃ ps : List ℝ, List.Forall₂ (fun s w => ∃ c, along Seg.config none gs s = some c ∧ dist c w ≤ tol) ps ws ∧ ps.Pairwise (· ≤ ·) ∧
    ∀ p ∈ ps, lo ≤ p ∧ p ≤ totalLength gs

theorem Passes.shift {tol lo : ℝ} {gs : List (Seg n)} {ws : List (V n)} (h : Passes tol lo gs ws) (h0 : 0 ≤ lo) (hne : gs ≠ [])
    (g : Seg n) : Passes tol (lo + g.length) (g :: gs) ws := by
  obtain ⟨ps, h1, h2, h3⟩ := h
  refine ⟨ps.map (· + g.length), ?_, ?_, ?_⟩
  · rw [List.forall₂_map_left_iff]
    have hall : ∀ p ∈ ps, 0 ≤ p := fun p hp => le_trans h0 (h3 p hp).1
    clear h2 h3
    induction h1 with
    | nil => exact .nil
    | cons hh _ ih =>
      refine .cons ?_ (ih (fun p hp => hall p (List.mem_cons_of_mem _ hp)))
      rw [(along_cons _ _ _ hne _).1 (by linarith [hall _ List.mem_cons_self]), add_sub_cancel_right]
      exact hh
  · rw [List.pairwise_map]
    exact h2.imp (fun h => by linarith)
  · intro p hp
    obtain ⟨q, hq, rfl⟩ := List.mem_map.mp hp
    rw [totalLength_cons]
    have := h3 q hq
    constructor <;> linarith

theorem Passes.cons {tol lo lo' : ℝ} {gs : List (Seg n)} {ws : List (V n)} (h : Passes tol lo' gs ws) {s : ℝ} {w c : V n}
    (hc : along Seg.config none gs s = some c) (hw : dist c w ≤ tol) (h0 : lo ≤ s) (h1 : s ≤ lo') (h2 : s ≤ totalLength gs) :
    Passes tol lo gs (w :: ws) := by
  obtain ⟨ps, e1, e2, e3⟩ := h
  refine ⟨s :: ps, .cons ⟨c, hc, hw⟩ e1, List.pairwise_cons.mpr ⟨fun p hp => le_trans h1 (e3 p hp).1, e2⟩, ?_⟩
  intro p hp
  rcases List.mem_cons.mp hp with rfl | hp
  · exact ⟨h0, h2⟩
  · exact ⟨by linarith [(e3 p hp).1], (e3 p hp).2⟩

/-! ### The segments of a path -/

/-- What is proved of the segments made from `start` on, `start` lying `t` after the waypoint `c1`. -/
structure Built (dev : ℝ) (c1 start : V n) (t : ℝ) (ws : List (V n)) (gs : List (Seg n)) : Prop where
  chain : ∃ k, k ≤ ws.length - 1 ∧ ∃ e, ws.getLast? = some e ∧ Chain start gs e k ∧ (dev ≤ 0 → k = 0)
  near : ∀ g ∈ gs, ∀ s, 0 ≤ s → s ≤ g.length → ∀ c, g.config s = some c → ∃ z, OnPolyline (c1 :: ws) z ∧ dist c z ≤ max dev 0
  len : totalLength gs + t ≤ polylineLength (c1 :: ws)
  passes : Passes (max dev 0) 0 gs ws
  start0 : t = 0 → along Seg.config none gs 0 = some start

theorem lin_near {a b c1 c2 : V n} {ws : List (V n)} (ha : a ∈ segment ℝ c1 c2) (hb : b ∈ segment ℝ c1 c2) {s : ℝ} {c : V n}
    (h : (Seg.lin a b).config s = some c) (dev : ℝ) : ∃ z, OnPolyline (c1 :: c2 :: ws) z ∧ dist c z ≤ max dev 0 := by
  refine ⟨c, .inl ?_, by rw [dist_self]; exact le_max_right _ _⟩
  simp only [Seg.config] at h
  have hcx := convex_segment (𝕜 := ℝ) c1 c2
  split_ifs at h
  · cases h; exact ha
  · cases h; exact hb
  · cases h
    obtain ⟨h0, h1⟩ := clamp01_mem (s / ‖b - a‖)
    exact hcx.add_smul_sub_mem ha hb ⟨h0, h1⟩

theorem build_plain (dev : ℝ) (hdev : dev ≤ 0) : ∀ (rest : List (V n)) (c1 c2 : V n),
    (∀ pre a b, c1 :: c2 :: rest = pre ++ [a, b] → a ≠ b) → Built dev c1 c1 0 (c2 :: rest) (buildSegments dev c1 c1 (c2 :: rest))
  | [], c1, c2, hne => by
    have h12 : c1 ≠ c2 := hne [] c1 c2 rfl
    have hl : 0 < (Seg.lin c1 c2).length := norm_pos_iff.mpr (sub_ne_zero.mpr h12.symm)
    have hch : Chain c1 [Seg.lin c1 c2] c2 0 := .last (lin_good c1 c2) hl
    have he := hch.end_
    refine ⟨⟨0, by simp, c2, rfl, hch, fun _ => rfl⟩, ?_, ?_, ?_, fun _ => hch.start⟩
    · intro g hg s h0 h1 c hc
      rw [buildSegments, List.mem_singleton] at hg
      subst hg
      exact lin_near (left_mem_segment _ _ _) (right_mem_segment _ _ _) hc dev
    · simp [buildSegments, totalLength, polylineLength, Seg.length, dist_eq_norm, norm_sub_rev]
    · refine Passes.cons (lo' := totalLength [Seg.lin c1 c2]) ⟨[], .nil, .nil, by simp⟩ he (by rw [dist_self]; exact le_max_right _ _) ?_ (le_refl _) (le_refl _)
      exact hch.pos.le
  | c3 :: rest, c1, c2, hne => by
    have ih := build_plain dev hdev rest c2 c3 (fun pre a b h => hne (c1 :: pre) a b (by rw [h]; rfl))
    rw [buildSegments, if_neg (not_lt.mpr hdev)]
    obtain ⟨k, hk, e, he, hch, hk0⟩ := ih.chain
    have hk' := hk0 hdev
    subst hk'
    have hch' : Chain c1 (Seg.lin c1 c2 :: buildSegments dev c2 c2 (c3 :: rest)) e 0 := .step (lin_good c1 c2) hch
    refine ⟨⟨0, by simp, e, by rw [List.getLast?_cons_cons]; exact he, hch', fun _ => rfl⟩, ?_, ?_, ?_, fun _ => hch'.start⟩
    · intro g hg s h0 h1 c hc
      rcases List.mem_cons.mp hg with rfl | hg
      · exact lin_near (left_mem_segment _ _ _) (right_mem_segment _ _ _) hc dev
      · obtain ⟨z, hz, hd⟩ := ih.near g hg s h0 h1 c hc
        exact ⟨z, .inr hz, hd⟩
    · rw [totalLength_cons]
      have := ih.len
      simp only [polylineLength] at this ⊢
      have e1 : (Seg.lin c1 c2).length = dist c1 c2 := by rw [dist_comm, dist_eq_norm]; rfl
      linarith
    · refine Passes.cons (lo' := 0 + (Seg.lin c1 c2).length) (s := (Seg.lin c1 c2).length) (c := c2)
        (ih.passes.shift (le_refl 0) hch.ne (Seg.lin c1 c2)) ?_ (by rw [dist_self]; exact le_max_right _ _)
        (Seg.length_nonneg_lin _ _) (by linarith) (by rw [totalLength_cons]; linarith [hch.pos])
      rw [(along_cons _ _ _ hch.ne _).1 (le_refl _), sub_self, hch.start]

/-! ### Corners -/

/-- What is needed to know of the blend of a corner. -/
theorem corner_facts (c1 c2 c3 : V n) (dev : ℝ) (hdev : 0 < dev) (h12 : 2 / 1000000 < dist c1 c2) (h23 : 2 / 1000000 < dist c2 c3)
    (hrev : normalized (c3 - c2) ≠ -normalized (c2 - c1)) :
    ∃ d, 0 ≤ d ∧ d ≤ dist c1 c2 / 2 ∧ d ≤ dist c2 c3 / 2 ∧
      (cornerBlend c1 c2 c3 dev).config 0 = c2 - d • normalized (c2 - c1) ∧
      (cornerBlend c1 c2 c3 dev).config (cornerBlend c1 c2 c3 dev).length = c2 + d • normalized (c3 - c2) ∧
      (Seg.arc (cornerBlend c1 c2 c3 dev)).Good ((cornerBlend c1 c2 c3 dev).config 0)
        ((cornerBlend c1 c2 c3 dev).config (cornerBlend c1 c2 c3 dev).length) ∧
      (cornerBlend c1 c2 c3 dev).length ≤ 2 * d ∧
      (∀ s, 0 ≤ s → s ≤ (cornerBlend c1 c2 c3 dev).length →
        ∃ z, (z ∈ segment ℝ c1 c2 ∨ z ∈ segment ℝ c2 c3) ∧ dist ((cornerBlend c1 c2 c3 dev).config s) z ≤ dev) ∧
      (((cornerBlend c1 c2 c3 dev).length = 0 ∧ d = 0) ∨
        dist ((cornerBlend c1 c2 c3 dev).config ((cornerBlend c1 c2 c3 dev).length / 2)) c2 ≤ dev ∧ 0 < (cornerBlend c1 c2 c3 dev).length) := by
  have hm1 : c2 - (1 / 2 : ℝ) • (c1 + c2) = (1 / 2 : ℝ) • (c2 - c1) := by module
  have hm2 : (1 / 2 : ℝ) • (c2 + c3) - c2 = (1 / 2 : ℝ) • (c3 - c2) := by module
  have hn : ∀ v : V n, normalized ((1 / 2 : ℝ) • v) = normalized v := by
    intro v
    unfold normalized
    rw [norm_smul, smul_smul]
    congr 1
    rw [norm_of_nonneg (by norm_num)]
    rw [mul_inv]
    field_simp
  have hl1 : ‖c2 - (1 / 2 : ℝ) • (c1 + c2)‖ = dist c1 c2 / 2 := by
    rw [hm1, norm_smul, norm_of_nonneg (by norm_num), dist_comm, dist_eq_norm]; ring
  have hl2 : ‖(1 / 2 : ℝ) • (c2 + c3) - c2‖ = dist c2 c3 / 2 := by
    rw [hm2, norm_smul, norm_of_nonneg (by norm_num), dist_comm c2, dist_eq_norm]; ring
  have hs1 : segment ℝ ((1 / 2 : ℝ) • (c1 + c2)) c2 ⊆ segment ℝ c1 c2 :=
    (convex_segment c1 c2).segment_subset ⟨1 / 2, 1 / 2, by norm_num, by norm_num, by norm_num, by module⟩ (right_mem_segment _ _ _)
  have hs2 : segment ℝ c2 ((1 / 2 : ℝ) • (c2 + c3)) ⊆ segment ℝ c2 c3 :=
    (convex_segment c2 c3).segment_subset (left_mem_segment _ _ _) ⟨1 / 2, 1 / 2, by norm_num, by norm_num, by norm_num, by module⟩
  by_cases hb : ‖normalized (c2 - c1) - normalized (c3 - c2)‖ < 1 / 1000000
  · have hnb := C76_no_blend ((1 / 2 : ℝ) • (c1 + c2)) c2 ((1 / 2 : ℝ) • (c2 + c3)) dev (.inr (.inr (by rw [hm1, hm2, hn, hn]; exact hb)))
    change (cornerBlend c1 c2 c3 dev).length = 0 ∧ (∀ s, (cornerBlend c1 c2 c3 dev).config s = c2) ∧ _ at hnb
    obtain ⟨h1, h2, h3⟩ := hnb
    refine ⟨0, le_refl 0, by positivity, by positivity, by rw [h2]; simp, by rw [h2]; simp, ?_, by rw [h1]; simp, ?_, .inl ⟨h1, rfl⟩⟩
    · rw [h2, h2]
      exact ⟨h1.ge, fun _ => rfl, fun h => absurd h1 (ne_of_gt h)⟩
    · intro s _ _
      exact ⟨c2, .inl (right_mem_segment _ _ _), by rw [h2, dist_self]; exact hdev.le⟩
  · have hc : Corner ((1 / 2 : ℝ) • (c1 + c2)) c2 ((1 / 2 : ℝ) • (c2 + c3)) :=
      ⟨by rw [hl1]; linarith, by rw [hl2]; linarith, by rw [hm1, hm2, hn, hn]; exact not_lt.mp hb, by rw [hm1, hm2, hn, hn]; exact hrev⟩
    obtain ⟨hlen, d, d0, d1, d2, e1, _, e2, _, hnear, hmid, hle, _⟩ := C76_blend _ _ _ dev hc hdev
    rw [hl1] at d1
    rw [hl2] at d2
    rw [hm1, hn] at e1
    rw [hm2, hn] at e2
    refine ⟨d, d0.le, d1, d2, e1, e2, ?_, hle, ?_, .inr ⟨hmid, hlen⟩⟩
    · exact arc_good _ hlen (fun s => by
        obtain ⟨g1, g2, g3, _⟩ := C76_arc_length _ _ _ dev hc hdev s
        exact ⟨g1, g2, g3⟩)
    · intro s h0 h1
      obtain ⟨z, hz, hd⟩ := hnear s h0 h1
      exact ⟨z, hz.imp (fun h => hs1 h) (fun h => hs2 h), hd⟩

theorem Passes.mono {tol lo lo' : ℝ} {gs : List (Seg n)} {ws : List (V n)} (h : Passes tol lo gs ws) (hl : lo' ≤ lo) :
    Passes tol lo' gs ws := by
  obtain ⟨ps, h1, h2, h3⟩ := h
  exact ⟨ps, h1, h2, fun p hp => ⟨le_trans hl (h3 p hp).1, (h3 p hp).2⟩⟩

theorem leg_eq (a b : V n) : b = a + dist a b • normalized (b - a) := by
  rcases eq_or_ne a b with rfl | h
  · simp [normalized]
  · have : 0 < ‖b - a‖ := norm_pos_iff.mpr (sub_ne_zero.mpr h.symm)
    unfold normalized
    rw [dist_comm, dist_eq_norm, smul_smul, mul_inv_cancel₀ this.ne']
    simp

theorem build_blend (dev : ℝ) (hdev : 0 < dev) : ∀ (rest : List (V n)) (c1 c2 : V n) (t : ℝ), NoReversal (c1 :: c2 :: rest) → 0 ≤ t →
    t ≤ dist c1 c2 / 2 → Built dev c1 (c1 + t • normalized (c2 - c1)) t (c2 :: rest)
      (buildSegments dev c1 (c1 + t • normalized (c2 - c1)) (c2 :: rest))
  | [], c1, c2, t, hrev, ht0, ht1 => by
    have h12 : 2 / 1000000 < dist c1 c2 := hrev
    have hpos : 0 < dist c1 c2 := by linarith
    have hu : ‖normalized (c2 - c1)‖ = 1 := normalized_norm (by
      rw [dist_comm, dist_eq_norm] at hpos
      exact norm_pos_iff.mp hpos)
    have hst : c1 + t • normalized (c2 - c1) ∈ segment ℝ c1 c2 := leg_out t ht0 (by rw [← dist_eq_norm, dist_comm]; linarith)
    have hlen : (Seg.lin (c1 + t • normalized (c2 - c1)) c2).length = dist c1 c2 - t := by
      have : c2 - (c1 + t • normalized (c2 - c1)) = (dist c1 c2 - t) • normalized (c2 - c1) := by
        nth_rw 1 [leg_eq c1 c2]
        module
      show ‖_‖ = _
      rw [this, norm_smul, hu, mul_one, norm_of_nonneg (by linarith)]
    have hch : Chain (c1 + t • normalized (c2 - c1)) [Seg.lin (c1 + t • normalized (c2 - c1)) c2] c2 0 :=
      .last (lin_good _ c2) (by rw [hlen]; linarith)
    refine ⟨⟨0, by simp, c2, rfl, hch, fun _ => rfl⟩, ?_, ?_, ?_, fun _ => hch.start⟩
    · intro g hg s h0 h1 c hc
      rw [buildSegments, List.mem_singleton] at hg
      subst hg
      exact lin_near hst (right_mem_segment _ _ _) hc dev
    · rw [buildSegments, totalLength_cons, hlen]
      simp [totalLength, polylineLength]
    · exact Passes.cons (lo' := totalLength [Seg.lin (c1 + t • normalized (c2 - c1)) c2]) ⟨[], .nil, .nil, by simp⟩ hch.end_
        (by rw [dist_self]; exact le_max_right _ _) hch.pos.le (le_refl _) (le_refl _)
  | c3 :: rest, c1, c2, t, hrev, ht0, ht1 => by
    obtain ⟨h12, hr, hrest⟩ := hrev
    have h23 : 2 / 1000000 < dist c2 c3 := by
      cases rest with
      | nil => exact hrest
      | cons _ _ => exact hrest.1
    have hpos : 0 < dist c1 c2 := by linarith
    have hu : ‖normalized (c2 - c1)‖ = 1 := normalized_norm (by
      rw [dist_comm, dist_eq_norm] at hpos
      exact norm_pos_iff.mp hpos)
    obtain ⟨d, d0, d1, d2, e1, e2, hgood, hle, hnear, hmid⟩ := corner_facts c1 c2 c3 dev hdev h12 h23 hr
    have ih := build_blend dev hdev rest c2 c3 d hrest d0 d2
    rw [← e2] at ih
    rw [buildSegments, if_pos hdev]
    generalize hB : cornerBlend c1 c2 c3 dev = B at *
    generalize hR : buildSegments dev c2 (B.config B.length) (c3 :: rest) = R at *
    have hst : c1 + t • normalized (c2 - c1) ∈ segment ℝ c1 c2 := leg_out t ht0 (by rw [← dist_eq_norm, dist_comm]; linarith)
    have hb0 : B.config 0 ∈ segment ℝ c1 c2 := by
      rw [e1]; exact leg_in d d0 (by rw [← dist_eq_norm, dist_comm]; linarith)
    have hlen : ‖B.config 0 - (c1 + t • normalized (c2 - c1))‖ = dist c1 c2 - d - t := by
      have : B.config 0 - (c1 + t • normalized (c2 - c1)) = (dist c1 c2 - d - t) • normalized (c2 - c1) := by
        rw [e1]
        nth_rw 1 [leg_eq c1 c2]
        module
      rw [this, norm_smul, hu, mul_one, norm_of_nonneg (by linarith)]
    obtain ⟨k, hk, e, he, hch, _⟩ := ih.chain
    have hArcNear : ∀ s, 0 ≤ s → s ≤ (Seg.arc B).length → ∀ c, (Seg.arc B).config s = some c →
        ∃ z, OnPolyline (c1 :: c2 :: c3 :: rest) z ∧ dist c z ≤ max dev 0 := by
      intro s h0 h1 c hc
      cases hc
      obtain ⟨z, hz, hd⟩ := hnear s h0 h1
      exact ⟨z, hz.imp id .inl, le_trans hd (le_max_left _ _)⟩
    have hRNear : ∀ g ∈ R, ∀ s, 0 ≤ s → s ≤ g.length → ∀ c, g.config s = some c →
        ∃ z, OnPolyline (c1 :: c2 :: c3 :: rest) z ∧ dist c z ≤ max dev 0 := by
      intro g hg s h0 h1 c hc
      obtain ⟨z, hz, hd⟩ := ih.near g hg s h0 h1 c hc
      exact ⟨z, .inr hz, hd⟩
    have hlenR := ih.len
    have hArcLen : (Seg.arc B).length = B.length := rfl
    have hpass : Passes (max dev 0) 0 (Seg.arc B :: R) (c2 :: c3 :: rest) := by
      have hsh := ih.passes.shift (le_refl 0) hch.ne (Seg.arc B)
      rcases hmid with ⟨hz, hd⟩ | ⟨hm, hpos'⟩
      · refine Passes.cons (s := 0) (c := c2) hsh ?_ (by rw [dist_self]; exact le_max_right _ _) (le_refl _) (by rw [hArcLen, hz]; simp) ?_
        · rw [(along_cons _ _ _ hch.ne _).1 (by rw [hArcLen, hz]), hArcLen, hz, sub_zero, ih.start0 hd, e2, hd]
          simp
        · rw [totalLength_cons, hArcLen, hz]; linarith [hch.pos]
      · refine Passes.cons (s := B.length / 2) (c := B.config (B.length / 2)) hsh ?_ (le_trans hm (le_max_left _ _)) (by linarith)
          (by rw [hArcLen]; linarith) ?_
        · rw [(along_cons _ _ _ hch.ne _).2 (by rw [hArcLen]; linarith)]
          rfl
        · rw [totalLength_cons, hArcLen]; linarith [hch.pos]
    unfold lineTo
    split_ifs with hlin
    · have hL : (Seg.lin (c1 + t • normalized (c2 - c1)) (B.config 0)).length = dist c1 c2 - d - t := hlen
      have hLp : 0 < (Seg.lin (c1 + t • normalized (c2 - c1)) (B.config 0)).length := by rw [hL, ← hlen]; linarith
      have hch' : Chain (c1 + t • normalized (c2 - c1)) (Seg.lin (c1 + t • normalized (c2 - c1)) (B.config 0) :: Seg.arc B :: R) e k :=
        .step (lin_good _ _) (.step hgood hch)
      refine ⟨⟨k, by simp at hk ⊢; omega, e, by rw [List.getLast?_cons_cons]; exact he, hch', fun h => by linarith⟩, ?_, ?_, ?_, ?_⟩
      · intro g hg s h0 h1 c hc
        simp only [List.cons_append, List.nil_append, List.mem_cons] at hg
        rcases hg with rfl | rfl | hg
        · exact lin_near hst hb0 hc dev
        · exact hArcNear s h0 h1 c hc
        · exact hRNear g hg s h0 h1 c hc
      · show totalLength (_ :: _ :: R) + t ≤ _
        rw [totalLength_cons, totalLength_cons, hL, hArcLen]
        simp only [polylineLength] at hlenR ⊢
        linarith
      · exact (hpass.shift (le_refl 0) (by simp) _).mono (by linarith)
      · intro _
        show along Seg.config none (_ :: Seg.arc B :: R) 0 = _
        rw [(along_cons _ _ _ (by simp) _).2 hLp]
        obtain ⟨P, T, p0, _, hP, _⟩ := (lin_good (c1 + t • normalized (c2 - c1)) (B.config 0)).2.2 hLp
        rw [hP 0 (le_refl _) hLp.le, p0]
    · have hjump : dist (c1 + t • normalized (c2 - c1)) (B.config 0) ≤ 1 / 1000000 := by
        rw [dist_comm, dist_eq_norm]; exact not_lt.mp hlin
      have hch' : Chain (c1 + t • normalized (c2 - c1)) (Seg.arc B :: R) e (k + 1) := .jump hgood hjump hch
      refine ⟨⟨k + 1, by simp at hk ⊢; omega, e, by rw [List.getLast?_cons_cons]; exact he, hch', fun h => by linarith⟩, ?_, ?_, hpass, ?_⟩
      · intro g hg s h0 h1 c hc
        simp only [List.nil_append, List.mem_cons] at hg
        rcases hg with rfl | hg
        · exact hArcNear s h0 h1 c hc
        · exact hRNear g hg s h0 h1 c hc
      · show totalLength (_ :: R) + t ≤ _
        rw [totalLength_cons, hArcLen]
        simp only [polylineLength] at hlenR ⊢
        linarith
      · intro h
        rw [hlen] at hlin
        exfalso
        apply hlin
        linarith

theorem along_mem {β : Type} (f : Seg n → ℝ → β) (dflt : β) : ∀ (gs : List (Seg n)) (_ : gs ≠ []) (s : ℝ), 0 ≤ s → s ≤ totalLength gs →
    ∃ g ∈ gs, ∃ u, 0 ≤ u ∧ u ≤ g.length ∧ along f dflt gs s = f g u
  | [], h, _, _, _ => absurd rfl h
  | [g], _, s, h0, h1 => ⟨g, by simp, s, h0, by simpa [totalLength] using h1, rfl⟩
  | g :: h :: gs, _, s, h0, h1 => by
    rw [totalLength_cons] at h1
    rcases le_or_gt g.length s with hs | hs
    · obtain ⟨g', hg', u, u0, u1, he⟩ := along_mem f dflt (h :: gs) (by simp) (s - g.length) (by linarith) (by linarith)
      exact ⟨g', List.mem_cons_of_mem _ hg', u, u0, u1, by rw [(along_cons _ _ _ (by simp) _).1 hs, he]⟩
    · exact ⟨g, by simp, s, h0, hs.le, (along_cons _ _ _ (by simp) _).2 hs⟩

theorem built (dev : ℝ) (c1 c2 : V n) (rest : List (V n)) (h : Regular dev (c1 :: c2 :: rest)) :
    Built dev c1 c1 0 (c2 :: rest) (buildSegments dev c1 c1 (c2 :: rest)) := by
  rcases le_or_gt dev 0 with hd | hd
  · exact build_plain dev hd rest c1 c2 h.2
  · have := build_blend dev hd rest c1 c2 0 (h.1 hd) (le_refl 0) (by positivity)
    simpa using this

/-! ### C77 -/

/-- C77: fewer than two waypoints or a deviation that is not finite are refused, everything else is accepted. -/
theorem C77_refused (ws : List (V n)) (dev : Ext) :
    (Path.make ws dev = .throw .invalidArgument ↔ ws.length < 2 ∨ ∀ x, dev ≠ .fin x) ∧
      (2 ≤ ws.length → ∀ x, dev = .fin x → ∃ p, Path.make ws dev = .ok p) := by
  unfold Path.make
  split
  · constructor
    · constructor
      · intro h; cases h
      · rintro (h | h)
        · simp at h
        · exact absurd rfl (h _)
    · exact fun _ _ _ => ⟨_, rfl⟩
  · rename_i hx
    constructor
    · refine ⟨fun _ => ?_, fun _ => rfl⟩
      by_contra hc
      push Not at hc
      obtain ⟨h1, x, rfl⟩ := hc
      rcases ws with _ | ⟨a, _ | ⟨b, r⟩⟩
      · simp at h1
      · simp at h1
      · exact hx a b r x rfl rfl
    · rintro h1 x rfl
      rcases ws with _ | ⟨a, _ | ⟨b, r⟩⟩
      · simp at h1
      · simp at h1
      · exact (hx a b r x rfl rfl).elim

/-- C77: the path starts at the first waypoint and ends at the last; it is nowhere further from the polyline through the waypoints than the
permitted deviation, it is not longer than the polyline, and it passes all waypoints, in order, within the permitted deviation (exactly,
if that is not positive). -/
theorem C77_follows_waypoints (ws : List (V n)) (dev : ℝ) (hr : Regular dev ws) (p : Path n) (hp : Path.make ws (.fin dev) = .ok p) :
    p.config 0 = ws.head? ∧ p.config p.length = ws.getLast? ∧ 0 < p.length ∧ p.length ≤ polylineLength ws ∧
      (∀ s, 0 ≤ s → s ≤ p.length → ∃ c z, p.config s = some c ∧ OnPolyline ws z ∧ dist c z ≤ max dev 0) ∧
      ∃ ps : List ℝ, List.Forall₂ (fun s w => ∃ c, p.config s = some c ∧ dist c w ≤ max dev 0) ps ws ∧ ps.Pairwise (· ≤ ·) ∧
        ∀ s ∈ ps, 0 ≤ s ∧ s ≤ p.length := by
  unfold Path.make at hp
  split at hp
  · rename_i c1 c2 rest dev' he
    cases he
    cases hp
    have hb := built dev c1 c2 rest hr
    obtain ⟨k, hk, e, he, hch, _⟩ := hb.chain
    simp only [assemble_config, (assemble_segments _).2]
    refine ⟨?_, ?_, hch.pos, ?_, ?_, ?_⟩
    · rw [hb.start0 rfl]; rfl
    · rw [hch.end_, List.getLast?_cons_cons, he]
    · have := hb.len; linarith
    · intro s h0 h1
      obtain ⟨x, _, hx, _⟩ := hch.lip s s h0 (le_refl _) h1
      obtain ⟨g, hg, u, u0, u1, hu⟩ := along_mem Seg.config none _ hch.ne s h0 h1
      obtain ⟨z, hz, hd⟩ := hb.near g hg u u0 u1 x (by rw [← hu, hx])
      exact ⟨x, z, hx, hz, hd⟩
    · exact Passes.cons hb.passes (hb.start0 rfl) (by rw [dist_self]; exact le_max_right _ _) (le_refl _) (le_refl _) hch.pos.le
  · cases hp

/-- C77: the path is parametrized by its arc length: between two places `s` and `t` the configuration moves by at most `t - s`, up to a
jump of at most 1e-6 for every corner (none without blends); the tangent has length 1 and is the derivative to the right. -/
theorem C77_arc_length (ws : List (V n)) (dev : ℝ) (hr : Regular dev ws) (p : Path n) (hp : Path.make ws (.fin dev) = .ok p) :
    (∀ s t, 0 ≤ s → s ≤ t → t ≤ p.length → ∃ x y, p.config s = some x ∧ p.config t = some y ∧
      dist x y ≤ t - s + (if dev ≤ 0 then 0 else ((ws.length : ℝ) - 2) * (1 / 1000000))) ∧
    ∀ s, 0 ≤ s → s ≤ p.length → ∃ T, p.tangent s = some T ∧ ‖T‖ = 1 ∧
      (s < p.length → HasDerivWithinAt (fun s => (p.config s).getD 0) T (Set.Ici s) s) := by
  unfold Path.make at hp
  split at hp
  · rename_i c1 c2 rest dev' he
    cases he
    cases hp
    have hb := built dev c1 c2 rest hr
    obtain ⟨k, hk, e, he, hch, hk0⟩ := hb.chain
    simp only [assemble_config, assemble_tangent, (assemble_segments _).2]
    refine ⟨fun s t h0 h1 h2 => ?_, fun s h0 h1 => hch.tangent s h0 h1⟩
    obtain ⟨x, y, hx, hy, hxy, _⟩ := hch.lip s t h0 h1 h2
    refine ⟨x, y, hx, hy, le_trans hxy ?_⟩
    split_ifs with hd
    · rw [hk0 hd]; simp
    · have : (k : ℝ) ≤ rest.length := by exact_mod_cast (by simpa using hk)
      simp only [List.length_cons]
      push_cast
      linarith
  · cases hp

end CRU.Totp
