import Verif.Totp.BuildFlat
/-
  C81, C82: integrating backward on paths without curvature. Proofs.
-/
namespace CRU.Totp
open Ext

variable {n : Nat} [NeZero n] {e : Setup n} {a v : ℝ → ℝ} {a0 : ℝ}

/-- The slope of the line through two steps. -/
noncomputable def slopeOf (p q : Step) : ℝ := (q.vel - p.vel) / (q.pos - p.pos)

/-- The line through two steps. -/
noncomputable def lineThrough (p q : Step) (x : ℝ) : ℝ := p.vel + slopeOf p q * (x - p.pos)

theorem lineThrough_left (p q : Step) : lineThrough p q p.pos = p.vel := by simp [lineThrough]

theorem lineThrough_right {p q : Step} (h : p.pos < q.pos) : lineThrough p q q.pos = q.vel := by
  unfold lineThrough slopeOf
  rw [div_mul_cancel₀ _ (by linarith)]
  ring

/-- Whether the crossing is found. -/
structure Crossing (s1 s2 m f i : Step) : Prop where
  on_start : i.vel = lineThrough s1 s2 i.pos
  on_back : i.vel = lineThrough m f i.pos
  lo : max s1.pos m.pos - eps ≤ i.pos
  hi : i.pos ≤ eps + min s2.pos f.pos
  order : max s1.pos m.pos ≤ min s2.pos f.pos
  left_of : slopeOf m f < slopeOf s1 s2 → i.pos < min s2.pos f.pos

open Classical in
/-- The test for an intersection: if the trajectory is above the backward line at the right end of the common stretch, it is found, or the
trajectory is above it at the left end, too. -/
theorem check_spec (s : Bwd) {f : Step} {ts : List Step} (ht : s.traj = f :: ts) (h1 : s.s1.pos < s.s2.pos) (h2 : s.pos < f.pos)
    (hsl : s.slope = .fin (slopeOf ⟨s.pos, s.vel⟩ f)) (hlr : max s.s1.pos s.pos ≤ min s.s2.pos f.pos)
    (hgap : lineThrough ⟨s.pos, s.vel⟩ f (min s.s2.pos f.pos) < lineThrough s.s1 s.s2 (min s.s2.pos f.pos)) :
    (s.check = .ok none ∧ lineThrough ⟨s.pos, s.vel⟩ f (max s.s1.pos s.pos) < lineThrough s.s1 s.s2 (max s.s1.pos s.pos)) ∨
    ∃ i, s.check = .ok (some (s.traj.reverse ++ i :: s.s1 :: s.below)) ∧ Crossing s.s1 s.s2 ⟨s.pos, s.vel⟩ f i := by
  have hss : s.startSlope = .fin (slopeOf s.s1 s.s2) := by
    unfold Bwd.startSlope slopeOf
    rw [div_fin (by linarith)]
  set σ := slopeOf s.s1 s.s2 with hσ
  set β := slopeOf ⟨s.pos, s.vel⟩ f with hβ
  have hcr : s.crossing = div (.fin (s.s1.vel - s.vel + β * s.pos - σ * s.s1.pos)) (.fin (β - σ)) := by
    unfold Bwd.crossing
    rw [hss, hsl]
    simp only [mul_fin, add_fin, sub_fin]
  have hF : ∀ x, lineThrough s.s1 s.s2 x = s.s1.vel + σ * (x - s.s1.pos) := fun _ => rfl
  have hB : ∀ x, lineThrough ⟨s.pos, s.vel⟩ f x = s.vel + β * (x - s.pos) := fun _ => rfl
  unfold Bwd.check
  rw [ht]
  dsimp only
  by_cases hσβ : β - σ = 0
  · -- parallel lines
    have hno : ¬ ((Ext.fin (max s.s1.pos s.pos - eps)).le s.crossing ∧ s.crossing.le (.fin (eps + min s.s2.pos f.pos))) := by
      rintro ⟨c1, c2⟩
      obtain ⟨r, hr, -, -⟩ := fin_of_between c1 c2
      rw [hcr, hσβ] at hr
      simp only [div] at hr
      split_ifs at hr <;> simp_all
    rw [if_neg hno]
    refine .inl ⟨rfl, ?_⟩
    rw [hF, hB] at hgap ⊢
    have : β = σ := by linarith
    rw [this] at hgap ⊢
    linarith
  · have hcr' : s.crossing = .fin ((s.s1.vel - s.vel + β * s.pos - σ * s.s1.pos) / (β - σ)) := by rw [hcr, div_fin hσβ]
    set x := (s.s1.vel - s.vel + β * s.pos - σ * s.s1.pos) / (β - σ) with hx
    have hxe : s.s1.vel + σ * (x - s.s1.pos) = s.vel + β * (x - s.pos) := by
      have : x * (β - σ) = s.s1.vel - s.vel + β * s.pos - σ * s.s1.pos := by rw [hx, div_mul_cancel₀ _ hσβ]
      linarith
    rw [hcr', le_fin, le_fin]
    by_cases hin : max s.s1.pos s.pos - eps ≤ x ∧ x ≤ eps + min s.s2.pos f.pos
    · rw [if_pos hin]
      refine .inr ⟨⟨x, s.s1.vel + σ * (x - s.s1.pos)⟩, ?_, ⟨?_, ?_, hin.1, hin.2, hlr, ?_⟩⟩
      · rw [hss, sub_fin, mul_fin, add_fin]
        rfl
      · rw [hF]
      · rw [hB]; exact hxe
      · intro hlt
        dsimp only
        rw [hF, hB] at hgap
        by_contra hc
        push Not at hc
        nlinarith
    · rw [if_neg hin]
      refine .inl ⟨rfl, ?_⟩
      by_contra hc
      push Not at hc
      apply hin
      rw [hF, hB] at hgap hc
      generalize min s.s2.pos f.pos = r at *
      generalize max s.s1.pos s.pos = l at *
      have heps : 0 < eps := by unfold eps; norm_num
      -- the gap vanishes between the ends
      have g1 : (σ - β) * (r - l) > 0 := by nlinarith
      have hrl : 0 < r - l := by
        rcases hlr.eq_or_lt with rfl | hlt
        · simp at g1
        · linarith
      have hsb : 0 < σ - β := by
        by_contra hc'
        push Not at hc'
        have := mul_nonpos_of_nonpos_of_nonneg hc' hrl.le
        linarith
      have e1 : (σ - β) * (x - l) ≥ 0 := by nlinarith
      have e2 : (σ - β) * (r - x) ≥ 0 := by nlinarith
      have e3 : 0 ≤ x - l := by
        by_contra hc'
        push Not at hc'
        have := mul_neg_of_pos_of_neg hsb hc'
        linarith
      have e4 : 0 ≤ r - x := by
        by_contra hc'
        push Not at hc'
        have := mul_neg_of_pos_of_neg hsb hc'
        linarith
      constructor <;> linarith

/-- How a step `m` of the backward integration is made from the step `f` after it. -/
structure Behind (a : ℝ → ℝ) (dt : ℝ) (m f : Step) : Prop where
  place : 0 ≤ f.pos
  pos : m.pos = f.pos - dt * (1 / 2) * (m.vel + f.vel)
  vel : m.vel = f.vel + dt * a f.pos
  nonneg : 0 ≤ f.vel

theorem Behind.lt (h : Flat e a v a0) {m f : Step} (hb : Behind a e.dt m f) :
    f.vel < m.vel ∧ m.pos < f.pos ∧ m.pos ≤ f.pos - e.dt * (1 / 2) * (e.dt * a0) := by
  have hdt := h.dt
  have ha := h.a_ge f.pos hb.place
  have ha0 := h.a0_pos
  have h1 : e.dt * a0 ≤ e.dt * a f.pos := mul_le_mul_of_nonneg_left ha hdt.le
  have h2 : 0 < e.dt * a0 := mul_pos hdt ha0
  have hv := hb.vel
  have hn := hb.nonneg
  have h3 : e.dt * (1 / 2) * (e.dt * a0) ≤ e.dt * (1 / 2) * (m.vel + f.vel) := by
    apply mul_le_mul_of_nonneg_left _ (by linarith)
    linarith
  have h4 : 0 < e.dt * (1 / 2) * (e.dt * a0) := by positivity
  have hp := hb.pos
  refine ⟨by linarith, by linarith, by linarith⟩

/-- The backward part: its steps from the left, ending at rest at the end of the path. -/
structure BackTrack (e : Setup n) (a : ℝ → ℝ) (m : Step) (traj : List Step) : Prop where
  chain : (m :: traj).IsChain (fun m f => Behind a e.dt m f)
  ne : traj ≠ []
  last : traj.getLast? = some ⟨e.path.length, 0⟩

/-- What the backward integration returns: the trajectory `rev0` was left at the crossing `i`. -/
def Joined (e : Setup n) (a v : ℝ → ℝ) (rev0 out : List Step) : Prop :=
  ∃ s2 s1 below m f ts i, out = (f :: ts).reverse ++ i :: s1 :: below ∧ (s2 :: s1 :: below) <:+ rev0 ∧ BackTrack e a m (f :: ts) ∧
    Crossing s1 s2 m f i

/-- The state after a test that failed. -/
structure BackOk (e : Setup n) (a v : ℝ → ℝ) (rev0 : List Step) (s : Bwd) (f : Step) : Prop where
  traj : ∃ ts, s.traj = f :: ts
  track : BackTrack e a ⟨s.pos, s.vel⟩ s.traj
  suffix : (s.s2 :: s.s1 :: s.below) <:+ rev0
  acc : 0 ≤ s.pos → s.acc = -(a s.pos)
  slope : s.slope = .fin (slopeOf ⟨s.pos, s.vel⟩ f)
  order : max s.s1.pos s.pos ≤ min s.s2.pos f.pos
  gap : lineThrough ⟨s.pos, s.vel⟩ f (max s.s1.pos s.pos) < lineThrough s.s1 s.s2 (max s.s1.pos s.pos)

theorem BackOk.behind {rev0 : List Step} {s : Bwd} {f : Step} (hs : BackOk e a v rev0 s f) : Behind a e.dt ⟨s.pos, s.vel⟩ f := by
  obtain ⟨ts, ht⟩ := hs.traj
  have := hs.track.chain
  rw [ht] at this
  exact (List.isChain_cons_cons.mp this).1

open Classical in
/-- One step backward, from a place where the trajectory is above. -/
theorem push_turn (h : Flat e a v a0) {rev0 : List Step} (hrev : ∀ s2 s1 below, (s2 :: s1 :: below) <:+ rev0 → Ahead a v e.dt s1 s2 ∧ 0 ≤ s1.pos)
    (s : Bwd) (hsuf : (s.s2 :: s.s1 :: s.below) <:+ rev0) (hvel : 0 ≤ s.vel) (hle : s.s1.pos ≤ s.pos) (hlt : s.pos ≤ s.s2.pos)
    (hacc : s.acc = -(a s.pos)) (hgap : s.vel < lineThrough s.s1 s.s2 s.pos)
    (htr : (⟨s.pos, s.vel⟩ :: s.traj : List Step).IsChain (fun m f => Behind a e.dt m f))
    (hlast : (⟨s.pos, s.vel⟩ :: s.traj : List Step).getLast? = some ⟨e.path.length, 0⟩) :
    ¬ (s.push e).vel < 0 ∧
    (((s.push e).check = .ok none ∧ BackOk e a v rev0 (s.push e) ⟨s.pos, s.vel⟩) ∨
      ∃ out, (s.push e).check = .ok (some out) ∧ Joined e a v rev0 out) := by
  obtain ⟨hahead, hs1⟩ := hrev _ _ _ hsuf
  have h0 : 0 ≤ s.pos := le_trans hs1 hle
  have hb : Behind a e.dt ⟨(s.push e).pos, (s.push e).vel⟩ ⟨s.pos, s.vel⟩ := by
    refine ⟨h0, ?_, ?_, hvel⟩
    · rfl
    · show s.vel - e.dt * s.acc = s.vel + e.dt * a s.pos
      rw [hacc]; ring
  obtain ⟨b1, b2, b3⟩ := hb.lt h
  dsimp only at b1 b2 b3
  have htrack : BackTrack e a ⟨(s.push e).pos, (s.push e).vel⟩ (s.push e).traj :=
    ⟨List.isChain_cons_cons.mpr ⟨hb, htr⟩, by simp [Bwd.push], hlast⟩
  have hslope : (s.push e).slope = .fin (slopeOf ⟨(s.push e).pos, (s.push e).vel⟩ ⟨s.pos, s.vel⟩) := by
    show div (.fin (s.vel - (s.push e).vel)) (.fin (s.pos - (s.push e).pos)) = _
    rw [div_fin (by linarith)]
    rfl
  have hmin : min (s.push e).s2.pos s.pos = s.pos := min_eq_right hlt
  have hmax : max (s.push e).s1.pos (s.push e).pos ≤ min (s.push e).s2.pos s.pos := by
    rw [hmin]
    exact max_le hle b2.le
  refine ⟨by linarith, ?_⟩
  have hgap' : lineThrough ⟨(s.push e).pos, (s.push e).vel⟩ ⟨s.pos, s.vel⟩ (min (s.push e).s2.pos s.pos) <
      lineThrough (s.push e).s1 (s.push e).s2 (min (s.push e).s2.pos s.pos) := by
    rw [hmin, show lineThrough ⟨(s.push e).pos, (s.push e).vel⟩ ⟨s.pos, s.vel⟩ s.pos = s.vel from
      lineThrough_right (p := ⟨(s.push e).pos, (s.push e).vel⟩) (q := ⟨s.pos, s.vel⟩) b2]
    exact hgap
  rcases check_spec (s.push e) (f := ⟨s.pos, s.vel⟩) (ts := s.traj) rfl hahead.pos b2 hslope hmax hgap' with ⟨c1, c2⟩ | ⟨i, c1, c2⟩
  · refine .inl ⟨c1, ⟨s.traj, rfl⟩, htrack, hsuf, ?_, hslope, hmax, c2⟩
    intro hp
    show (e.acc (s.push e).pos (.fin (s.push e).vel) false).real = _
    rw [h.acc_min _ hp]
    rfl
  · refine .inr ⟨_, c1, s.s2, s.s1, s.below, ⟨(s.push e).pos, (s.push e).vel⟩, ⟨s.pos, s.vel⟩, s.traj, i, ?_, hsuf, htrack, c2⟩
    rfl

open Classical in
/-- The backward integration ends, and finds the trajectory. -/
theorem Flat.backward_total (h : Flat e a v a0) {rev0 : List Step}
    (hrev : ∀ s2 s1 below, (s2 :: s1 :: below) <:+ rev0 → Ahead a v e.dt s1 s2 ∧ 0 ≤ s1.pos)
    (hfirst : ∀ x, (x : Step) :: [] <:+ rev0 → x = ⟨0, 0⟩) : ∀ (m : Nat) (s : Bwd) (f : Step) (k : Nat), s.below.length + k ≤ m →
    s.pos < k * (e.dt * (1 / 2) * (e.dt * a0)) → BackOk e a v rev0 s f → ∀ K, m < K →
    ∃ out, backward e K s = some (.ok out) ∧ Joined e a v rev0 out := by
  intro m
  induction m with
  | zero =>
    intro s f k hm hk hs K hK
    -- the start of the trajectory: it cannot be above there
    obtain rfl : k = 0 := by omega
    have hb : s.below = [] := by
      have : s.below.length = 0 := by omega
      exact List.length_eq_zero_iff.mp this
    exfalso
    have hneg : s.pos < 0 := by simpa using hk
    have hs1 : s.s1 = ⟨0, 0⟩ := hfirst s.s1 (by
      have := hs.suffix
      rw [hb] at this
      exact (List.suffix_cons s.s2 [s.s1]).trans this)
    have hg := hs.gap
    rw [hs1, max_eq_left hneg.le] at hg
    rw [show lineThrough ⟨0, 0⟩ s.s2 0 = 0 from lineThrough_left ⟨0, 0⟩ s.s2] at hg
    obtain ⟨b1, b2, b3⟩ := hs.behind.lt h
    have hn := hs.behind.nonneg
    have hf := hs.behind.place
    dsimp only at b1 b2
    have : lineThrough ⟨s.pos, s.vel⟩ f 0 = f.vel + (s.vel - f.vel) * (f.pos / (f.pos - s.pos)) := by
      unfold lineThrough slopeOf
      have : f.pos - s.pos ≠ 0 := by linarith
      dsimp only
      field_simp
      ring
    have hq : 0 ≤ f.pos / (f.pos - s.pos) := div_nonneg hf (by linarith)
    have : 0 ≤ (s.vel - f.vel) * (f.pos / (f.pos - s.pos)) := mul_nonneg (by linarith) hq
    linarith
  | succ m ih =>
    intro s f k hm hk hs K hK
    obtain ⟨K, rfl⟩ : ∃ K', K = K' + 1 := ⟨K - 1, by omega⟩
    obtain ⟨hahead, hs1⟩ := hrev _ _ _ hs.suffix
    obtain ⟨b1, b2, b3⟩ := hs.behind.lt h
    have hn := hs.behind.nonneg
    have hf := hs.behind.place
    dsimp only at b1 b2
    rw [backward]
    by_cases hc : s.s1.pos ≤ s.pos
    · -- a step backward
      have h0 : 0 ≤ s.pos := le_trans hs1 hc
      rw [if_pos (Or.inr h0), if_pos hc]
      obtain ⟨ts, hts⟩ := hs.traj
      have hlast : (⟨s.pos, s.vel⟩ :: s.traj : List Step).getLast? = some ⟨e.path.length, 0⟩ := by
        rw [hts, List.getLast?_cons_cons, ← hts]; exact hs.track.last
      have hord := hs.order
      have hgap := hs.gap
      rw [max_eq_right hc] at hgap hord
      rw [show lineThrough ⟨s.pos, s.vel⟩ f s.pos = s.vel from lineThrough_left ⟨s.pos, s.vel⟩ f] at hgap
      obtain ⟨c1, c2⟩ := push_turn h hrev s hs.suffix (by linarith) hc (le_trans hord (min_le_left _ _)) (hs.acc h0) hgap hs.track.chain hlast
      dsimp only
      rw [if_neg c1]
      rcases c2 with ⟨c2, c3⟩ | ⟨out, c2, c3⟩
      · rw [c2]
        show ∃ out, backward e K (s.push e) = some (.ok out) ∧ _
        cases k with
        | zero => simp at hk; linarith
        | succ k =>
          refine ih (s.push e) _ k ?_ ?_ c3 K (by omega)
          · show s.below.length + k ≤ m; omega
          · have := (c3.behind.lt h).2.2
            push_cast at hk
            dsimp only at this
            linarith
      · rw [c2]
        exact ⟨out, rfl, c3⟩
    · -- a step down the trajectory
      push Not at hc
      cases hbel : s.below with
      | nil =>
        exfalso
        have hs1' : s.s1 = ⟨0, 0⟩ := hfirst s.s1 (by
          have := hs.suffix
          rw [hbel] at this
          exact (List.suffix_cons s.s2 [s.s1]).trans this)
        have hneg : s.pos < 0 := by rw [hs1'] at hc; exact hc
        have hg := hs.gap
        rw [hs1', max_eq_left hneg.le] at hg
        rw [show lineThrough ⟨0, 0⟩ s.s2 0 = 0 from lineThrough_left ⟨0, 0⟩ s.s2] at hg
        have : lineThrough ⟨s.pos, s.vel⟩ f 0 = f.vel + (s.vel - f.vel) * (f.pos / (f.pos - s.pos)) := by
          unfold lineThrough slopeOf
          have : f.pos - s.pos ≠ 0 := by linarith
          dsimp only
          field_simp
          ring
        have hq : 0 ≤ f.pos / (f.pos - s.pos) := div_nonneg hf (by linarith)
        have : 0 ≤ (s.vel - f.vel) * (f.pos / (f.pos - s.pos)) := mul_nonneg (by linarith) hq
        linarith
      | cons b bs =>
        rw [if_pos (by left; simp), if_neg (not_le.mpr hc)]
        dsimp only
        have hsuf : (s.s1 :: b :: bs) <:+ rev0 := by
          have := hs.suffix
          rw [hbel] at this
          exact (List.suffix_cons s.s2 _).trans this
        obtain ⟨hab, hb0⟩ := hrev _ _ _ hsuf
        obtain ⟨ts, hts⟩ := hs.traj
        have hord := hs.order
        have hgap := hs.gap
        rw [max_eq_left hc.le] at hgap hord
        rw [lineThrough_left] at hgap
        have hmin : min s.s1.pos f.pos = s.s1.pos := min_eq_left (le_trans hord (min_le_right _ _))
        have hmax : max b.pos s.pos ≤ min s.s1.pos f.pos := by rw [hmin]; exact max_le hab.pos.le hc.le
        rcases check_spec { s with s2 := s.s1, s1 := b, below := bs } (f := f) (ts := ts) hts hab.pos b2 hs.slope hmax
          (by dsimp only; rw [hmin, lineThrough_right hab.pos]; exact hgap) with ⟨c1, c2⟩ | ⟨i, c1, c2⟩
        · rw [c1]
          show ∃ out, backward e K { s with s2 := s.s1, s1 := b, below := bs } = some (.ok out) ∧ _
          refine ih { s with s2 := s.s1, s1 := b, below := bs } f k ?_ hk ⟨⟨ts, hts⟩, hs.track, hsuf, hs.acc, hs.slope, hmax, c2⟩ K (by omega)
          rw [hbel] at hm
          dsimp only
          simp only [List.length_cons] at hm
          omega
        · rw [c1]
          refine ⟨_, rfl, s.s1, b, bs, ⟨s.pos, s.vel⟩, f, ts, i, ?_, hsuf, ?_, c2⟩
          · dsimp only; rw [hts]
          · rw [← hts]; exact hs.track

end CRU.Totp
