import Verif.Path.Smooth
/-
  C34: resampled shortcuts state by state; small shortcut fractions.
-/
namespace CRU.Path
open CRU.Util CRU.Fl

variable {C : Type}

/-- C34. `AttemptShortcut` with resampling, for a valid direct edge of `n` = ⌈distance / interval⌉ pieces: the shortcut consists of
the first state, the states interpolated at k/n for 0 < k < n in this order, and the last state. It is returned if marginal
shortcuts need not be checked or all its edges are valid; else, without backtracking, the attempt fails. -/
theorem C34_resampled {fl : ℚ → ℚ} (hfl : Nearest 53 (-1074) fl) (cfg : Cfg C) (hi : 0 < cfg.interval) (path : List C) (steps s e : Nat)
    (hse : s < e) (he : e < path.length) (hv : cfg.valid path[s] path[e] = true) (n : Nat)
    (hn : ⌈fl (cfg.dist path[s] path[e] / cfg.interval)⌉ = (n : Int)) (hn32 : n < 2 ^ 32) :
    ∃ q : List C, q.length = max n 1 + 1 ∧ q[0]? = some path[s] ∧ q[max n 1]? = some path[e] ∧
      (∀ k, 0 < k → k < n → q[k]? = some (cfg.interp path[s] path[e] (fl ((k : ℚ) / (n : ℚ))))) ∧
      (cfg.check = false ∨ EdgesValid cfg.valid q → attempt fl cfg path steps s e = .ok q) ∧
      (cfg.check = true → ¬ EdgesValid cfg.valid q → attempt fl cfg path 0 s e = .ok []) := by
  have hins : inserted fl cfg path[s] path[e] = .ok ((List.range' 1 (n - 1)).map fun k : Nat =>
      cfg.interp path[s] path[e] (fl ((k : ℚ) / (n : ℚ)))) := by
    unfold inserted numSegments
    rw [if_pos hi, hn, show u32.cast (n : Int) = .ok (n : Int) from if_pos ⟨by simp only [u32]; omega, by simp only [u32]; omega⟩]
    simp
  generalize hmid : ((List.range' 1 (n - 1)).map fun k : Nat => cfg.interp path[s] path[e] (fl ((k : ℚ) / (n : ℚ)))) = mid at hins
  have hlen : mid.length = n - 1 := by rw [← hmid]; simp
  refine ⟨[path[s]] ++ mid ++ [path[e]], ?_, ?_, ?_, ?_, ?_, ?_⟩
  · simp only [List.length_append, List.length_cons, List.length_nil, hlen]; omega
  · simp
  · rw [List.getElem?_append_right (by simp only [List.length_append, List.length_cons, List.length_nil, hlen]; omega)]
    simp only [List.length_append, List.length_cons, List.length_nil, hlen]
    rw [show max n 1 - (0 + 1 + (n - 1)) = 0 by omega]
    rfl
  · intro k h0 hk
    rw [List.getElem?_append_left (by simp only [List.length_append, List.length_cons, List.length_nil, hlen]; omega),
      List.getElem?_append_right (by simp only [List.length_cons, List.length_nil]; omega), ← hmid, List.getElem?_map,
      List.getElem?_range' (by simp only [List.length_cons, List.length_nil]; omega)]
    simp only [List.length_cons, List.length_nil, Option.map_some, Option.some.injEq]
    have : 1 + 1 * (k - (0 + 1)) = k := by omega
    rw [this]
  · intro hc
    have hd : direct fl cfg path[s] path[e] = .ok (some ([path[s]] ++ mid ++ [path[e]])) := by
      unfold direct
      rw [if_pos hv, hins, Res.ok_bind]
      dsimp only
      by_cases h1 : ([path[s]] ++ mid ++ [path[e]]).length ≤ 2 ∨ cfg.check = false
      · rw [if_pos h1]; rfl
      · have h3 : ([path[s]] ++ mid ++ [path[e]]).length ≤ 2 ^ 52 := by
          simp only [List.length_append, List.length_cons, List.length_nil, hlen]; omega
        have h4 : EdgesValid cfg.valid ([path[s]] ++ mid ++ [path[e]]) := by
          rcases hc with hc | hc
          · exact absurd (Or.inr hc) h1
          · exact hc
        rw [if_neg h1, if_pos ((percentFree_iff hfl cfg.valid (by omega) h3).mpr h4)]
        rfl
    unfold attempt
    rw [if_neg (by omega), atRaw_ok.mpr (List.getElem?_eq_getElem (show s < path.length by omega)),
      atRaw_ok.mpr (List.getElem?_eq_getElem he), Res.ok_bind, Res.ok_bind, hd]
    rfl
  · intro hc hbad
    have hd : direct fl cfg path[s] path[e] = .ok none := by
      unfold direct
      rw [if_pos hv, hins, Res.ok_bind]
      dsimp only
      have h1 : ¬ (([path[s]] ++ mid ++ [path[e]]).length ≤ 2 ∨ cfg.check = false) := by
        rintro (h1 | h1)
        · have h5 : mid = [] := by
            simp only [List.length_append, List.length_cons, List.length_nil] at h1
            exact List.length_eq_zero_iff.mp (by omega)
          apply hbad
          rw [h5]
          intro p hp
          simp only [List.append_nil, List.cons_append, List.nil_append, edges, List.mem_cons, List.not_mem_nil, or_false] at hp
          rw [hp]
          exact hv
        · rw [hc] at h1; cases h1
      have h3 : ([path[s]] ++ mid ++ [path[e]]).length ≤ 2 ^ 52 := by
        simp only [List.length_append, List.length_cons, List.length_nil, hlen]; omega
      rw [if_neg h1, if_neg fun h => hbad ((percentFree_iff hfl cfg.valid (by omega) h3).mp h)]
      rfl
    unfold attempt
    rw [if_neg (by omega), atRaw_ok.mpr (List.getElem?_eq_getElem (show s < path.length by omega)),
      atRaw_ok.mpr (List.getElem?_eq_getElem he), Res.ok_bind, Res.ok_bind, hd]
    rfl

/-- A world on the number line, everything valid, with resampling at distance 4. -/
def lineCfg : Cfg ℚ where
  interval := 4
  check := true
  valid _ _ := true
  dist a b := |a - b|
  interp a b r := a + (b - a) * r

/-- Non-vacuity: the shortcut from 0 to 12 has three pieces. -/
example {fl : ℚ → ℚ} (hfl : Nearest 53 (-1074) fl) : ∃ q, attempt fl lineCfg [0, 1, 7, 12] 0 0 3 = .ok q ∧ q.length = 4 ∧
    q[1]? = some (12 * fl (1 / 3)) ∧ q[3]? = some 12 := by
  have h3 : fl (3 : ℚ) = 3 := fl_eighth hfl 24 (by norm_num) (by norm_num)
  obtain ⟨q, h1, _, h4, h5, h6, _⟩ := C34_resampled hfl lineCfg (by norm_num [lineCfg]) [0, 1, 7, 12] 0 0 3 (by decide) (by decide) rfl 3
    (by
      simp only [lineCfg, List.getElem_cons_zero, List.getElem_cons_succ]
      rw [show |(0 : ℚ) - 12| / 4 = 3 by norm_num [abs_of_neg], h3]
      norm_num) (by norm_num)
  refine ⟨q, h6 (Or.inr fun p _ => rfl), h1, ?_, h4⟩
  rw [h5 1 (by norm_num) (by norm_num)]
  simp [lineCfg]

/-! ### Small fractions -/

theorem fl_abs_le_rep {fl : ℚ → ℚ} (hfl : Nearest 53 (-1074) fl) {x b : ℚ} (hb : Rep 53 (-1074) b) (hx : |x| ≤ b) : |fl x| ≤ b := by
  obtain ⟨h1, h2⟩ := abs_le.mp hx
  have a1 := hfl.mono h1
  have a2 := hfl.mono h2
  rw [hfl.fix hb] at a2
  rw [hfl.fix hb.neg] at a1
  exact abs_le.mpr ⟨a1, a2⟩

theorem rep_abs {x : ℚ} (h : Rep 53 (-1074) x) : Rep 53 (-1074) |x| := by
  rcases abs_choice x with h1 | h1 <;> rw [h1]
  · exact h
  · exact h.neg

theorem rep_double {x : ℚ} (h : Rep 53 (-1074) x) : Rep 53 (-1074) (2 * x) := by
  obtain ⟨m, e, h1, h2, h3⟩ := h
  refine ⟨m, e + 1, by omega, h2, ?_⟩
  rw [h3, zpow_add₀ (by norm_num)]
  ring

theorem window_small {fl : ℚ → ℚ} (hfl : Nearest 53 (-1074) fl) {f : ℚ} (hf : Rep 53 (-1074) f) {u : ℚ × ℚ} {size : Nat}
    (hs : 2 * |f| * size ≤ 1) (hu : Rep 53 (-1074) u.1 ∧ 0 ≤ u.1 ∧ u.1 < 1) (h1 : 1 ≤ size) (h2 : size ≤ 2 ^ 51) :
    ∃ w, window fl f u size = .ok w ∧ w.1 ≤ w.2 + 1 ∧ w.2 ≤ w.1 + 1 := by
  have hq : (1 : ℚ) ≤ size := by exact_mod_cast h1
  have hf1 : |f| ≤ 1 := by nlinarith [abs_nonneg f]
  obtain ⟨w, hw⟩ := window_total hfl hf1 hu h1 h2
  refine ⟨w, hw, ?_⟩
  unfold window at hw
  obtain ⟨sz, hsz, hw⟩ := Res.bind_eq_ok.mp hw
  unfold IntType.cast at hsz
  split at hsz
  swap
  · cases hsz
  next hhas =>
  have h3 := hhas.2
  simp only [Res.ok.injEq] at hsz
  subst hsz
  obtain ⟨i, hi, hi0, hi1⟩ := C46_index_in_range hfl (t := i64) (by decide) hu.1 hu.2.1 hu.2.2 (size := (size : Int)) (by omega) h3
  rw [hi, Res.ok_bind] at hw
  obtain ⟨off, hoff, hw⟩ := Res.bind_eq_ok.mp hw
  obtain ⟨st, hst, hw⟩ := Res.bind_eq_ok.mp hw
  obtain ⟨idx, hidx, hw⟩ := Res.bind_eq_ok.mp hw
  obtain ⟨safe, hsafe, hw⟩ := Res.bind_eq_ok.mp hw
  simp only [Res.pure_eq, Res.ok.injEq] at hw
  have hO : |off| ≤ 2 * |f| := by
    unfold interpolate at hoff
    obtain ⟨r, hr, hoff⟩ := Res.bind_eq_ok.mp hoff
    have hr01 := clampValue_ok hr
    simp only [Res.pure_eq, Res.ok.injEq] at hoff
    rw [← hoff]
    have b1 : |fl (1 - r)| ≤ 1 := by
      have := fl_abs_le hfl (x := 1 - r) (k := 0) (by norm_num) (by rw [abs_le]; constructor <;> linarith [hr01.1, hr01.2])
      simpa using this
    have b2 : |fl (-f * fl (1 - r))| ≤ |f| := fl_abs_le_rep hfl (rep_abs hf) (by
      rw [abs_mul, abs_neg]
      exact mul_le_of_le_one_right (abs_nonneg f) b1)
    have b3 : |fl (f * r)| ≤ |f| := fl_abs_le_rep hfl (rep_abs hf) (by
      rw [abs_mul, abs_of_nonneg hr01.1]
      exact mul_le_of_le_one_right (abs_nonneg f) hr01.2)
    exact fl_abs_le_rep hfl (rep_double (rep_abs hf)) (le_trans (abs_add_le _ _) (by linarith))
  have hS : fl ((size : Int) : ℚ) = size := by
    rw [Int.cast_natCast]
    exact fl_nat hfl (by omega)
  have hX : |fl (fl ((size : Int) : ℚ) * off)| ≤ 2 ^ 0 := fl_abs_le hfl (by norm_num) (by
    rw [hS, abs_mul, abs_of_nonneg (by positivity : (0 : ℚ) ≤ size)]
    nlinarith [abs_nonneg off])
  unfold IntType.cast at hst
  split at hst
  swap
  · cases hst
  simp only [Res.ok.injEq] at hst
  generalize fl (fl ((size : Int) : ℚ) * off) = x at hX hst
  obtain ⟨c1, c2⟩ := abs_le.mp hX
  have d1 : -1 ≤ st := by rw [← hst]; exact Int.le_floor.mpr (by push_cast; simpa using c1)
  have d2 : st ≤ 1 := by
    have : ((⌊x⌋ : Int) : ℚ) ≤ 1 := le_trans (Int.floor_le x) (by simpa using c2)
    rw [← hst]
    exact_mod_cast this
  unfold IntType.arith at hidx
  rw [if_pos ⟨by simp only [i64]; omega, by simp only [i64]; omega⟩] at hidx
  simp only [Res.ok.injEq] at hidx
  unfold clampValue at hsafe
  rw [if_pos (show (size : Int) - 1 ≥ 0 by omega)] at hsafe
  rw [← hw]
  dsimp only
  split at hsafe
  · simp only [Res.ok.injEq] at hsafe; omega
  · split at hsafe
    · simp only [Res.ok.injEq] at hsafe; omega
    · simp only [Res.ok.injEq] at hsafe; omega

/-- C34. Edges between neighbouring states are never attempted: with a shortcut fraction of at most half a state, every drawn
window has at most one edge, and the path comes back unchanged, with no attempt and no failed attempt on the count. -/
theorem C34_small_fraction {fl : ℚ → ℚ} (hfl : Nearest 53 (-1074) fl) (cfg : Cfg C) (maxIter maxFailed steps : Nat) {f : ℚ}
    (hf : Rep 53 (-1074) f) (path : List C) (hs : 2 * |f| * path.length ≤ 1) {draws : Nat → ℚ × ℚ} (hd : UnitDraws draws)
    (hl : path.length ≤ 2 ^ 51) : smooth fl cfg maxIter maxFailed steps f draws path = .ok ⟨path, 0, 0⟩ := by
  have gen : ∀ n k : Nat, loop fl cfg maxFailed steps f draws n k ⟨path, 0, 0⟩ = .ok ⟨path, 0, 0⟩ := by
    intro n
    induction n with
    | zero => exact fun k => rfl
    | succ n ih =>
      intro k
      unfold loop
      split
      · next hc =>
        dsimp only at hc ⊢
        obtain ⟨w, hw, w1, w2⟩ := window_small hfl hf hs (hd k).1 (by omega) hl
        have hr := window_range hfl (hd k).1 (by omega) hw
        rw [hw, Res.ok_bind]
        rw [if_pos (by omega)]
        exact ih (k + 1)
      · rfl
  exact gen maxIter 0

/-- Non-vacuity: an eighth of four states. -/
example {fl : ℚ → ℚ} (hfl : Nearest 53 (-1074) fl) : smooth fl lineCfg 10 10 2 (1 / 8) wholeDraws [0, 1, 7, 12] = .ok ⟨[0, 1, 7, 12], 0, 0⟩ :=
  C34_small_fraction hfl lineCfg 10 10 2 ⟨1, -3, by norm_num, by norm_num, by norm_num⟩ _ (by norm_num [abs_of_pos]) wholeDraws_unit
    (by norm_num)

end CRU.Path
