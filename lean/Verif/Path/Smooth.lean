import Verif.Path.Model
import Verif.Path.Spec
import Verif.Utility.Props
/-
  C34: shortcut smoothing.
-/
namespace CRU.Path
open CRU.Util CRU.Fl

variable {C : Type}

/-! ### Edges -/

theorem edges_append (x : List C) (m : C) (y : List C) : edges (x ++ m :: y) = edges (x ++ [m]) ++ edges (m :: y) := by
  induction x with
  | nil => simp [edges]
  | cons a x ih =>
    cases x with
    | nil => simp [edges]
    | cons b x =>
      simp only [List.cons_append, edges] at ih ⊢
      rw [ih]

theorem pathLength_append (dist : C → C → ℚ) (x : List C) (m : C) (y : List C) :
    pathLength dist (x ++ m :: y) = pathLength dist (x ++ [m]) + pathLength dist (m :: y) := by
  simp [pathLength, edges_append x m y]

theorem edgesValid_append (valid : C → C → Bool) (x : List C) (m : C) (y : List C) :
    EdgesValid valid (x ++ m :: y) ↔ EdgesValid valid (x ++ [m]) ∧ EdgesValid valid (m :: y) := by
  unfold EdgesValid
  rw [edges_append]
  simp only [List.mem_append]
  constructor
  · exact fun h => ⟨fun p hp => h p (Or.inl hp), fun p hp => h p (Or.inr hp)⟩
  · rintro ⟨h1, h2⟩ p (hp | hp)
    · exact h1 p hp
    · exact h2 p hp

/-- A distance that obeys the triangle inequality and is nowhere negative. -/
structure Metric (dist : C → C → ℚ) : Prop where
  nonneg : ∀ a b, 0 ≤ dist a b
  triangle : ∀ a b c, dist a c ≤ dist a b + dist b c

theorem pathLength_nonneg {dist : C → C → ℚ} (h : Metric dist) : ∀ l : List C, 0 ≤ pathLength dist l
  | [] => by simp [pathLength, edges]
  | [a] => by simp [pathLength, edges]
  | a :: b :: l => by
    have ih := pathLength_nonneg h (b :: l)
    have := h.nonneg a b
    simp only [pathLength, edges, List.map_cons, List.sum_cons] at ih ⊢
    linarith

theorem dist_le_pathLength {dist : C → C → ℚ} (h : Metric dist) : ∀ (l : List C) (a b : C), l ≠ [] → l.getLast? = some b →
    dist a b ≤ pathLength dist (a :: l)
  | [], _, _, hn, _ => absurd rfl hn
  | [c], a, b, _, hl => by
    simp at hl; subst hl
    simp [pathLength, edges]
  | c :: d :: l, a, b, _, hl => by
    have ih := dist_le_pathLength h (d :: l) c b (by simp) (by simpa using hl)
    have := h.triangle a c b
    simp only [pathLength, edges, List.map_cons, List.sum_cons] at ih ⊢
    linarith

/-! ### Replacements for a part of a path -/

/-- `r` may replace `seg`. -/
structure Repl (cfg : Cfg C) (seg r : List C) : Prop where
  ne : r ≠ []
  ends : SameEnds seg r
  valid : (cfg.interval ≤ 0 ∨ cfg.check = true) → EdgesValid cfg.valid seg → EdgesValid cfg.valid r
  sub : cfg.interval ≤ 0 → r.Sublist seg
  len : cfg.interval ≤ 0 → Metric cfg.dist → pathLength cfg.dist r ≤ pathLength cfg.dist seg

theorem Repl.refl (cfg : Cfg C) {seg : List C} (h : seg ≠ []) : Repl cfg seg seg :=
  ⟨h, ⟨rfl, rfl⟩, fun _ h => h, fun _ => List.Sublist.refl _, fun _ _ => le_refl _⟩

theorem Repl.trans {cfg : Cfg C} {a b c : List C} (h : Repl cfg a b) (h' : Repl cfg b c) : Repl cfg a c :=
  ⟨h'.ne, ⟨h.ends.1.trans h'.ends.1, h.ends.2.trans h'.ends.2⟩, fun hh hv => h'.valid hh (h.valid hh hv),
    fun hh => (h'.sub hh).trans (h.sub hh), fun hh hm => le_trans (h'.len hh hm) (h.len hh hm)⟩

/-- Two replacements that meet in a state. -/
theorem Repl.join {cfg : Cfg C} {x y r1 r2 : List C} {m : C} (h1 : Repl cfg (x ++ [m]) r1) (h2 : Repl cfg (m :: y) r2) :
    Repl cfg (x ++ m :: y) (r1 ++ r2.drop 1) := by
  obtain ⟨r1', rfl⟩ : ∃ r1', r1 = r1' ++ [m] := by
    have := h1.ends.2
    rw [List.getLast?_concat] at this
    exact List.getLast?_eq_some_iff.mp this.symm
  obtain ⟨r2', rfl⟩ : ∃ r2', r2 = m :: r2' := by
    have := h2.ends.1
    simp only [List.head?_cons] at this
    cases r2 with
    | nil => simp at this
    | cons a r2' =>
      simp only [List.head?_cons, Option.some.injEq] at this
      exact ⟨r2', by rw [this]⟩
  have e : (r1' ++ [m]) ++ (m :: r2').drop 1 = r1' ++ m :: r2' := by simp
  rw [e]
  refine ⟨by simp, ⟨?_, ?_⟩, ?_, ?_, ?_⟩
  · have := h1.ends.1
    cases x <;> cases r1' <;> simp_all
  · have := h2.ends.2
    rw [List.getLast?_append_of_ne_nil _ (by simp), List.getLast?_append_of_ne_nil _ (by simp)]
    exact this
  · intro hh hv
    rw [edgesValid_append] at hv ⊢
    exact ⟨h1.valid hh hv.1, h2.valid hh hv.2⟩
  · intro hh
    have a1 := h1.sub hh
    have a2 := (List.cons_sublist_cons).mp (h2.sub hh)
    have : r1' ++ m :: r2' = (r1' ++ [m]) ++ r2' := by simp
    rw [this, show x ++ m :: y = (x ++ [m]) ++ y by simp]
    exact List.Sublist.append a1 a2
  · intro hh hm
    rw [pathLength_append, pathLength_append cfg.dist x]
    have := h1.len hh hm
    have := h2.len hh hm
    linarith

/-! ### Slices -/

theorem slice_split (l : List C) {s m e : Nat} (h1 : s ≤ m) (h2 : m ≤ e) : slice l s e = slice l s m ++ slice l m e := by
  unfold slice
  have : e - s = (m - s) + (e - m) := by omega
  rw [this, List.take_add, List.drop_drop]
  congr 3
  omega

theorem slice_cons {l : List C} {m e : Nat} {a : C} (hm : l[m]? = some a) (h : m < e) : slice l m e = a :: slice l (m + 1) e := by
  unfold slice
  obtain ⟨hlt, ha⟩ := List.getElem?_eq_some_iff.mp hm
  rw [List.drop_eq_getElem_cons hlt, ha]
  have : e - m = (e - (m + 1)) + 1 := by omega
  rw [this, List.take_succ_cons]

theorem slice_snoc {l : List C} {s m : Nat} {a : C} (hm : l[m]? = some a) (h : s ≤ m) : slice l s (m + 1) = slice l s m ++ [a] := by
  rw [slice_split l h (Nat.le_succ m), slice_cons hm (Nat.lt_succ_self m)]
  congr 2
  unfold slice
  simp

theorem slice_all (l : List C) : slice l 0 l.length = l := by simp [slice]

/-! ### The direct shortcut -/

theorem freeEdges_le (valid : C → C → Bool) : ∀ l : List C, freeEdges valid l ≤ l.length - 1
  | [] => by simp [freeEdges]
  | [a] => by simp [freeEdges]
  | a :: b :: l => by
    have ih := freeEdges_le valid (b :: l)
    unfold freeEdges
    split
    · simp only [List.length_cons] at ih ⊢; omega
    · simp

theorem freeEdges_all (valid : C → C → Bool) : ∀ l : List C, freeEdges valid l = l.length - 1 → EdgesValid valid l
  | [], _ => by simp [EdgesValid, edges]
  | [a], _ => by simp [EdgesValid, edges]
  | a :: b :: l, h => by
    unfold freeEdges at h
    split at h
    · next hv =>
      have ih := freeEdges_all valid (b :: l) (by simp only [List.length_cons] at h ⊢; omega)
      intro p hp
      rw [edges] at hp
      rcases List.mem_cons.mp hp with rfl | hp
      · exact hv
      · exact ih p hp
    · simp at h

theorem all_freeEdges (valid : C → C → Bool) : ∀ l : List C, EdgesValid valid l → freeEdges valid l = l.length - 1
  | [], _ => by simp [freeEdges]
  | [a], _ => by simp [freeEdges]
  | a :: b :: l, h => by
    have ih := all_freeEdges valid (b :: l) (fun p hp => h p (by rw [edges]; exact List.mem_cons_of_mem _ hp))
    have hv : valid a b = true := h (a, b) (by simp [edges])
    unfold freeEdges
    rw [if_pos hv, ih]
    simp

theorem fl_nat {fl : ℚ → ℚ} (hfl : Nearest 53 (-1074) fl) {n : Nat} (hn : n ≤ 2 ^ 53) : fl (n : ℚ) = n := by
  have := rep_int (p := 53) (emin := -1074) (i := (n : Int)) (by norm_num) (by norm_num)
    (by rw [abs_of_nonneg (by positivity)]; exact_mod_cast hn)
  have h := hfl.fix this
  exact_mod_cast h

/-- The quotient of two different numbers up to `2 ^ 52` does not round to one. -/
theorem fl_quotient_eq_one {fl : ℚ → ℚ} (hfl : Nearest 53 (-1074) fl) {a b : Nat} (hab : a ≤ b) (hb : b ≤ 2 ^ 52) (h0 : 0 < b) :
    fl ((a : ℚ) / b) = 1 ↔ a = b := by
  constructor
  · intro h
    by_contra hne
    have hlt : a + 1 ≤ b := by omega
    have hb' : (0 : ℚ) < b := by exact_mod_cast h0
    have h1 : (a : ℚ) / b ≤ 1 - 1 / 2 ^ 52 := by
      rw [div_le_iff₀ hb']
      have h2 : (a : ℚ) + 1 ≤ b := by exact_mod_cast hlt
      have h3 : (b : ℚ) ≤ 2 ^ 52 := by exact_mod_cast hb
      have h4 : (b : ℚ) / 2 ^ 52 ≤ 1 := by rw [div_le_one (by norm_num)]; exact h3
      have : (1 - 1 / 2 ^ 52) * (b : ℚ) = b - b / 2 ^ 52 := by ring
      rw [this]
      linarith
    have hrep : Rep 53 (-1074) (1 - 1 / 2 ^ 52 : ℚ) := ⟨2 ^ 52 - 1, -52, by norm_num, by norm_num, by norm_num⟩
    have := hfl.mono h1
    rw [hfl.fix hrep, h] at this
    norm_num at this
  · rintro rfl
    have hb' : (a : ℚ) ≠ 0 := by positivity
    rw [div_self hb']
    have := fl_nat hfl (n := 1) (by norm_num)
    simpa using this

theorem percentFree_iff {fl : ℚ → ℚ} (hfl : Nearest 53 (-1074) fl) (valid : C → C → Bool) {path : List C}
    (h2 : 2 ≤ path.length) (hl : path.length ≤ 2 ^ 52) : percentFree fl valid path = 1 ↔ EdgesValid valid path := by
  match path, h2 with
  | a :: b :: l, _ =>
    unfold percentFree
    have hle := freeEdges_le valid (a :: b :: l)
    have hlen : (a :: b :: l).length - 1 ≤ 2 ^ 52 := by omega
    rw [fl_nat hfl (n := freeEdges valid (a :: b :: l)) (by omega),
      fl_nat hfl (n := (a :: b :: l).length - 1) (by omega),
      fl_quotient_eq_one hfl hle hlen (by simp)]
    exact ⟨freeEdges_all valid _, all_freeEdges valid _⟩

theorem inserted_length {fl : ℚ → ℚ} {cfg : Cfg C} {a b : C} {l : List C} (h : inserted fl cfg a b = .ok l) :
    l.length ≤ 4294967295 := by
  unfold inserted at h
  split at h
  · unfold numSegments IntType.cast at h
    split at h
    · next hh =>
      simp only [Res.ok_bind, Res.pure_eq, Res.ok.injEq] at h
      rw [← h, List.length_map, List.length_range']
      have := hh.2
      simp only [u32] at this
      omega
    · cases h
  · simp only [Res.pure_eq, Res.ok.injEq] at h
    rw [← h]; simp

/-- The direct shortcut replaces any segment with the same ends. -/
theorem direct_repl {fl : ℚ → ℚ} (hfl : Nearest 53 (-1074) fl) {cfg : Cfg C} {a b : C} {r : List C}
    (h : direct fl cfg a b = .ok (some r)) (mid : List C) : Repl cfg (a :: mid ++ [b]) r := by
  unfold direct at h
  split at h
  swap
  · simp at h
  next hv =>
  rw [Res.bind_eq_ok] at h
  obtain ⟨l, hl, h⟩ := h
  have hlen := inserted_length hl
  have hval : EdgesValid cfg.valid ([a] ++ [b]) := by
    intro p hp; simp [edges] at hp; subst hp; exact hv
  have hr : r = [a] ++ l ++ [b] ∧ ((cfg.interval ≤ 0 ∨ cfg.check = true) → EdgesValid cfg.valid r) := by
    dsimp only at h
    split at h
    · next hc =>
      simp only [Res.pure_eq, Res.ok.injEq, Option.some.injEq] at h
      refine ⟨h.symm, ?_⟩
      have hl0 : l = [] → EdgesValid cfg.valid r := by
        rintro rfl
        rw [← h]; simpa using hval
      rintro (hi | hch)
      · unfold inserted at hl
        rw [if_neg (not_lt.mpr hi)] at hl
        simp at hl
        exact hl0 hl
      · rcases hc with hc | hc
        · refine hl0 ?_
          simp at hc
          exact hc
        · rw [hch] at hc; cases hc
    · split at h
      · next hp =>
        simp only [Res.pure_eq, Res.ok.injEq, Option.some.injEq] at h
        refine ⟨h.symm, fun _ => ?_⟩
        rw [← h]
        refine (percentFree_iff hfl cfg.valid (by simp) ?_).mp hp
        simp only [List.length_append, List.length_cons, List.length_nil]
        omega
      · cases h
  obtain ⟨hr, hvr⟩ := hr
  have hl0 : cfg.interval ≤ 0 → l = [] := by
    intro hi
    unfold inserted at hl
    rw [if_neg (not_lt.mpr hi)] at hl
    simpa using hl.symm
  refine ⟨by rw [hr]; simp, ⟨by rw [hr]; simp, by rw [hr, List.getLast?_append_of_ne_nil _ (by simp), List.getLast?_append_of_ne_nil _ (by simp)]⟩, fun hh _ => hvr hh, ?_, ?_⟩
  · intro hi
    rw [hr, hl0 hi]
    simp
  · intro hi hm
    rw [hr, hl0 hi]
    have := dist_le_pathLength hm (mid ++ [b]) a b (by simp) (by simp)
    simp only [List.append_nil, List.cons_append, List.nil_append]
    simpa [pathLength, edges] using this

/-! ### Attempts -/

theorem atRaw_ok {l : List C} {i : Nat} {a : C} : atRaw l i = .ok a ↔ l[i]? = some a := by
  unfold atRaw
  cases l[i]? <;> simp

theorem slice_ends {path : List C} {s e : Nat} {a b : C} (hs : path[s]? = some a) (he : path[e]? = some b) (h : s < e) :
    slice path s (e + 1) = a :: slice path (s + 1) e ++ [b] := by
  rw [slice_snoc he (by omega), slice_cons hs h]

/-- Joining the halves of a window. -/
theorem combine_repl {cfg : Cfg C} {path : List C} {s m e : Nat} {first second : List C} (h1 : s < m) (h2 : m < e)
    (he : e < path.length) (hf : first ≠ [] → Repl cfg (slice path s (m + 1)) first)
    (hs : second ≠ [] → Repl cfg (slice path m (e + 1)) second) (hne : combine path s m e first second ≠ []) :
    Repl cfg (slice path s (e + 1)) (combine path s m e first second) := by
  obtain ⟨c, hc⟩ : ∃ c, path[m]? = some c := ⟨path[m], List.getElem?_eq_getElem (by omega)⟩
  have e1 : slice path s (m + 1) = slice path s m ++ [c] := slice_snoc hc (by omega)
  have e2 : slice path m (e + 1) = c :: slice path (m + 1) (e + 1) := slice_cons hc (by omega)
  have e3 : slice path s (e + 1) = slice path s m ++ c :: slice path (m + 1) (e + 1) := by
    rw [slice_split path (show s ≤ m by omega) (show m ≤ e + 1 by omega), e2]
  rw [e1] at hf
  rw [e2] at hs
  rw [e3]
  unfold combine at hne ⊢
  split
  · next hh => exact Repl.join (hf (List.ne_nil_of_length_pos hh.1)) (hs (List.ne_nil_of_length_pos hh.2))
  · split
    · next hh =>
      have := Repl.join (hf (List.ne_nil_of_length_pos hh)) (Repl.refl cfg (seg := c :: slice path (m + 1) (e + 1)) (by simp))
      simpa using this
    · split
      · next hh =>
        have hs' := hs (List.ne_nil_of_length_pos hh)
        have := Repl.join (Repl.refl cfg (seg := slice path s m ++ [c]) (by simp)) hs'
        have hd := hs'.ends.1
        simp only [List.head?_cons] at hd
        cases second with
        | nil => simp at hh
        | cons x second =>
          simp only [List.head?_cons, Option.some.injEq] at hd
          subst hd
          simpa using this
      · next h3 h4 h5 => rw [if_neg h3, if_neg h4, if_neg h5] at hne; exact absurd rfl hne

theorem attempt_repl {fl : ℚ → ℚ} (hfl : Nearest 53 (-1074) fl) {cfg : Cfg C} {path : List C} : ∀ (steps s e : Nat) (r : List C),
    attempt fl cfg path steps s e = .ok r → r ≠ [] → Repl cfg (slice path s (e + 1)) r := by
  intro steps
  induction steps with
  | zero =>
    intro s e r h hne
    unfold attempt at h
    split at h
    · cases h
    · next hse =>
      obtain ⟨a, ha, h⟩ := Res.bind_eq_ok.mp h
      obtain ⟨b, hb, h⟩ := Res.bind_eq_ok.mp h
      obtain ⟨d, hd, h⟩ := Res.bind_eq_ok.mp h
      rw [atRaw_ok] at ha hb
      cases d with
      | none => simp at h; exact absurd h hne
      | some r' =>
        simp only [Res.pure_eq, Res.ok.injEq] at h
        subst h
        rw [slice_ends ha hb (by omega)]
        exact direct_repl hfl hd _
  | succ steps ih =>
    intro s e r h hne
    unfold attempt at h
    split at h
    · cases h
    · next hse =>
      obtain ⟨a, ha, h⟩ := Res.bind_eq_ok.mp h
      obtain ⟨b, hb, h⟩ := Res.bind_eq_ok.mp h
      obtain ⟨d, hd, h⟩ := Res.bind_eq_ok.mp h
      rw [atRaw_ok] at ha hb
      cases d with
      | some r' =>
        simp only [Res.pure_eq, Res.ok.injEq] at h
        subst h
        rw [slice_ends ha hb (by omega)]
        exact direct_repl hfl hd _
      | none =>
        dsimp only at h
        split at h
        · next hw =>
          obtain ⟨f, hf, h⟩ := Res.bind_eq_ok.mp h
          obtain ⟨g, hg, h⟩ := Res.bind_eq_ok.mp h
          simp only [Res.pure_eq, Res.ok.injEq] at h
          subst h
          have hlt := (List.getElem?_eq_some_iff.mp hb).1
          exact combine_repl (by omega) (by omega) hlt (ih _ _ _ hf) (ih _ _ _ hg) hne
        · simp at h; exact absurd h hne

/-- Putting a replacement back into the path. -/
theorem splice_repl {cfg : Cfg C} {path r : List C} {s e : Nat} (hse : s < e) (he : e < path.length)
    (h : Repl cfg (slice path s (e + 1)) r) :
    Repl cfg path (slice path 0 s ++ r ++ slice path (e + 1) path.length) := by
  obtain ⟨a, ha⟩ : ∃ a, path[s]? = some a := ⟨path[s], List.getElem?_eq_getElem (by omega)⟩
  obtain ⟨b, hb⟩ : ∃ b, path[e]? = some b := ⟨path[e], List.getElem?_eq_getElem (by omega)⟩
  have hsl := slice_ends ha hb hse
  have hpath : path = slice path 0 s ++ (a :: slice path (s + 1) e) ++ b :: slice path (e + 1) path.length := by
    conv => lhs; rw [← slice_all path, slice_split path (show 0 ≤ s by omega) (show s ≤ path.length by omega),
      slice_split path (show s ≤ e + 1 by omega) (show e + 1 ≤ path.length by omega), hsl]
    simp
  rw [hsl] at h
  have hd := h.ends.1
  cases r with
  | nil => exact absurd rfl h.ne
  | cons x r' =>
    simp only [List.cons_append, List.head?_cons, Option.some.injEq] at hd
    subst hd
    have j1 := Repl.join (x := slice path 0 s) (m := a) (Repl.refl cfg (seg := slice path 0 s ++ [a]) (by simp)) (by simpa using h)
    have j2 := Repl.join (x := slice path 0 s ++ (a :: slice path (s + 1) e)) (m := b)
      (y := slice path (e + 1) path.length) (r1 := slice path 0 s ++ (a :: r')) (by simpa using j1)
      (Repl.refl cfg (seg := b :: slice path (e + 1) path.length) (by simp))
    rw [← hpath] at j2
    simpa using j2

/-! ### The loop -/

theorem clampValue_ok {T : Type} [LinearOrder T] {v lo hi r : T} (h : clampValue v lo hi = .ok r) : lo ≤ r ∧ r ≤ hi := by
  unfold clampValue at h
  split at h
  · next hle =>
    split at h
    · simp at h; subst h; exact ⟨le_refl _, hle⟩
    · next h1 =>
      split at h
      · simp at h; subst h; exact ⟨hle, le_refl _⟩
      · next h2 => simp at h; subst h; exact ⟨not_lt.mp h1, not_lt.mp h2⟩
  · cases h

/-- A sequence of draws as `std::uniform_real_distribution` makes them: floating-point numbers in [0, 1). -/
def UnitDraws (draws : Nat → ℚ × ℚ) : Prop := ∀ k, (Rep 53 (-1074) (draws k).1 ∧ 0 ≤ (draws k).1 ∧ (draws k).1 < 1) ∧
  (Rep 53 (-1074) (draws k).2 ∧ 0 ≤ (draws k).2 ∧ (draws k).2 < 1)

theorem window_range {fl : ℚ → ℚ} (hfl : Nearest 53 (-1074) fl) {f : ℚ} {u : ℚ × ℚ} {size : Nat}
    (hu : Rep 53 (-1074) u.1 ∧ 0 ≤ u.1 ∧ u.1 < 1) (h1 : 1 ≤ size) {w : Int × Int}
    (h : window fl f u size = .ok w) : (0 ≤ w.1 ∧ w.1 < size) ∧ 0 ≤ w.2 ∧ w.2 < size := by
  unfold window at h
  obtain ⟨sz, hsz, h⟩ := Res.bind_eq_ok.mp h
  unfold IntType.cast at hsz
  split at hsz
  swap
  · cases hsz
  next hhas =>
  have h2 := hhas.2
  simp only [Res.ok.injEq] at hsz
  subst hsz
  obtain ⟨i, hi, hi0, hi1⟩ := C46_index_in_range hfl (t := i64) (by decide) hu.1 hu.2.1 hu.2.2 (size := (size : Int)) (by omega) h2
  rw [hi, Res.ok_bind] at h
  obtain ⟨off, _, h⟩ := Res.bind_eq_ok.mp h
  obtain ⟨st, _, h⟩ := Res.bind_eq_ok.mp h
  obtain ⟨idx, _, h⟩ := Res.bind_eq_ok.mp h
  obtain ⟨safe, hsafe, h⟩ := Res.bind_eq_ok.mp h
  simp only [Res.pure_eq, Res.ok.injEq] at h
  have := clampValue_ok hsafe
  rw [← h]
  exact ⟨⟨hi0, hi1⟩, this.1, by omega⟩

theorem loop_repl {fl : ℚ → ℚ} (hfl : Nearest 53 (-1074) fl) {cfg : Cfg C} {maxFailed steps : Nat} {f : ℚ}
    {draws : Nat → ℚ × ℚ} (hd : UnitDraws draws) : ∀ (n k : Nat) (r r' : Report C), r.path ≠ [] → r.failed ≤ maxFailed →
    r.failed ≤ r.attempts → loop fl cfg maxFailed steps f draws n k r = .ok r' →
    Repl cfg r.path r'.path ∧ r'.attempts ≤ r.attempts + n ∧ r'.failed ≤ maxFailed ∧ r'.failed ≤ r'.attempts := by
  intro n
  induction n with
  | zero =>
    intro k r r' hne hf hfa h
    simp [loop] at h
    subst h
    exact ⟨Repl.refl cfg hne, by omega, hf, hfa⟩
  | succ n ih =>
    intro k r r' hne hf hfa h
    unfold loop at h
    split at h
    · next hc =>
      obtain ⟨w, hw, h⟩ := Res.bind_eq_ok.mp h
      dsimp only at h
      split at h
      · obtain ⟨h1, h2, h3⟩ := ih _ _ _ hne hf hfa h
        exact ⟨h1, by omega, h3⟩
      · next hse =>
        obtain ⟨sc, hsc, h⟩ := Res.bind_eq_ok.mp h
        split at h
        · next hlen =>
          obtain ⟨⟨a1, a2⟩, a3, a4⟩ := window_range hfl (hd k).1 (by omega) hw
          have he : (max w.1 w.2).toNat < r.path.length := by omega
          have hrep := splice_repl (by omega) he (attempt_repl hfl _ _ _ _ hsc (List.ne_nil_of_length_pos hlen))
          obtain ⟨h1, h2, h3⟩ := ih _ ⟨_, r.attempts + 1, r.failed⟩ r' hrep.ne hf (by show r.failed ≤ r.attempts + 1; omega) h
          refine ⟨hrep.trans h1, ?_, h3⟩
          have : r'.attempts ≤ r.attempts + 1 + n := h2
          omega
        · obtain ⟨h1, h2, h3⟩ := ih _ _ _ (by exact hne) (by show r.failed + 1 ≤ maxFailed; omega) (by show r.failed + 1 ≤ r.attempts + 1; omega) h
          refine ⟨h1, ?_, h3⟩
          have : r'.attempts ≤ r.attempts + 1 + n := h2
          omega
    · simp at h; subst h; exact ⟨Repl.refl cfg hne, by omega, hf, hfa⟩

theorem smooth_empty {fl : ℚ → ℚ} {cfg : Cfg C} {maxIter maxFailed steps : Nat} {f : ℚ} {draws : Nat → ℚ × ℚ}
    {r : Report C} (h : smooth fl cfg maxIter maxFailed steps f draws [] = .ok r) : r = ⟨[], 0, 0⟩ := by
  unfold smooth loop at h
  split at h
  · simpa using h.symm
  · simpa using h.symm

/-! ### Theorems -/

/-- C34. For all random draws and all parameters, the smoothed path has the same first and last state as the given one; if all
edges of the given path were valid, so are all edges of the result, unless shortcuts are resampled without the marginal check; at
most `max_iterations` shortcuts are attempted and at most `max_failed_iterations` fail. -/
theorem C34_endpoints_and_validity {fl : ℚ → ℚ} (hfl : Nearest 53 (-1074) fl) (cfg : Cfg C) (maxIter maxFailed steps : Nat)
    (f : ℚ) {draws : Nat → ℚ × ℚ} (hd : UnitDraws draws) (path : List C) {r : Report C}
    (h : smooth fl cfg maxIter maxFailed steps f draws path = .ok r) :
    SameEnds path r.path ∧
    ((cfg.interval ≤ 0 ∨ cfg.check = true) → EdgesValid cfg.valid path → EdgesValid cfg.valid r.path) ∧
    r.attempts ≤ maxIter ∧ r.failed ≤ maxFailed ∧ r.failed ≤ r.attempts := by
  cases path with
  | nil =>
    rw [smooth_empty h]
    exact ⟨⟨rfl, rfl⟩, fun _ h => h, by simp, by simp, by simp⟩
  | cons a l =>
    obtain ⟨h1, h2, h3, h4⟩ := loop_repl hfl hd maxIter 0 ⟨a :: l, 0, 0⟩ r (by simp) (Nat.zero_le _) (Nat.le_refl _) h
    exact ⟨h1.ends, h1.valid, by simpa using h2, h3, h4⟩

/-- C34. Without resampling, smoothing only removes states, and the path does not get longer if the distance function obeys the
triangle inequality. -/
theorem C34_only_shortens {fl : ℚ → ℚ} (hfl : Nearest 53 (-1074) fl) (cfg : Cfg C) (hi : cfg.interval ≤ 0)
    (maxIter maxFailed steps : Nat) (f : ℚ) {draws : Nat → ℚ × ℚ} (hd : UnitDraws draws) (path : List C) {r : Report C}
    (h : smooth fl cfg maxIter maxFailed steps f draws path = .ok r) :
    r.path.Sublist path ∧ (Metric cfg.dist → pathLength cfg.dist r.path ≤ pathLength cfg.dist path) := by
  cases path with
  | nil =>
    rw [smooth_empty h]
    exact ⟨List.Sublist.refl _, fun _ => le_refl _⟩
  | cons a l =>
    obtain ⟨h1, _⟩ := loop_repl hfl hd maxIter 0 ⟨a :: l, 0, 0⟩ r (by simp) (Nat.zero_le _) (Nat.le_refl _) h
    exact ⟨h1.sub hi, h1.len hi⟩

theorem attempt_total {fl : ℚ → ℚ} {cfg : Cfg C} (hi : cfg.interval ≤ 0) {path : List C} : ∀ steps s e : Nat, s < e →
    e < path.length → ∃ r, attempt fl cfg path steps s e = .ok r := by
  have hdir : ∀ a b, ∃ d, direct fl cfg a b = .ok d := by
    intro a b
    unfold direct inserted
    rw [if_neg (not_lt.mpr hi)]
    split
    · simp
    · exact ⟨none, rfl⟩
  intro steps
  induction steps with
  | zero =>
    intro s e hse he
    unfold attempt
    rw [if_neg (by omega), atRaw_ok.mpr (List.getElem?_eq_getElem (show s < path.length by omega)),
      atRaw_ok.mpr (List.getElem?_eq_getElem he)]
    obtain ⟨d, hd⟩ := hdir path[s] path[e]
    simp only [Res.ok_bind, hd]
    cases d <;> simp
  | succ steps ih =>
    intro s e hse he
    unfold attempt
    rw [if_neg (by omega), atRaw_ok.mpr (List.getElem?_eq_getElem (show s < path.length by omega)),
      atRaw_ok.mpr (List.getElem?_eq_getElem he)]
    obtain ⟨d, hd⟩ := hdir path[s] path[e]
    simp only [Res.ok_bind, hd]
    cases d with
    | some r => simp
    | none =>
      dsimp only
      split
      · obtain ⟨r1, h1⟩ := ih s (s + (e - s) / 2) (by omega) (by omega)
        obtain ⟨r2, h2⟩ := ih (s + (e - s) / 2) e (by omega) he
        rw [h1, h2]
        simp
      · simp

theorem fl_abs_le {fl : ℚ → ℚ} (hfl : Nearest 53 (-1074) fl) {x : ℚ} {k : Nat} (hk : k ≤ 53) (hx : |x| ≤ 2 ^ k) :
    |fl x| ≤ 2 ^ k := by
  have hr : Rep 53 (-1074) ((2 : ℚ) ^ k) := by
    have := rep_int (p := 53) (emin := -1074) (i := (2 : Int) ^ k) (by norm_num) (by norm_num)
      (by rw [abs_of_nonneg (by positivity)]; exact pow_le_pow_right₀ (by norm_num) hk)
    simpa using this
  obtain ⟨h1, h2⟩ := abs_le.mp hx
  have a1 := hfl.mono h1
  have a2 := hfl.mono h2
  rw [hfl.fix hr] at a2
  rw [hfl.fix hr.neg] at a1
  exact abs_le.mpr ⟨a1, a2⟩

theorem window_total {fl : ℚ → ℚ} (hfl : Nearest 53 (-1074) fl) {f : ℚ} (hf : |f| ≤ 1) {u : ℚ × ℚ} {size : Nat}
    (hu : Rep 53 (-1074) u.1 ∧ 0 ≤ u.1 ∧ u.1 < 1) (h1 : 1 ≤ size) (h2 : size ≤ 2 ^ 51) :
    ∃ w, window fl f u size = .ok w := by
  have hsz : i64.has (size : Int) := ⟨by simp only [i64]; omega, by simp only [i64]; omega⟩
  obtain ⟨i, hi, hi0, hi1⟩ := C46_index_in_range hfl (t := i64) (by decide) hu.1 hu.2.1 hu.2.2 (size := (size : Int))
    (by omega) hsz.2
  unfold window
  rw [show i64.cast (size : Int) = .ok (size : Int) from if_pos hsz, Res.ok_bind, hi, Res.ok_bind]
  obtain ⟨r, hr⟩ : ∃ r, clampValue u.2 0 1 = .ok r := by
    unfold clampValue
    rw [if_pos (by norm_num)]
    split
    · exact ⟨_, rfl⟩
    · split <;> exact ⟨_, rfl⟩
  have hr01 := clampValue_ok hr
  unfold interpolate
  rw [hr, Res.ok_bind, Res.pure_eq, Res.ok_bind]
  have b1 : |fl (1 - r)| ≤ 2 ^ 0 := fl_abs_le hfl (by norm_num) (by rw [abs_le]; constructor <;> linarith [hr01.1, hr01.2])
  have b2 : |fl (-f * fl (1 - r))| ≤ 2 ^ 0 := fl_abs_le hfl (by norm_num) (by
    rw [abs_mul, abs_neg]
    calc |f| * |fl (1 - r)| ≤ 1 * 2 ^ 0 := mul_le_mul hf b1 (abs_nonneg _) (by norm_num)
      _ = _ := by norm_num)
  have b3 : |fl (f * r)| ≤ 2 ^ 0 := fl_abs_le hfl (by norm_num) (by
    rw [abs_mul, abs_of_nonneg hr01.1]
    calc |f| * r ≤ 1 * 1 := mul_le_mul hf hr01.2 hr01.1 (by norm_num)
      _ = _ := by norm_num)
  have b4 : |fl (fl (-f * fl (1 - r)) + fl (f * r))| ≤ 2 ^ 1 := fl_abs_le hfl (by norm_num)
    (le_trans (abs_add_le _ _) (by linarith))
  have b5 : |fl (((size : Int)) : ℚ)| ≤ 2 ^ 51 := fl_abs_le hfl (by norm_num) (by
    rw [abs_of_nonneg (by positivity)]
    exact_mod_cast h2)
  have b6 : |fl (fl (((size : Int)) : ℚ) * fl (fl (-f * fl (1 - r)) + fl (f * r)))| ≤ 2 ^ 52 := fl_abs_le hfl (by norm_num) (by
    rw [abs_mul]
    calc _ ≤ (2 : ℚ) ^ 51 * 2 ^ 1 := mul_le_mul b5 b4 (abs_nonneg _) (by norm_num)
      _ = _ := by norm_num)
  generalize fl (fl (((size : Int)) : ℚ) * fl (fl (-f * fl (1 - r)) + fl (f * r))) = x at b6
  obtain ⟨c1, c2⟩ := abs_le.mp b6
  have d1 : -(2 : Int) ^ 52 ≤ ⌊x⌋ := Int.le_floor.mpr (by push_cast; exact c1)
  have d2 : ⌊x⌋ ≤ (2 : Int) ^ 52 := by
    have : ((⌊x⌋ : Int) : ℚ) ≤ 2 ^ 52 := le_trans (Int.floor_le x) c2
    exact_mod_cast this
  norm_num at d1 d2
  have h2' : (size : Int) ≤ 2251799813685248 := by omega
  rw [show i64.cast ⌊x⌋ = .ok ⌊x⌋ from if_pos ⟨by simp only [i64]; omega, by simp only [i64]; omega⟩, Res.ok_bind,
    show i64.arith (i + ⌊x⌋) = .ok (i + ⌊x⌋) from if_pos ⟨by simp only [i64]; omega, by simp only [i64]; omega⟩, Res.ok_bind]
  unfold clampValue
  rw [if_pos (show (size : Int) - 1 ≥ 0 by omega)]
  split
  · exact ⟨_, rfl⟩
  · split <;> exact ⟨_, rfl⟩

/-- C34. Smoothing without resampling always returns: with a shortcut fraction of at most one, valid draws and a path that fits
into memory there is no exception and no undefined behaviour. -/
theorem C34_returns {fl : ℚ → ℚ} (hfl : Nearest 53 (-1074) fl) (cfg : Cfg C) (hi : cfg.interval ≤ 0)
    (maxIter maxFailed steps : Nat) {f : ℚ} (hf : |f| ≤ 1) {draws : Nat → ℚ × ℚ} (hd : UnitDraws draws) (path : List C)
    (hl : path.length ≤ 2 ^ 51) : ∃ r, smooth fl cfg maxIter maxFailed steps f draws path = .ok r := by
  have gen : ∀ (n k : Nat) (r : Report C), r.path.length ≤ 2 ^ 51 →
      ∃ r', loop fl cfg maxFailed steps f draws n k r = .ok r' := by
    intro n
    induction n with
    | zero => exact fun k r _ => ⟨r, rfl⟩
    | succ n ih =>
      intro k r hr
      unfold loop
      split
      · next hc =>
        obtain ⟨w, hw⟩ := window_total hfl hf (hd k).1 (show 1 ≤ r.path.length by omega) hr
        obtain ⟨⟨a1, a2⟩, a3, a4⟩ := window_range hfl (hd k).1 (by omega) hw
        rw [hw, Res.ok_bind]
        dsimp only
        split
        · exact ih _ _ hr
        · next hse =>
          have he : (max w.1 w.2).toNat < r.path.length := by omega
          obtain ⟨sc, hsc⟩ := attempt_total (fl := fl) (path := r.path) hi steps (min w.1 w.2).toNat (max w.1 w.2).toNat (by omega) he
          rw [hsc, Res.ok_bind]
          split
          · next hlen =>
            refine ih _ _ ?_
            have hrep := splice_repl (by omega) he (attempt_repl hfl _ _ _ _ hsc (List.ne_nil_of_length_pos hlen))
            exact Nat.le_trans (hrep.sub hi).length_le hr
          · exact ih _ _ hr
      · exact ⟨r, rfl⟩
  exact gen maxIter 0 ⟨path, 0, 0⟩ hl

/-- C34. `AttemptShortcut` without resampling: a valid direct edge is always taken; a failed attempt means that the direct edge is
invalid and, with backtracking steps left and a window that can be divided, that both halves failed as well. Bad indices throw. -/
theorem C34_attempt {fl : ℚ → ℚ} (cfg : Cfg C) (hi : cfg.interval ≤ 0) (path : List C) (steps s e : Nat) :
    (e ≤ s → attempt fl cfg path steps s e = .throw .invalidArgument) ∧
    (∀ (hse : s < e) (he : e < path.length), cfg.valid path[s] path[e] = true →
      attempt fl cfg path steps s e = .ok [path[s], path[e]]) ∧
    (∀ (hse : s < e) (he : e < path.length), attempt fl cfg path steps s e = .ok [] →
      cfg.valid path[s] path[e] = false ∧ (0 < steps → 2 ≤ e - s →
        attempt fl cfg path (steps - 1) s (s + (e - s) / 2) = .ok [] ∧
        attempt fl cfg path (steps - 1) (s + (e - s) / 2) e = .ok [])) := by
  have hyes : ∀ (hse : s < e) (he : e < path.length), cfg.valid path[s] path[e] = true →
      attempt fl cfg path steps s e = .ok [path[s], path[e]] := by
    intro hse he hv
    have hd : direct fl cfg path[s] path[e] = .ok (some [path[s], path[e]]) := by
      unfold direct inserted
      rw [if_neg (not_lt.mpr hi), if_pos hv]
      simp
    unfold attempt
    rw [if_neg (by omega), atRaw_ok.mpr (List.getElem?_eq_getElem (show s < path.length by omega)),
      atRaw_ok.mpr (List.getElem?_eq_getElem he), Res.ok_bind, Res.ok_bind, hd]
    rfl
  refine ⟨?_, hyes, ?_⟩
  · intro h
    unfold attempt
    rw [if_pos h]
  · intro hse he h
    have hv : cfg.valid path[s] path[e] = false := by
      by_contra hc
      rw [hyes hse he (by simpa using hc)] at h
      simp at h
    refine ⟨hv, ?_⟩
    intro h0 hw
    have hd : direct fl cfg path[s] path[e] = .ok none := by
      unfold direct
      rw [hv]
      simp
    unfold attempt at h
    rw [if_neg (by omega), atRaw_ok.mpr (List.getElem?_eq_getElem (show s < path.length by omega)),
      atRaw_ok.mpr (List.getElem?_eq_getElem he), Res.ok_bind, Res.ok_bind, hd, Res.ok_bind] at h
    cases steps with
    | zero => omega
    | succ steps =>
      dsimp only at h
      rw [if_pos hw] at h
      obtain ⟨a, ha, h⟩ := Res.bind_eq_ok.mp h
      obtain ⟨b, hb, h⟩ := Res.bind_eq_ok.mp h
      simp only [Res.pure_eq, Res.ok.injEq] at h
      unfold combine at h
      simp only [Nat.add_sub_cancel]
      split at h
      · next hh => rw [List.append_eq_nil_iff] at h; rw [h.1] at hh; simp at hh
      · split at h
        · next hh => rw [List.append_eq_nil_iff] at h; rw [h.1] at hh; simp at hh
        · next h1 =>
          split at h
          · next hh => rw [List.append_eq_nil_iff] at h; rw [h.2] at hh; simp at hh
          · next h2 =>
            have e1 : a = [] := List.length_eq_zero_iff.mp (by omega)
            have e2 : b = [] := List.length_eq_zero_iff.mp (by omega)
            rw [e1] at ha; rw [e2] at hb
            exact ⟨ha, hb⟩

/-- C34. `ComputePercentCollisionFree` reports 1 exactly if every edge is valid (for paths of up to 2^52 states). -/
theorem C34_percent_free {fl : ℚ → ℚ} (hfl : Nearest 53 (-1074) fl) (valid : C → C → Bool) {path : List C} (h2 : 2 ≤ path.length)
    (hl : path.length ≤ 2 ^ 52) : percentFree fl valid path = 1 ↔ EdgesValid valid path := percentFree_iff hfl valid h2 hl

theorem fl_eighth {fl : ℚ → ℚ} (hfl : Nearest 53 (-1074) fl) (k : Int) (hk : |k| < 2 ^ 53) {x : ℚ} (hx : x = k / 8) : fl x = x :=
  hfl.fix ⟨k, -3, by norm_num, hk, by rw [hx]; norm_num; ring⟩

/-- Draws that pick the whole path 0, 1, 2 of three states. -/
def wholeDraws : Nat → ℚ × ℚ := fun _ => (0, 7 / 8)

theorem wholeDraws_unit : UnitDraws wholeDraws := by
  intro k
  refine ⟨⟨⟨0, 0, by norm_num, by norm_num, by norm_num [wholeDraws]⟩, by norm_num [wholeDraws], by norm_num [wholeDraws]⟩,
    ⟨7, -3, by norm_num, by norm_num, by norm_num [wholeDraws]⟩, by norm_num [wholeDraws], by norm_num [wholeDraws]⟩

theorem wholeDraws_window {fl : ℚ → ℚ} (hfl : Nearest 53 (-1074) fl) : window fl 1 (wholeDraws 0) 3 = .ok (0, 2) := by
  have f1 : fl (1 - 7 / 8) = 1 - 7 / 8 := fl_eighth hfl 1 (by norm_num) (by norm_num)
  have f2 : fl (-1 * (1 - 7 / 8)) = -1 * (1 - 7 / 8) := fl_eighth hfl (-1) (by norm_num) (by norm_num)
  have f3 : fl (1 * (7 / 8)) = 1 * (7 / 8) := fl_eighth hfl 7 (by norm_num) (by norm_num)
  have f4 : fl (-1 * (1 - 7 / 8) + 1 * (7 / 8)) = 3 / 4 := by
    rw [fl_eighth hfl 6 (by norm_num) (by norm_num)]; norm_num
  have f5 : fl (3 : ℚ) = 3 := fl_eighth hfl 24 (by norm_num) (by norm_num)
  have f6 : fl (3 * (3 / 4) : ℚ) = 9 / 4 := by rw [fl_eighth hfl 18 (by norm_num) (by norm_num)]; norm_num
  have f7 : fl (0 * 3 : ℚ) = 0 := by rw [fl_eighth hfl 0 (by norm_num) (by norm_num)]; norm_num
  have g1 : ⌊(9 / 4 : ℚ)⌋ = 2 := by norm_num
  have hr : randomIndex fl i64 0 3 = .ok 0 := by
    unfold randomIndex
    rw [if_neg (by norm_num)]
    push_cast
    rw [f5, f7]
    simp [IntType.cast, IntType.has, i64]
  have hi : interpolate fl (-1) 1 (7 / 8) = .ok (3 / 4) := by
    have hc : clampValue (7 / 8 : ℚ) 0 1 = .ok (7 / 8) := by
      unfold clampValue
      rw [if_pos (by norm_num), if_neg (by norm_num), if_neg (by norm_num)]
    unfold interpolate
    rw [hc, Res.ok_bind, f1, f2, f3, f4]
    rfl
  have hsz : i64.cast (((3 : Nat)) : Int) = .ok 3 := rfl
  unfold window wholeDraws
  rw [hsz, Res.ok_bind]
  dsimp only
  rw [hr, Res.ok_bind, hi, Res.ok_bind]
  push_cast
  rw [f5, f6, g1]
  rfl

/-- A planner's world in which state 9 is in collision, and interpolation goes through it. -/
def badCfg : Cfg Nat where
  interval := 1
  check := false
  valid a b := a != 9 && b != 9
  dist _ _ := 2
  interp _ _ _ := 9

/-- The condition in `C34_endpoints_and_validity` is needed: with resampled shortcuts and no marginal check, a valid path can
become invalid. -/
theorem C34_resampled_unchecked {fl : ℚ → ℚ} (hfl : Nearest 53 (-1074) fl) : UnitDraws wholeDraws ∧
    EdgesValid badCfg.valid [0, 1, 2] ∧
    smooth fl badCfg 1 1 0 1 wholeDraws [0, 1, 2] = .ok ⟨[0, 9, 2], 1, 0⟩ ∧ ¬ EdgesValid badCfg.valid [0, 9, 2] := by
  have f1 : fl (2 / 1 : ℚ) = 2 := by rw [fl_eighth hfl 16 (by norm_num) (by norm_num)]; norm_num
  have hins : inserted fl badCfg 0 2 = .ok [9] := by
    unfold inserted numSegments
    rw [if_pos (by norm_num [badCfg])]
    simp only [badCfg, f1]
    have : ⌈(2 : ℚ)⌉ = 2 := by norm_num
    rw [this]
    rfl
  refine ⟨wholeDraws_unit, ?_, ?_, ?_⟩
  · intro p hp
    simp [edges] at hp
    rcases hp with rfl | rfl <;> rfl
  · unfold smooth loop
    rw [if_pos (by simp)]
    simp only [List.length_cons, List.length_nil, Nat.zero_add, Nat.reduceAdd]
    rw [wholeDraws_window hfl, Res.ok_bind]
    have hd : direct fl badCfg 0 2 = .ok (some [0, 9, 2]) := by
      unfold direct
      rw [hins]
      rfl
    have ha : attempt fl badCfg [0, 1, 2] 0 0 2 = .ok [0, 9, 2] := by
      unfold attempt
      simp only [atRaw, List.getElem?_cons_zero, List.getElem?_cons_succ, Res.ok_bind, hd]
      rfl
    have hm1 : (min (0 : Int) 2).toNat = 0 := rfl
    have hm2 : (max (0 : Int) 2).toNat = 2 := rfl
    simp only [hm1, hm2, ha, Res.ok_bind]
    rfl
  · intro h
    have := h (0, 9) (by simp [edges])
    simp [badCfg] at this

/-- Non-vacuity: the same world without resampling; the run exists, and by the theorems above it keeps the ends. -/
example {fl : ℚ → ℚ} (hfl : Nearest 53 (-1074) fl) :
    ∃ r, smooth fl { badCfg with interval := 0 } 5 5 2 1 wholeDraws [0, 1, 2] = .ok r ∧ r.path.head? = some 0 ∧
      r.path.getLast? = some 2 ∧ EdgesValid badCfg.valid r.path := by
  obtain ⟨r, hr⟩ := C34_returns hfl { badCfg with interval := 0 } (le_refl _) 5 5 2 (by norm_num : |(1 : ℚ)| ≤ 1)
    wholeDraws_unit [0, 1, 2] (by norm_num)
  obtain ⟨h1, h2, _⟩ := C34_endpoints_and_validity hfl _ 5 5 2 1 wholeDraws_unit [0, 1, 2] hr
  exact ⟨r, hr, h1.1.symm, h1.2.symm, h2 (Or.inl (le_refl _)) (C34_resampled_unchecked hfl).2.1⟩

end CRU.Path
