import Verif.Path.Smooth
/-
  C35: resampling a path.
-/
namespace CRU.Path
open CRU.Util CRU.Fl

variable {C : Type}

/-! ### One segment -/

theorem numSegments_ok {fl : ℚ → ℚ} {x d : ℚ} {n : Nat} (h : numSegments fl x d = .ok n) : ((n : Int)) = ⌈fl (x / d)⌉ := by
  unfold numSegments IntType.cast at h
  split at h
  · next hh =>
    simp only [Res.ok_bind, Res.pure_eq, Res.ok.injEq] at h
    have := hh.1
    simp only [u32] at this
    omega
  · cases h

/-- The states added for the segment from `a` to `b`: `n` of them, evenly spread, the last one standing for `b`. -/
structure Block (fl : ℚ → ℚ) (dist : C → C → ℚ) (interp : C → C → ℚ → C) (d : ℚ) (a b : C) (blk : List C) : Prop where
  count : ((blk.length : Nat) : Int) = ⌈fl (dist a b / d)⌉
  one : blk.length = 1 → blk = [b]
  many : 2 ≤ blk.length → ∀ k (h : k < blk.length), blk[k] = interp a b (fl (((k + 1 : Nat) : ℚ) / (blk.length : ℚ)))

theorem segment_block {fl : ℚ → ℚ} {dist : C → C → ℚ} {interp : C → C → ℚ → C} {d : ℚ} {a b : C} {blk : List C}
    (h : segment fl dist interp d a b = .ok blk) : Block fl dist interp d a b blk := by
  unfold segment at h
  obtain ⟨n, hn, h⟩ := Res.bind_eq_ok.mp h
  have hc := numSegments_ok hn
  split at h
  · simp only [Res.pure_eq, Res.ok.injEq] at h
    subst h
    exact ⟨by rw [← hc]; simp_all, by simp, by simp⟩
  · split at h
    · simp only [Res.pure_eq, Res.ok.injEq] at h
      subst h
      exact ⟨by rw [← hc]; simp_all, by simp, by simp⟩
    · simp only [Res.pure_eq, Res.ok.injEq] at h
      subst h
      refine ⟨by rw [← hc]; simp, ?_, ?_⟩
      · intro h1; simp at h1; omega
      · intro _ k hk
        simp only [List.getElem_map, List.getElem_range', List.length_map, List.length_range']
        congr 4
        omega

/-- The result, block by block. -/
theorem resampleFrom_blocks {fl : ℚ → ℚ} {dist : C → C → ℚ} {interp : C → C → ℚ → C} {d : ℚ} : ∀ (l : List C) (a : C)
    (acc q : List C), resampleFrom fl dist interp d a l acc = .ok q →
    ∃ blocks : List (List C), q = acc ++ blocks.flatten ∧
      List.Forall₂ (fun e blk => Block fl dist interp d e.1 e.2 blk) (edges (a :: l)) blocks := by
  intro l
  induction l with
  | nil =>
    intro a acc q h
    simp [resampleFrom] at h
    exact ⟨[], by simp [h], by simp [edges]⟩
  | cons b l ih =>
    intro a acc q h
    unfold resampleFrom at h
    obtain ⟨s, hs, h⟩ := Res.bind_eq_ok.mp h
    obtain ⟨blocks, hq, hb⟩ := ih b _ _ h
    refine ⟨s :: blocks, by rw [hq]; simp, ?_⟩
    rw [edges]
    exact List.Forall₂.cons (segment_block hs) hb

theorem resample_cons (fl : ℚ → ℚ) (dist : C → C → ℚ) (interp : C → C → ℚ → C) (d : ℚ) (a b : C) (l : List C) :
    resample fl dist interp d (a :: b :: l) =
      if d ≤ 0 then .throw .invalidArgument else resampleFrom fl dist interp d a (b :: l) [a] := rfl

/-! ### Theorems -/

/-- C35. Paths of at most one state are returned as they are; a resolution that is not positive throws for all others. -/
theorem C35_short_and_rejected (fl : ℚ → ℚ) (dist : C → C → ℚ) (interp : C → C → ℚ → C) (d : ℚ) (path : List C) :
    (path.length ≤ 1 → resample fl dist interp d path = .ok path) ∧
    (2 ≤ path.length → d ≤ 0 → resample fl dist interp d path = .throw .invalidArgument) := by
  constructor
  · intro h
    match path with
    | [] => rfl
    | [a] => rfl
  · intro h hd
    match path with
    | a :: b :: l => rw [resample_cons, if_pos hd]

/-- C35. The result is the first state followed by one block per segment of the path, of `ceil(distance / resolution)` states. -/
theorem C35_structure {fl : ℚ → ℚ} {dist : C → C → ℚ} {interp : C → C → ℚ → C} {d : ℚ} {path q : List C}
    (hl : 2 ≤ path.length) (h : resample fl dist interp d path = .ok q) :
    0 < d ∧ ∃ (a : C) (blocks : List (List C)), path.head? = some a ∧ q = a :: blocks.flatten ∧
      List.Forall₂ (fun e blk => Block fl dist interp d e.1 e.2 blk) (edges path) blocks := by
  match path with
  | a :: b :: l =>
    rw [resample_cons] at h
    split at h
    · cases h
    · next hd =>
      obtain ⟨blocks, h1, h2⟩ := resampleFrom_blocks _ _ _ _ h
      exact ⟨not_le.mp hd, a, blocks, rfl, h1, h2⟩

theorem fl_one {fl : ℚ → ℚ} (hfl : Nearest 53 (-1074) fl) : fl 1 = 1 := by
  have := fl_nat hfl (n := 1) (by norm_num)
  simpa using this

theorem fl_zero {fl : ℚ → ℚ} (hfl : Nearest 53 (-1074) fl) : fl 0 = 0 := by
  have := fl_nat hfl (n := 0) (by norm_num)
  simpa using this

theorem ratio_unit {fl : ℚ → ℚ} (hfl : Nearest 53 (-1074) fl) {k n : Nat} (hk : k < n) :
    0 ≤ fl (((k + 1 : Nat) : ℚ) / (n : ℚ)) ∧ fl (((k + 1 : Nat) : ℚ) / (n : ℚ)) ≤ 1 := by
  have hn : (0 : ℚ) < n := by exact_mod_cast (by omega : 0 < n)
  constructor
  · rw [← fl_zero hfl]; exact hfl.mono (by positivity)
  · rw [← fl_one hfl]
    refine hfl.mono ?_
    rw [div_le_one hn]
    exact_mod_cast hk

/-- C35. Every state of the result is a state of the path or an interpolation, with a ratio in [0, 1], between two consecutive
ones. -/
theorem C35_only_between {fl : ℚ → ℚ} (hfl : Nearest 53 (-1074) fl) {dist : C → C → ℚ} {interp : C → C → ℚ → C} {d : ℚ}
    {path q : List C} (h : resample fl dist interp d path = .ok q) :
    ∀ x ∈ q, x ∈ path ∨ ∃ e ∈ edges path, ∃ t, 0 ≤ t ∧ t ≤ 1 ∧ x = interp e.1 e.2 t := by
  intro x hx
  match path with
  | [] => unfold resample at h; simp at h; subst h; exact absurd hx (by simp)
  | [a] => unfold resample at h; simp at h; subst h; exact Or.inl hx
  | a :: b :: l =>
    obtain ⟨_, a', blocks, ha, rfl, hb⟩ := C35_structure (by simp) h
    simp at ha
    subst ha
    rcases List.mem_cons.mp hx with rfl | hx
    · simp
    obtain ⟨blk, hblk, hx⟩ := List.mem_flatten.mp hx
    obtain ⟨i, hi, rfl⟩ := List.mem_iff_getElem.mp hblk
    have hlen := hb.length_eq
    have hB := List.Forall₂.get hb (i := i) (by omega) hi
    simp only [List.get_eq_getElem] at hB
    have hmem : (edges (a :: b :: l))[i] ∈ edges (a :: b :: l) := List.getElem_mem _
    rcases Nat.lt_or_ge (blocks[i]).length 2 with hlt | hge
    · have h1 : (blocks[i]).length = 1 := by
        have := List.length_pos_of_mem hx
        omega
      rw [hB.one h1] at hx
      simp at hx
      left
      rw [hx]
      have : ∀ (l : List C) e, e ∈ edges l → e.1 ∈ l ∧ e.2 ∈ l := by
        intro l
        induction l with
        | nil => intro e he; simp [edges] at he
        | cons a l ih =>
          cases l with
          | nil => intro e he; simp [edges] at he
          | cons b l =>
            intro e he
            rw [edges] at he
            rcases List.mem_cons.mp he with rfl | he
            · simp
            · have := ih e he
              exact ⟨List.mem_cons_of_mem _ this.1, List.mem_cons_of_mem _ this.2⟩
      exact (this _ _ hmem).2
    · obtain ⟨k, hk, rfl⟩ := List.mem_iff_getElem.mp hx
      right
      obtain ⟨r0, r1⟩ := ratio_unit hfl hk
      exact ⟨_, hmem, _, r0, r1, hB.many hge k hk⟩

/-- What the claims about distances need of the two callbacks: the interpolation starts and ends in the given states and moves at
most in proportion to the ratio; distances are not negative. -/
structure Faithful (dist : C → C → ℚ) (interp : C → C → ℚ → C) : Prop where
  zero : ∀ a b, interp a b 0 = a
  one : ∀ a b, interp a b 1 = b
  lip : ∀ a b s t, dist (interp a b s) (interp a b t) ≤ |t - s| * dist a b
  nonneg : ∀ a b, 0 ≤ dist a b

/-- Consecutive different states of the path are far enough apart for their distance not to vanish when divided by the
resolution. -/
def Apart (dist : C → C → ℚ) (d : ℚ) (path : List C) : Prop :=
  ∀ e ∈ edges path, e.1 ≠ e.2 → (2 : ℚ) ^ (-1074 : Int) * d ≤ dist e.1 e.2

/-- Largest distance between neighbours in the part of the result that belongs to a segment of length `x`. -/
def spacing (d x : ℚ) : ℚ := d * (1 + 1 / 2 ^ 52) + x / 2 ^ 53

theorem count_pos {fl : ℚ → ℚ} (hfl : Nearest 53 (-1074) fl) {dist : C → C → ℚ} {interp : C → C → ℚ → C} {d : ℚ} (hd : 0 < d)
    {a b : C} (hap : a ≠ b → (2 : ℚ) ^ (-1074 : Int) * d ≤ dist a b) {blk : List C} (hB : Block fl dist interp d a b blk)
    (hab : a ≠ b) :
    1 ≤ blk.length := by
  have h1 : (2 : ℚ) ^ (-1074 : Int) ≤ dist a b / d := by rw [le_div_iff₀ hd]; exact hap hab
  have hr : Rep 53 (-1074) ((2 : ℚ) ^ (-1074 : Int)) := ⟨1, -1074, by norm_num, by norm_num, by simp⟩
  have h2 := hfl.mono h1
  rw [hfl.fix hr] at h2
  have h3 : 0 < ⌈fl (dist a b / d)⌉ := Int.ceil_pos.mpr (lt_of_lt_of_le (two_zpow_pos _) h2)
  rw [← hB.count] at h3
  omega

/-- The number of pieces is large enough. -/
theorem piece_le {fl : ℚ → ℚ} (hfl : Nearest 53 (-1074) fl) {x d : ℚ} (hd : 0 < d) (hx : 0 ≤ x) {n : Nat} (hn : 1 ≤ n)
    (hc : ((n : Int)) = ⌈fl (x / d)⌉) : x / n ≤ d * (1 + 1 / 2 ^ 52) := by
  have hn' : (0 : ℚ) < n := by exact_mod_cast hn
  have hq0 : 0 ≤ x / d := div_nonneg hx hd.le
  have hxd : x = x / d * d := by field_simp
  have hle : fl (x / d) ≤ n := by
    have := Int.le_ceil (fl (x / d))
    rw [← hc] at this
    exact_mod_cast this
  rw [div_le_iff₀ hn', hxd]
  rcases le_or_gt ((2 : ℚ) ^ ((-1074 : Int) + (53 : Nat) - 1)) (x / d) with hbig | hsmall
  · have hrel := hfl.rel_err (by norm_num) (x := x / d) (by rw [abs_of_nonneg hq0]; exact hbig)
    rw [abs_of_nonneg hq0] at hrel
    have h1 := (abs_le.mp hrel).1
    norm_num at h1
    have h2 : x / d * (1 - 1 / 9007199254740992) ≤ n := by linarith
    have h3 : x / d ≤ (1 + 1 / 2 ^ 52) * n := by norm_num; linarith
    calc x / d * d ≤ (1 + 1 / 2 ^ 52) * n * d := mul_le_mul_of_nonneg_right h3 hd.le
      _ = _ := by ring
  · have h1 : x / d ≤ 1 := by
      refine le_trans hsmall.le ?_
      rw [show (1 : ℚ) = 2 ^ (0 : Int) by simp]
      exact zpow_le_zpow_right₀ (by norm_num) (by norm_num)
    have h2 : (1 : ℚ) ≤ n := by exact_mod_cast hn
    have h3 : x / d ≤ (1 + 1 / 2 ^ 52) * n := by
      calc x / d ≤ 1 := h1
        _ ≤ 1 * n := by linarith
        _ ≤ _ := mul_le_mul_of_nonneg_right (by norm_num) hn'.le
    calc x / d * d ≤ (1 + 1 / 2 ^ 52) * n * d := mul_le_mul_of_nonneg_right h3 hd.le
      _ = _ := by ring

theorem edges_getElem : ∀ (l : List C) e, e ∈ edges l → ∃ k, ∃ h : k + 1 < l.length, e = (l[k], l[k + 1]) := by
  intro l
  induction l with
  | nil => intro e he; simp [edges] at he
  | cons a l ih =>
    cases l with
    | nil => intro e he; simp [edges] at he
    | cons b l =>
      intro e he
      rw [edges] at he
      rcases List.mem_cons.mp he with rfl | he
      · exact ⟨0, by simp, rfl⟩
      · obtain ⟨k, hk, rfl⟩ := ih e he
        exact ⟨k + 1, by simp at hk ⊢; omega, rfl⟩

/-- One block continues the path: it ends in `b` and its steps are short. -/
theorem block_steps {fl : ℚ → ℚ} (hfl : Nearest 53 (-1074) fl) {dist : C → C → ℚ} {interp : C → C → ℚ → C} {d : ℚ} (hd : 0 < d)
    (hF : Faithful dist interp) {a b : C} (hap : a ≠ b → (2 : ℚ) ^ (-1074 : Int) * d ≤ dist a b) {blk : List C}
    (hB : Block fl dist interp d a b blk) :
    (a :: blk).getLast? = some b ∧ (a ≠ b → b ∈ blk) ∧ ∀ e ∈ edges (a :: blk), dist e.1 e.2 ≤ spacing d (dist a b) := by
  have hx := hF.nonneg a b
  rcases Nat.lt_or_ge blk.length 1 with h0 | h1
  · have hnil : blk = [] := List.length_eq_zero_iff.mp (by omega)
    have hab : a = b := by
      by_contra hne
      have := count_pos hfl hd hap hB hne
      omega
    subst hnil
    exact ⟨by simp [hab], fun h => absurd hab h, by simp [edges]⟩
  have hp := piece_le hfl hd hx h1 hB.count
  rcases Nat.lt_or_ge blk.length 2 with h2 | h2
  · have hone := hB.one (by omega)
    have hlen : blk.length = 1 := by omega
    rw [hlen] at hp
    rw [hone]
    refine ⟨by simp, by simp, ?_⟩
    intro e he
    simp [edges] at he
    subst he
    have : 0 ≤ dist a b / 2 ^ 53 := by positivity
    unfold spacing
    simp at hp ⊢
    linarith
  · have hmany := hB.many h2
    have hnpos : (0 : ℚ) < blk.length := by exact_mod_cast h1
    have hlast : blk.getLast? = some b := by
      rw [List.getLast?_eq_getElem?, List.getElem?_eq_getElem (by omega), hmany (blk.length - 1) (by omega)]
      rw [show blk.length - 1 + 1 = blk.length by omega, div_self (ne_of_gt hnpos), fl_one hfl, hF.one]
    refine ⟨by rw [List.getLast?_cons, hlast]; rfl, fun _ => List.mem_of_getLast? hlast, ?_⟩
    -- every state of a :: blk is an interpolation
    have hstate : ∀ k (h : k < (a :: blk).length), (a :: blk)[k] = interp a b (fl ((k : ℚ) / (blk.length : ℚ))) := by
      intro k hk
      cases k with
      | zero => simp [fl_zero hfl, hF.zero]
      | succ k =>
        simp only [List.getElem_cons_succ]
        rw [hmany k (by simpa using hk)]
    intro e he
    obtain ⟨k, hk, rfl⟩ := edges_getElem _ _ he
    rw [hstate k (by omega), hstate (k + 1) hk]
    refine le_trans (hF.lip a b _ _) ?_
    simp only [List.length_cons] at hk
    have hk' : (k : ℚ) + 1 ≤ blk.length := by exact_mod_cast (by omega : k + 1 ≤ blk.length)
    have hk0 : (0 : ℚ) ≤ k := by positivity
    have u1 := hfl.unit_err (by norm_num) (by norm_num) (x := (k : ℚ) / (blk.length : ℚ))
      (by rw [abs_of_nonneg (by positivity), div_le_one hnpos]; linarith)
    have u2 := hfl.unit_err (by norm_num) (by norm_num) (x := ((k + 1 : Nat) : ℚ) / (blk.length : ℚ))
      (by rw [abs_of_nonneg (by positivity), div_le_one hnpos]; push_cast; exact hk')
    have hdiff : ((k + 1 : Nat) : ℚ) / (blk.length : ℚ) - (k : ℚ) / (blk.length : ℚ) = 1 / blk.length := by
      push_cast; field_simp; ring
    have habs : |fl (((k + 1 : Nat) : ℚ) / (blk.length : ℚ)) - fl ((k : ℚ) / (blk.length : ℚ))| ≤ 1 / blk.length + 1 / 2 ^ 53 := by
      norm_num at u1 u2 ⊢
      rw [abs_le] at u1 u2 ⊢
      push_cast at u2 hdiff ⊢
      have hpos : (0 : ℚ) ≤ (blk.length : ℚ)⁻¹ := by positivity
      norm_num at hdiff
      constructor <;> linarith [u1.1, u1.2, u2.1, u2.2]
    calc _ ≤ (1 / blk.length + 1 / 2 ^ 53) * dist a b := mul_le_mul_of_nonneg_right habs hx
      _ = dist a b / blk.length + dist a b / 2 ^ 53 := by ring
      _ ≤ _ := by unfold spacing; linarith

theorem blocks_steps {fl : ℚ → ℚ} (hfl : Nearest 53 (-1074) fl) {dist : C → C → ℚ} {interp : C → C → ℚ → C} {d : ℚ} (hd : 0 < d)
    (hF : Faithful dist interp) : ∀ (l : List C) (a : C) (blocks : List (List C)), Apart dist d (a :: l) →
    List.Forall₂ (fun e blk => Block fl dist interp d e.1 e.2 blk) (edges (a :: l)) blocks →
    (a :: blocks.flatten).getLast? = (a :: l).getLast? ∧ (∀ x ∈ a :: l, x ∈ a :: blocks.flatten) ∧
    ∀ e ∈ edges (a :: blocks.flatten), ∃ s ∈ edges (a :: l), dist e.1 e.2 ≤ spacing d (dist s.1 s.2) := by
  intro l
  induction l with
  | nil =>
    intro a blocks hap h
    simp [edges] at h
    subst h
    simp [edges]
  | cons b l ih =>
    intro a blocks hap h
    rw [edges] at h
    cases h with
    | cons hB hrest =>
      rename_i blk blocks
      obtain ⟨i1, i2, i3⟩ := ih b blocks (fun e he => hap e (by rw [edges]; exact List.mem_cons_of_mem _ he)) hrest
      obtain ⟨b1, b2, b3⟩ := block_steps hfl hd hF (hap (a, b) (by rw [edges]; simp)) hB
      obtain ⟨pre, hpre⟩ : ∃ pre, a :: blk = pre ++ [b] := List.getLast?_eq_some_iff.mp b1
      have e0 : a :: (blk :: blocks).flatten = pre ++ b :: blocks.flatten := by
        rw [List.flatten_cons, ← List.cons_append, hpre]
        simp
      rw [e0]
      refine ⟨?_, ?_, ?_⟩
      · rw [List.getLast?_append_of_ne_nil _ (by simp), i1, List.getLast?_cons_cons]
      · intro x hx
        rcases List.mem_cons.mp hx with rfl | hx
        · rw [← e0]; simp
        · exact List.mem_append_right _ (i2 x hx)
      · intro e he
        rw [edges_append] at he
        rcases List.mem_append.mp he with he | he
        · rw [← hpre] at he
          exact ⟨(a, b), by rw [edges]; simp, b3 e he⟩
        · obtain ⟨s, hs, hle⟩ := i3 e he
          exact ⟨s, by rw [edges]; exact List.mem_cons_of_mem _ hs, hle⟩

/-- C35. With a faithful interpolation and consecutive states apart, resampling keeps every state of the path and both ends. -/
theorem C35_keeps_states {fl : ℚ → ℚ} (hfl : Nearest 53 (-1074) fl) {dist : C → C → ℚ} {interp : C → C → ℚ → C} {d : ℚ}
    (hF : Faithful dist interp) {path q : List C} (hap : Apart dist d path) (h : resample fl dist interp d path = .ok q) :
    SameEnds path q ∧ ∀ x ∈ path, x ∈ q := by
  match path with
  | [] => unfold resample at h; simp at h; subst h; exact ⟨⟨rfl, rfl⟩, fun _ h => h⟩
  | [a] => unfold resample at h; simp at h; subst h; exact ⟨⟨rfl, rfl⟩, fun _ h => h⟩
  | a :: b :: l =>
    obtain ⟨hd, a', blocks, ha, rfl, hb⟩ := C35_structure (by simp) h
    simp at ha
    subst ha
    obtain ⟨h1, h2, _⟩ := blocks_steps hfl hd hF _ _ _ hap hb
    exact ⟨⟨rfl, h1.symm⟩, h2⟩

/-- C35. With a faithful interpolation and consecutive states apart, neighbours in the resampled path are no further apart than the resolution, up to rounding
of the quotients: at most the fraction 2^-52 of the resolution and 2^-53 of the length of the segment they lie on. -/
theorem C35_spacing {fl : ℚ → ℚ} (hfl : Nearest 53 (-1074) fl) {dist : C → C → ℚ} {interp : C → C → ℚ → C} {d : ℚ}
    (hF : Faithful dist interp) {path q : List C} (hap : Apart dist d path) (h : resample fl dist interp d path = .ok q) :
    ∀ e ∈ edges q, ∃ s ∈ edges path, dist e.1 e.2 ≤ d * (1 + 1 / 2 ^ 52) + dist s.1 s.2 / 2 ^ 53 := by
  match path with
  | [] => unfold resample at h; simp at h; subst h; simp [edges]
  | [a] => unfold resample at h; simp at h; subst h; simp [edges]
  | a :: b :: l =>
    obtain ⟨hd, a', blocks, ha, rfl, hb⟩ := C35_structure (by simp) h
    simp at ha
    subst ha
    exact (blocks_steps hfl hd hF _ _ _ hap hb).2.2

/-- C35. Resampling returns whenever no segment is longer than 2^31 times the resolution (from about 2^32 times on, the conversion
to `uint32_t` is undefined: second part). -/
theorem C35_returns {fl : ℚ → ℚ} (hfl : Nearest 53 (-1074) fl) {dist : C → C → ℚ} {interp : C → C → ℚ → C} {d : ℚ} (hd : 0 < d)
    (hnn : ∀ a b, 0 ≤ dist a b) (path : List C) :
    ((∀ e ∈ edges path, dist e.1 e.2 ≤ 2 ^ 31 * d) → ∃ q, resample fl dist interp d path = .ok q) ∧
    (∀ a b, 2 ^ 32 * d ≤ dist a b → resample fl dist interp d [a, b] = .ub) := by
  constructor
  · intro hall
    have gen : ∀ (l : List C) (a : C) (acc : List C), (∀ e ∈ edges (a :: l), dist e.1 e.2 ≤ 2 ^ 31 * d) →
        ∃ q, resampleFrom fl dist interp d a l acc = .ok q := by
      intro l
      induction l with
      | nil => exact fun a acc _ => ⟨acc, rfl⟩
      | cons b l ih =>
        intro a acc h
        have h1 := h (a, b) (by rw [edges]; simp)
        have hx1 : dist a b / d ≤ 2 ^ 31 := by rw [div_le_iff₀ hd]; exact h1
        have hx0 : 0 ≤ dist a b / d := div_nonneg (hnn a b) hd.le
        have f1 := fl_abs_le hfl (x := dist a b / d) (k := 31) (by norm_num) (by rw [abs_of_nonneg hx0]; exact hx1)
        have f0 : 0 ≤ fl (dist a b / d) := by rw [← fl_zero hfl]; exact hfl.mono hx0
        have c1 : ⌈fl (dist a b / d)⌉ ≤ 2147483648 := by
          refine Int.ceil_le.mpr ?_
          rw [abs_of_nonneg f0] at f1
          norm_num at f1 ⊢
          exact f1
        have c0 : 0 ≤ ⌈fl (dist a b / d)⌉ := Int.ceil_nonneg f0
        obtain ⟨s, hs⟩ : ∃ s, segment fl dist interp d a b = .ok s := by
          unfold segment numSegments
          rw [show u32.cast ⌈fl (dist a b / d)⌉ = .ok _ from if_pos ⟨by simp only [u32]; exact c0, by simp only [u32]; omega⟩]
          simp only [Res.ok_bind, Res.pure_eq]
          split
          · exact ⟨_, rfl⟩
          · split <;> exact ⟨_, rfl⟩
        unfold resampleFrom
        rw [hs, Res.ok_bind]
        exact ih b _ (fun e he => h e (by rw [edges]; exact List.mem_cons_of_mem _ he))
    match path with
    | [] => exact ⟨_, rfl⟩
    | [a] => exact ⟨_, rfl⟩
    | a :: b :: l =>
      rw [resample_cons, if_neg (not_le.mpr hd)]
      exact gen _ _ _ hall
  · intro a b h
    have hx : (2 : ℚ) ^ 32 ≤ dist a b / d := by rw [le_div_iff₀ hd]; exact h
    have hr : Rep 53 (-1074) ((2 : ℚ) ^ 32) := ⟨1, 32, by norm_num, by norm_num, by norm_num⟩
    have h1 := hfl.mono hx
    rw [hfl.fix hr] at h1
    have h2 : (4294967296 : Int) ≤ ⌈fl (dist a b / d)⌉ := by
      have : ((4294967296 : Int) : ℚ) ≤ ⌈fl (dist a b / d)⌉ := le_trans (by norm_num at h1 ⊢; exact h1) (Int.le_ceil _)
      exact_mod_cast this
    have h3 : ¬ u32.has ⌈fl (dist a b / d)⌉ := fun hh => by
      have := hh.2
      simp only [u32] at this
      omega
    rw [resample_cons, if_neg (not_le.mpr hd)]
    unfold resampleFrom segment numSegments
    rw [show u32.cast ⌈fl (dist a b / d)⌉ = .ub from if_neg h3]
    rfl

/-- The condition `Apart` is needed: a distance so small that its quotient by the resolution underflows makes the code
drop the last state of the path, although the two states differ (the comment in the code says that the distance is then exactly
0). -/
theorem C35_underflow_drops {fl : ℚ → ℚ} (hfl : Nearest 53 (-1074) fl) (interp : Nat → Nat → ℚ → Nat) :
    resample fl (fun a b => if a = b then 0 else (2 : ℚ) ^ (-1074 : Int)) interp 4 [0, 1] = .ok [0] := by
  have hx : fl ((2 : ℚ) ^ (-1074 : Int) / 4) = 0 := by
    refine hfl.underflow (by norm_num) ?_
    rw [abs_of_pos (div_pos (two_zpow_pos _) (by norm_num))]
    have := two_zpow_pos (-1074)
    linarith
  rw [resample_cons, if_neg (by norm_num)]
  unfold resampleFrom segment numSegments
  simp only [zero_ne_one, if_false, hx, Int.ceil_zero]
  rfl

/-- Points on a line: a faithful interpolation. -/
def lineDist (a b : ℚ) : ℚ := |b - a|
/-- Points on a line: a faithful interpolation. -/
def lineInterp (a b t : ℚ) : ℚ := a + t * (b - a)

theorem line_faithful : Faithful lineDist lineInterp := by
  refine ⟨fun a b => by simp [lineInterp], fun a b => by simp [lineInterp], fun a b s t => ?_, fun a b => abs_nonneg _⟩
  unfold lineDist lineInterp
  rw [← abs_mul]
  apply le_of_eq
  congr 1
  ring

/-- Non-vacuity: the path 0, 10, 10, 25 on a line with resolution 4 is resampled, and the theorems above apply. -/
example {fl : ℚ → ℚ} (hfl : Nearest 53 (-1074) fl) : ∃ q, resample fl lineDist lineInterp 4 [0, 10, 10, 25] = .ok q ∧
    (25 : ℚ) ∈ q ∧ ∀ e ∈ edges q, lineDist e.1 e.2 ≤ 4 + 1 / 2 ^ 48 := by
  obtain ⟨q, hq⟩ := (C35_returns hfl (interp := lineInterp) (d := 4) (by norm_num) line_faithful.nonneg [0, 10, 10, 25]).1 (by
    intro e he
    simp [edges] at he
    rcases he with rfl | rfl | rfl <;> norm_num [lineDist])
  have hap : Apart lineDist 4 [0, 10, 10, 25] := by
    have h1 : (2 : ℚ) ^ (-1074 : Int) ≤ 1 := by
      rw [show (1 : ℚ) = 2 ^ (0 : Int) by simp]
      exact zpow_le_zpow_right₀ (by norm_num) (by norm_num)
    intro e he hne
    simp only [edges, List.mem_cons, List.not_mem_nil, or_false] at he
    rcases he with rfl | rfl | rfl
    · have : lineDist 0 10 = 10 := by norm_num [lineDist]
      simp only [this]; linarith
    · exact absurd rfl hne
    · have : lineDist 10 25 = 15 := by norm_num [lineDist]
      simp only [this]; linarith
  refine ⟨q, hq, (C35_keeps_states hfl line_faithful hap hq).2 25 (by simp), ?_⟩
  intro e he
  obtain ⟨s, hs, hle⟩ := C35_spacing hfl line_faithful hap hq e he
  refine le_trans hle ?_
  simp only [edges, List.mem_cons, List.not_mem_nil, or_false] at hs
  rcases hs with rfl | rfl | rfl <;> norm_num [lineDist]

end CRU.Path
