import Verif.Base
import Mathlib.Analysis.SpecialFunctions.Exp
import Mathlib.Analysis.Real.Sqrt
import Mathlib.Analysis.Complex.ExponentialBounds
import Mathlib.Tactic.Linarith
import Mathlib.Tactic.FieldSimp
import Mathlib.Tactic.Ring
/-
  C53: sampling from a truncated Gaussian distribution (gaussian_distributions.hpp:143-365), in exact arithmetic. (As written the header does not compile when
  it is included: `DrawCases case_ = NONE;` names an enumerator of an `enum class` without its scope. The model reads it as `DrawCases::NONE`.)
-/
namespace CRU.Gaussian

/-- A bound: a number or infinite. NaN is not modelled. -/
inductive Bd where
  | negInf
  | fin (x : ℝ)
  | posInf

open Classical in
/-- `(bound - mean) / stddev` for a non-zero `stddev`. -/
noncomputable def Bd.std (mean sd : ℝ) : Bd → Bd
  | .fin x => .fin ((x - mean) / sd)
  | .posInf => if 0 < sd then .posInf else .negInf
  | .negInf => if 0 < sd then .negInf else .posInf

/-- `x <= bound` and `bound <= x` for a number `x`. -/
def Bd.ge (x : ℝ) : Bd → Prop
  | .negInf => False
  | .fin b => x ≤ b
  | .posInf => True
def Bd.le (x : ℝ) : Bd → Prop
  | .negInf => True
  | .fin b => b ≤ x
  | .posInf => False
/-- `0 < bound` and `bound < 0`. -/
def Bd.pos (b : Bd) : Prop := ¬ b.le 0
def Bd.neg (b : Bd) : Prop := ¬ b.ge 0

def Bd.isFin : Bd → Prop
  | .fin _ => True
  | _ => False

/-- `a <= b` for two bounds. -/
def Bd.leB : Bd → Bd → Prop
  | .negInf, _ => True
  | _, .posInf => True
  | .fin a, .fin b => a ≤ b
  | _, _ => False

/-- (gaussian_distributions.hpp:154) -/
inductive Case where
  | type1 | type2 | type3 | type4 | none
  deriving DecidableEq

/-- gaussian_distributions.hpp:143-159: the members. `rangeLo` and `rangeHi` are the parameters of `uniform_range_dist_`; the other distributions have
fixed parameters. -/
structure Dist where
  mean : ℝ
  stddev : ℝ
  stdLo : Bd
  stdHi : Bd
  kind : Case
  rangeLo : Bd
  rangeHi : Bd

open Classical in
/-- gaussian_distributions.hpp:161-179 `CheckSimple`, for finite bounds. -/
noncomputable def checkSimple (l u : ℝ) : Prop :=
  let val1 := (2 * Real.sqrt (Real.exp 1)) / (l + Real.sqrt (l ^ 2 + 4))
  let val2 := Real.exp ((l ^ 2 - l * Real.sqrt (l ^ 2 + 4)) / 4)
  u > l + val1 * val2

/-- `CheckSimple` of bounds one of which is infinite: the comparison is with an infinity of the wrong sign or with NaN, so false. (gaussian_distributions.hpp:161-165) -/
noncomputable def checkSimpleBd : Bd → Bd → Prop
  | .fin l, .fin u => checkSimple l u
  | _, _ => False

/-- `-1 * bound`. -/
noncomputable def Bd.negate : Bd → Bd
  | .negInf => .posInf
  | .fin x => .fin (-1 * x)
  | .posInf => .negInf

open Classical in
/-- gaussian_distributions.hpp:320-325. -/
noncomputable def step1 (d : Dist) : Dist := if d.stdHi.ge 0 ∧ d.stdLo.le 0 then { d with kind := .type1 } else d
open Classical in
/-- gaussian_distributions.hpp:326-330. -/
noncomputable def step2 (d : Dist) : Dist := if d.stdLo.pos ∧ d.stdHi = .posInf then { d with kind := .type2 } else d
open Classical in
/-- gaussian_distributions.hpp:331-338: mirrored. -/
noncomputable def step3 (d : Dist) : Dist :=
  if d.stdHi.neg ∧ d.stdLo = .negInf then { d with stdLo := d.stdHi.negate, stdHi := .posInf, stddev := -1 * d.stddev, kind := .type2 } else d
open Classical in
/-- gaussian_distributions.hpp:339-351. -/
noncomputable def step4 (d : Dist) : Dist :=
  if (d.stdHi.neg ∨ d.stdLo.pos) ∧ ¬ (d.stdHi = .posInf ∨ d.stdLo = .negInf) then
    if checkSimpleBd d.stdLo d.stdHi then { d with kind := .type3 } else { d with kind := .type4 }
  else d

open Classical in
/-- gaussian_distributions.hpp:301-358: the constructor. `std::uniform_real_distribution` must not be given reversed bounds: undefined. (The standard also
forbids an infinite width; libstdc++ accepts it, and so does the model.) -/
noncomputable def make (mean sd : ℝ) (lo hi : Bd) : Res Dist :=
  if ¬ lo.leB hi then .ub
  else if |sd| = 0 then .ok ⟨mean, sd, .fin 0, .fin 0, .none, lo, hi⟩
  else
    let d := step4 (step3 (step2 (step1 ⟨mean, sd, lo.std mean sd, hi.std mean sd, .none, lo, hi⟩)))
    if d.kind = .none then .throw .invalidArgument else .ok d

/-- The values the four distributions return in one round of a rejection loop. (gaussian_distributions.hpp:145-365) -/
structure Round where
  normal : ℝ
  expo : ℝ
  range : ℝ
  unit : ℝ

open Classical in
/-- gaussian_distributions.hpp:182-196 `NaiveAcceptReject`. The list holds the rounds to come; `none` means that it is used up before a value is accepted. -/
noncomputable def naive (l u : Bd) : List Round → Option ℝ
  | [] => none
  | r :: rs => if u.ge r.normal ∧ l.le r.normal then some r.normal else naive l u rs

/-- gaussian_distributions.hpp:203-204: alpha. -/
noncomputable def alpha (l : ℝ) : ℝ := (l + Real.sqrt (l ^ 2 + 4)) / 2

open Classical in
/-- gaussian_distributions.hpp:199-220 `SimpleAcceptReject`. Also returns the rounds left over. -/
noncomputable def simple (l : ℝ) : List Round → Option (ℝ × List Round)
  | [] => none
  | r :: rs =>
    let z := l + r.expo / alpha l
    let rho := Real.exp (-(alpha l - z) ^ 2 / 2)
    if r.unit ≤ rho then some (z, rs) else simple l rs

theorem simple_length {l : ℝ} : ∀ {rs : List Round} {z rest}, simple l rs = some (z, rest) → rest.length < rs.length
  | [], _, _, h => by simp [simple] at h
  | r :: rs, z, rest, h => by
    unfold simple at h
    dsimp only at h
    split at h
    · cases h; simp
    · have := simple_length h
      simp; omega

open Classical in
/-- gaussian_distributions.hpp:269-278: the outer loop of the third case. -/
noncomputable def bounded (l : ℝ) (u : Bd) (rs : List Round) : Option ℝ :=
  match h : simple l rs with
  | none => none
  | some (z, rest) => if u.ge z then some z else bounded l u rest
  termination_by rs.length
  decreasing_by exact simple_length h

open Classical in
/-- gaussian_distributions.hpp:232-244: the acceptance probability. -/
noncomputable def complexRho (l u z : ℝ) : ℝ :=
  if 0 < l then Real.exp ((l ^ 2 - z ^ 2) / 2) else if u < 0 then Real.exp ((u ^ 2 - z ^ 2) / 2)
  else if 0 < u ∧ l < 0 then Real.exp (-z ^ 2 / 2) else 0

open Classical in
/-- gaussian_distributions.hpp:222-253 `ComplexAcceptReject`, for finite bounds. -/
noncomputable def complex (l u : ℝ) : List Round → Option ℝ
  | [] => none
  | r :: rs =>
    let z := r.range
    if r.unit ≤ complexRho l u z then some z else complex l u rs

/-- gaussian_distributions.hpp:255-297 `Sample`: `operator()`. With an infinite lower bound (possible only for two equal infinite bounds)
`SimpleAcceptReject` compares with NaN for ever. -/
noncomputable def sample (d : Dist) (rs : List Round) : Option ℝ :=
  match d.kind with
  | .type1 => (naive d.stdLo d.stdHi rs).map fun x => d.mean + d.stddev * x
  | .type2 => match d.stdLo with
    | .fin l => (simple l rs).map fun x => d.mean + d.stddev * x.1
    | _ => none
  | .type3 => match d.stdLo with
    | .fin l => (bounded l d.stdHi rs).map fun x => d.mean + d.stddev * x
    | _ => none
  | .type4 => match d.stdLo, d.stdHi with
    | .fin l, .fin u => (complex l u rs).map fun x => d.mean + d.stddev * x
    | _, _ => none
  | .none => some d.mean

/-! ### Specification -/

/-- What the standard promises about the draws of a round. -/
def Round.Valid (lo hi : Bd) (r : Round) : Prop := 0 ≤ r.expo ∧ 0 ≤ r.unit ∧ r.unit ≤ 1 ∧ lo.le r.range ∧ hi.ge r.range

/-- `x` is in the interval from `lo` to `hi`. -/
def Within (lo hi : Bd) (x : ℝ) : Prop := lo.le x ∧ hi.ge x

/-! ### Proofs -/

theorem naive_spec {l u : Bd} : ∀ {rs : List Round} {x}, naive l u rs = some x → l.le x ∧ u.ge x
  | [], _, h => by simp [naive] at h
  | r :: rs, x, h => by
    unfold naive at h
    split at h
    · rename_i hc; cases h; exact ⟨hc.2, hc.1⟩
    · exact naive_spec h

theorem alpha_pos (l : ℝ) : 0 < alpha l := by
  unfold alpha
  have h1 : |l| < Real.sqrt (l ^ 2 + 4) := by
    rw [← Real.sqrt_sq_eq_abs]
    exact Real.sqrt_lt_sqrt (sq_nonneg l) (by linarith)
  have := (abs_lt.mp h1).1
  linarith

theorem simple_spec {l : ℝ} : ∀ {rs : List Round} {z rest}, (∀ r ∈ rs, 0 ≤ r.expo) → simple l rs = some (z, rest) → l ≤ z ∧ ∀ r ∈ rest, r ∈ rs
  | [], _, _, _, h => by simp [simple] at h
  | r :: rs, z, rest, hv, h => by
    unfold simple at h
    dsimp only at h
    split at h
    · simp only [Option.some.injEq, Prod.mk.injEq] at h
      obtain ⟨h1, h2⟩ := h
      rw [← h1, ← h2]
      have := div_nonneg (hv r (List.mem_cons_self ..)) (alpha_pos l).le
      exact ⟨by linarith, fun q hq => List.mem_cons_of_mem _ hq⟩
    · obtain ⟨h1, h2⟩ := simple_spec (fun q hq => hv q (List.mem_cons_of_mem _ hq)) h
      exact ⟨h1, fun q hq => List.mem_cons_of_mem _ (h2 q hq)⟩

theorem bounded_spec {l : ℝ} {u : Bd} : ∀ (n : Nat) (rs : List Round), rs.length ≤ n → (∀ r ∈ rs, 0 ≤ r.expo) → ∀ z, bounded l u rs = some z → l ≤ z ∧ u.ge z := by
  intro n
  induction n with
  | zero =>
    intro rs hl _ z h
    have : rs = [] := List.length_eq_zero_iff.mp (by omega)
    subst this
    unfold bounded at h
    split at h
    · cases h
    · rename_i hs
      simp [simple] at hs
  | succ n ih =>
    intro rs hl hv z h
    unfold bounded at h
    split at h
    · cases h
    · rename_i z' rest hs
      obtain ⟨h1, h2⟩ := simple_spec hv hs
      split at h
      · rename_i hu; cases h; exact ⟨h1, hu⟩
      · exact ih rest (by have := simple_length hs; omega) (fun r hr => hv r (h2 r hr)) z h

theorem complex_spec {l u : ℝ} : ∀ {rs : List Round} {z}, complex l u rs = some z → ∃ r ∈ rs, r.range = z
  | [], _, h => by simp [complex] at h
  | r :: rs, z, h => by
    unfold complex at h
    dsimp only at h
    split at h
    · simp only [Option.some.injEq] at h
      exact ⟨r, List.mem_cons_self .., h⟩
    · obtain ⟨q, hq, he⟩ := complex_spec h
      exact ⟨q, List.mem_cons_of_mem _ hq, he⟩

theorem unstd_le {mean sd : ℝ} (hsd : 0 < sd) {lo : Bd} {x : ℝ} (h : (lo.std mean sd).le x) : lo.le (mean + sd * x) := by
  cases lo with
  | negInf => trivial
  | posInf => simp [Bd.std, hsd, Bd.le] at h
  | fin b =>
    simp only [Bd.std, Bd.le] at h ⊢
    rw [div_le_iff₀ hsd] at h
    linarith

theorem unstd_ge {mean sd : ℝ} (hsd : 0 < sd) {hi : Bd} {x : ℝ} (h : (hi.std mean sd).ge x) : hi.ge (mean + sd * x) := by
  cases hi with
  | posInf => trivial
  | negInf => simp [Bd.std, hsd, Bd.ge] at h
  | fin b =>
    simp only [Bd.std, Bd.ge] at h ⊢
    rw [le_div_iff₀ hsd] at h
    linarith

/-- C53: for a positive standard deviation the constructor accepts all bounds in order (a later exception is impossible), and in every case but the fourth
(uniform rejection, for two finite bounds on one side of the mean and close together) all samples are within the bounds. In the fourth case a sample is
`mean + stddev * z` for some `z` within the bounds. -/
theorem C53_in_bounds_partial {mean sd : ℝ} (hsd : 0 < sd) {lo hi : Bd} (hb : lo.leB hi) : ∃ d, make mean sd lo hi = .ok d ∧
    ∀ (rs : List Round) (x : ℝ), (∀ r ∈ rs, r.Valid lo hi) → sample d rs = some x →
      (d.kind ≠ .type4 → Within lo hi x) ∧ (d.kind = .type4 → ∃ z, Within lo hi z ∧ x = mean + sd * z) := by
  have hne : ¬ |sd| = 0 := by rw [abs_eq_zero]; exact hsd.ne'
  -- the cases that use the bounds as they are
  have t1 : ∀ (rs : List Round) (x : ℝ), sample ⟨mean, sd, lo.std mean sd, hi.std mean sd, .type1, lo, hi⟩ rs = some x → Within lo hi x := by
    intro rs x h
    simp only [sample, Option.map_eq_some_iff] at h
    obtain ⟨y, hy, rfl⟩ := h
    obtain ⟨a, b⟩ := naive_spec hy
    exact ⟨unstd_le hsd a, unstd_ge hsd b⟩
  -- a distribution that `make` arrives at
  have fin : ∀ d, step4 (step3 (step2 (step1 ⟨mean, sd, lo.std mean sd, hi.std mean sd, .none, lo, hi⟩))) = d → d.kind ≠ .none →
      make mean sd lo hi = .ok d := by
    intro d hd hk
    unfold make
    rw [if_neg (not_not.mpr hb), if_neg hne]
    dsimp only
    rw [hd, if_neg hk]
  cases lo with
  | posInf =>
    cases hi with
    | posInf =>
      refine ⟨⟨mean, sd, .posInf, .posInf, .type2, .posInf, .posInf⟩, fin _ ?_ (by simp), fun rs x _ h => ?_⟩
      · simp [step1, step2, step3, step4, Bd.std, hsd, Bd.le, Bd.pos]
      · simp [sample] at h
    | fin u => exact hb.elim
    | negInf => exact hb.elim
  | negInf =>
    cases hi with
    | posInf =>
      refine ⟨_, fin ⟨mean, sd, .negInf, .posInf, .type1, .negInf, .posInf⟩ ?_ (by simp), fun rs x _ h => ⟨fun _ => t1 rs x ?_, fun hk => by simp at hk⟩⟩
      · simp [step1, step2, step3, step4, Bd.std, hsd, Bd.le, Bd.ge, Bd.pos, Bd.neg]
      · simpa [Bd.std, hsd] using h
    | negInf =>
      refine ⟨⟨mean, -1 * sd, .posInf, .posInf, .type2, .negInf, .negInf⟩, fin _ ?_ (by simp), fun rs x _ h => ?_⟩
      · simp [step1, step2, step3, step4, Bd.std, hsd, Bd.le, Bd.ge, Bd.pos, Bd.neg, Bd.negate]
      · simp [sample] at h
    | fin u =>
      by_cases hc : 0 ≤ (u - mean) / sd
      · refine ⟨_, fin ⟨mean, sd, .negInf, .fin ((u - mean) / sd), .type1, .negInf, .fin u⟩ ?_ (by simp), fun rs x _ h => ⟨fun _ => t1 rs x ?_, fun hk => by simp at hk⟩⟩
        · simp [step1, step2, step3, step4, Bd.std, hsd, Bd.le, Bd.ge, Bd.pos, Bd.neg, hc]
        · simpa [Bd.std, hsd] using h
      · refine ⟨_, fin ⟨mean, -1 * sd, .fin (-1 * ((u - mean) / sd)), .posInf, .type2, .negInf, .fin u⟩ ?_ (by simp),
          fun rs x hv h => ⟨fun _ => ⟨trivial, ?_⟩, fun hk => by simp at hk⟩⟩
        · simp [step1, step2, step3, step4, Bd.std, hsd, Bd.le, Bd.ge, Bd.pos, Bd.neg, Bd.negate, hc]
        · simp only [sample, Option.map_eq_some_iff] at h
          obtain ⟨y, hy, rfl⟩ := h
          obtain ⟨a, _⟩ := simple_spec (fun r hr => (hv r hr).1) hy
          show mean + -1 * sd * y.1 ≤ u
          have : sd * ((u - mean) / sd) = u - mean := by field_simp
          nlinarith
  | fin l =>
    cases hi with
    | negInf => exact hb.elim
    | posInf =>
      by_cases hc : (l - mean) / sd ≤ 0
      · refine ⟨_, fin ⟨mean, sd, .fin ((l - mean) / sd), .posInf, .type1, .fin l, .posInf⟩ ?_ (by simp), fun rs x _ h => ⟨fun _ => t1 rs x ?_, fun hk => by simp at hk⟩⟩
        · simp [step1, step2, step3, step4, Bd.std, hsd, Bd.le, Bd.ge, Bd.pos, Bd.neg, hc]
        · simpa [Bd.std, hsd] using h
      · refine ⟨_, fin ⟨mean, sd, .fin ((l - mean) / sd), .posInf, .type2, .fin l, .posInf⟩ ?_ (by simp),
          fun rs x hv h => ⟨fun _ => ⟨?_, trivial⟩, fun hk => by simp at hk⟩⟩
        · simp [step1, step2, step3, step4, Bd.std, hsd, Bd.le, Bd.ge, Bd.pos, Bd.neg, hc]
        · simp only [sample, Option.map_eq_some_iff] at h
          obtain ⟨y, hy, rfl⟩ := h
          obtain ⟨a, _⟩ := simple_spec (fun r hr => (hv r hr).1) hy
          exact unstd_le (lo := .fin l) hsd a
    | fin u =>
      by_cases hc : 0 ≤ (u - mean) / sd ∧ (l - mean) / sd ≤ 0
      · refine ⟨_, fin ⟨mean, sd, .fin ((l - mean) / sd), .fin ((u - mean) / sd), .type1, .fin l, .fin u⟩ ?_ (by simp),
          fun rs x _ h => ⟨fun _ => t1 rs x ?_, fun hk => by simp at hk⟩⟩
        · simp [step1, step2, step3, step4, Bd.std, Bd.le, Bd.ge, Bd.pos, Bd.neg, hc]
        · simpa [Bd.std] using h
      · have hc' : ¬ 0 ≤ (u - mean) / sd ∨ ¬ (l - mean) / sd ≤ 0 := not_and_or.mp hc
        by_cases hs : checkSimple ((l - mean) / sd) ((u - mean) / sd)
        · refine ⟨_, fin ⟨mean, sd, .fin ((l - mean) / sd), .fin ((u - mean) / sd), .type3, .fin l, .fin u⟩ ?_ (by simp),
            fun rs x hv h => ⟨fun _ => ?_, fun hk => by simp at hk⟩⟩
          · unfold step1
            rw [if_neg (show ¬ ((Bd.std mean sd (.fin u)).ge 0 ∧ (Bd.std mean sd (.fin l)).le 0) from hc)]
            unfold step2
            rw [if_neg (fun h => by cases h.2)]
            unfold step3
            rw [if_neg (fun h => by cases h.2)]
            unfold step4
            rw [if_pos ⟨hc', by rintro (h | h) <;> cases h⟩, if_pos (show  checkSimpleBd (Bd.std mean sd (.fin l)) (Bd.std mean sd (.fin u)) from hs)]
            rfl
          · simp only [sample, Option.map_eq_some_iff] at h
            obtain ⟨y, hy, rfl⟩ := h
            obtain ⟨a, b⟩ := bounded_spec rs.length rs (le_refl _) (fun r hr => (hv r hr).1) y hy
            exact ⟨unstd_le (lo := .fin l) hsd a, unstd_ge (hi := .fin u) hsd b⟩
        · refine ⟨_, fin ⟨mean, sd, .fin ((l - mean) / sd), .fin ((u - mean) / sd), .type4, .fin l, .fin u⟩ ?_ (by simp),
            fun rs x hv h => ⟨fun hk => by simp at hk, fun _ => ?_⟩⟩
          · unfold step1
            rw [if_neg (show ¬ ((Bd.std mean sd (.fin u)).ge 0 ∧ (Bd.std mean sd (.fin l)).le 0) from hc)]
            unfold step2
            rw [if_neg (fun h => by cases h.2)]
            unfold step3
            rw [if_neg (fun h => by cases h.2)]
            unfold step4
            rw [if_pos ⟨hc', by rintro (h | h) <;> cases h⟩, if_neg (show ¬ checkSimpleBd (Bd.std mean sd (.fin l)) (Bd.std mean sd (.fin u)) from hs)]
            rfl
          · simp only [sample, Option.map_eq_some_iff] at h
            obtain ⟨y, hy, rfl⟩ := h
            obtain ⟨r, hr, he⟩ := complex_spec hy
            exact ⟨y, ⟨he ▸ (hv r hr).2.2.2.1, he ▸ (hv r hr).2.2.2.2⟩, rfl⟩

example : ∃ d, make 0 1 (.fin (-1)) (.fin 1) = .ok d ∧ sample d [⟨2, 1, 0, 0⟩, ⟨1 / 2, 1, 0, 0⟩] = some (1 / 2) := by
  refine ⟨⟨0, 1, .fin (-1), .fin 1, .type1, .fin (-1), .fin 1⟩, ?_, ?_⟩
  · norm_num [make, Bd.leB, Bd.std, step1, step2, step3, step4, Bd.le, Bd.ge, Bd.pos, Bd.neg]
    intro h; cases h
  · norm_num [sample, naive, Bd.ge, Bd.le]

theorem checkSimple_false_witness : ¬ checkSimple 2 (9 / 4) := by
  unfold checkSimple
  dsimp only
  have e8 : Real.sqrt ((2 : ℝ) ^ 2 + 4) = Real.sqrt 8 := by norm_num
  rw [e8, not_lt]
  have hs0 : (2.8 : ℝ) ≤ Real.sqrt 8 := Real.le_sqrt_of_sq_le (by norm_num)
  have hs1 : Real.sqrt 8 ≤ 2.83 := Real.sqrt_le_iff.mpr ⟨by norm_num, by norm_num⟩
  have he : (1.6 : ℝ) ≤ Real.sqrt (Real.exp 1) := Real.le_sqrt_of_sq_le (by
    have := Real.exp_one_gt_d9
    norm_num; linarith)
  have h2 : (1 / 2 : ℝ) ≤ Real.exp ((2 ^ 2 - 2 * Real.sqrt 8) / 4) := by
    have := Real.add_one_le_exp ((2 ^ 2 - 2 * Real.sqrt 8) / 4)
    linarith
  have h1 : (0.6 : ℝ) ≤ 2 * Real.sqrt (Real.exp 1) / (2 + Real.sqrt 8) := by
    rw [le_div_iff₀ (by linarith)]
    nlinarith
  have : (0.6 : ℝ) * (1 / 2) ≤ 2 * Real.sqrt (Real.exp 1) / (2 + Real.sqrt 8) * Real.exp ((2 ^ 2 - 2 * Real.sqrt 8) / 4) :=
    mul_le_mul h1 h2 (by norm_num) (le_trans (by norm_num) h1)
  linarith

theorem make_type4 {mean sd l u : ℝ} (hsd : 0 < sd) (hb : l ≤ u) (hc : ¬ (0 ≤ (u - mean) / sd ∧ (l - mean) / sd ≤ 0))
    (hs : ¬ checkSimple ((l - mean) / sd) ((u - mean) / sd)) :
    make mean sd (.fin l) (.fin u) = .ok ⟨mean, sd, .fin ((l - mean) / sd), .fin ((u - mean) / sd), .type4, .fin l, .fin u⟩ := by
  have hc' : ¬ 0 ≤ (u - mean) / sd ∨ ¬ (l - mean) / sd ≤ 0 := not_and_or.mp hc
  have h : step4 (step3 (step2 (step1 ⟨mean, sd, Bd.std mean sd (.fin l), Bd.std mean sd (.fin u), .none, .fin l, .fin u⟩))) =
      ⟨mean, sd, .fin ((l - mean) / sd), .fin ((u - mean) / sd), .type4, .fin l, .fin u⟩ := by
    unfold step1
    rw [if_neg (show ¬ ((Bd.std mean sd (.fin u)).ge 0 ∧ (Bd.std mean sd (.fin l)).le 0) from hc)]
    unfold step2
    rw [if_neg (fun h => by cases h.2)]
    unfold step3
    rw [if_neg (fun h => by cases h.2)]
    unfold step4
    rw [if_pos ⟨hc', by rintro (h | h) <;> cases h⟩, if_neg (show ¬ checkSimpleBd (Bd.std mean sd (.fin l)) (Bd.std mean sd (.fin u)) from hs)]
    rfl
  unfold make
  rw [if_neg (not_not.mpr (show (Bd.fin l).leB (.fin u) from hb)), if_neg (by rw [abs_eq_zero]; exact hsd.ne')]
  dsimp only
  rw [h, if_neg (by simp)]

/-- In the fourth case samples leave the bounds: mean 0, standard deviation 2, bounds 4 and 4.5; the uniform draw 4.25, accepted with the unit draw 0, gives the
sample 8.5. Indeed with these parameters every sample is at least 8. -/
theorem C53_false : ∃ d, make 0 2 (.fin 4) (.fin (9 / 2)) = .ok d ∧
    (∀ rs x, (∀ r ∈ rs, r.Valid (.fin 4) (.fin (9 / 2))) → sample d rs = some x → 8 ≤ x) ∧
    (∃ r : Round, r.Valid (.fin 4) (.fin (9 / 2)) ∧ sample d [r] = some (17 / 2)) := by
  have hk := checkSimple_false_witness
  have hm : make 0 2 (.fin 4) (.fin (9 / 2)) = .ok ⟨0, 2, .fin 2, .fin (9 / 4), .type4, .fin 4, .fin (9 / 2)⟩ := by
    have e1 : ((4 : ℝ) - 0) / 2 = 2 := by norm_num
    have e2 : ((9 / 2 : ℝ) - 0) / 2 = 9 / 4 := by norm_num
    have h := make_type4 (mean := 0) (sd := 2) (l := 4) (u := 9 / 2) (by norm_num) (by norm_num) (by norm_num) (by rw [e1, e2]; exact hk)
    rw [e1, e2] at h
    exact h
  refine ⟨_, hm, ?_, ?_⟩
  · intro rs x hv h
    obtain ⟨d', hd', hs⟩ := C53_in_bounds_partial (mean := 0) (sd := 2) (by norm_num) (lo := .fin 4) (hi := .fin (9 / 2)) (by norm_num [Bd.leB])
    rw [hm] at hd'
    cases hd'
    obtain ⟨z, ⟨hz, _⟩, rfl⟩ := (hs rs x hv h).2 rfl
    simp only [Bd.le] at hz
    linarith
  · refine ⟨⟨0, 1, 17 / 4, 0⟩, ⟨by norm_num, by norm_num, by norm_num, by norm_num [Bd.le], by norm_num [Bd.ge]⟩, ?_⟩
    norm_num [sample, complex, complexRho, Real.exp_nonneg]

/-- With standard deviation zero every sample is the mean, also if that is not within the bounds. -/
theorem C53_zero_stddev_false {mean : ℝ} {lo hi : Bd} (hb : lo.leB hi) :
    ∃ d, make mean 0 lo hi = .ok d ∧ (∀ rs, sample d rs = some mean) ∧ ∃ (lo hi : Bd) (d : Dist), make 7 0 lo hi = .ok d ∧ ¬ Within lo hi 7 ∧ sample d [] = some 7 := by
  have h : ∀ {mean : ℝ} {lo hi : Bd}, lo.leB hi → make mean 0 lo hi = .ok ⟨mean, 0, .fin 0, .fin 0, .none, lo, hi⟩ := by
    intro mean lo hi hb
    unfold make
    rw [if_neg (not_not.mpr hb), if_pos abs_zero]
  refine ⟨_, h hb, fun rs => rfl, .fin 0, .fin 1, _, h (by norm_num [Bd.leB]), ?_, rfl⟩
  norm_num [Within, Bd.ge, Bd.le]

/-! ### Ending the loops -/

theorem simple_returns {l : ℝ} : ∀ {rs : List Round} {r : Round}, r ∈ rs → r.unit ≤ 0 → ∃ z, simple l rs = some z
  | q :: rs, r, hr, hu => by
    unfold simple
    dsimp only
    split
    · exact ⟨_, rfl⟩
    · rename_i hc
      rcases List.mem_cons.mp hr with rfl | hr
      · exact absurd (le_trans hu (Real.exp_nonneg _)) hc
      · exact simple_returns hr hu

theorem naive_returns {l u : Bd} : ∀ {rs : List Round} {r : Round}, r ∈ rs → u.ge r.normal → l.le r.normal → ∃ z, naive l u rs = some z
  | q :: rs, r, hr, h1, h2 => by
    unfold naive
    split
    · exact ⟨_, rfl⟩
    · rename_i hc
      rcases List.mem_cons.mp hr with rfl | hr
      · exact absurd ⟨h1, h2⟩ hc
      · exact naive_returns hr h1 h2

theorem complex_returns {l u : ℝ} : ∀ {rs : List Round} {r : Round}, r ∈ rs → r.unit ≤ 0 → ∃ z, complex l u rs = some z
  | q :: rs, r, hr, hu => by
    unfold complex
    dsimp only
    split
    · exact ⟨_, rfl⟩
    · rename_i hc
      rcases List.mem_cons.mp hr with rfl | hr
      · refine absurd (le_trans hu ?_) hc
        unfold complexRho
        split_ifs
        · exact Real.exp_nonneg _
        · exact Real.exp_nonneg _
        · exact Real.exp_nonneg _
        · exact le_refl _
      · exact complex_returns hr hu

/-- C53: sampling ends: in the first case as soon as a normal draw is between the standardised bounds, in the second and fourth case at the latest with a unit
draw of zero. -/
theorem C53_returns (d : Dist) (rs : List Round) (r : Round) (hr : r ∈ rs) :
    (d.kind = .type1 → d.stdLo.le r.normal → d.stdHi.ge r.normal → ∃ x, sample d rs = some x) ∧
    (d.kind = .type2 → d.stdLo.isFin → r.unit ≤ 0 → ∃ x, sample d rs = some x) ∧
    (d.kind = .type4 → d.stdLo.isFin → d.stdHi.isFin → r.unit ≤ 0 → ∃ x, sample d rs = some x) := by
  refine ⟨fun hk h1 h2 => ?_, fun hk hl hu => ?_, fun hk hl hh hu => ?_⟩
  · obtain ⟨z, hz⟩ := naive_returns hr h2 h1
    exact ⟨_, by unfold sample; rw [hk]; dsimp only; rw [hz]; rfl⟩
  · cases hd : d.stdLo with
    | fin l =>
      obtain ⟨z, hz⟩ := simple_returns (l := l) hr hu
      exact ⟨_, by unfold sample; rw [hk, hd]; dsimp only; rw [hz]; rfl⟩
    | negInf => rw [hd] at hl; exact hl.elim
    | posInf => rw [hd] at hl; exact hl.elim
  · cases hd : d.stdLo with
    | fin l =>
      cases hd2 : d.stdHi with
      | fin u =>
        obtain ⟨z, hz⟩ := complex_returns (l := l) (u := u) hr hu
        exact ⟨_, by unfold sample; rw [hk, hd, hd2]; dsimp only; rw [hz]; rfl⟩
      | negInf => rw [hd2] at hh; exact hh.elim
      | posInf => rw [hd2] at hh; exact hh.elim
    | negInf => rw [hd] at hl; exact hl.elim
    | posInf => rw [hd] at hl; exact hl.elim

example : ∃ x, sample ⟨0, 1, .fin (-1), .fin 1, .type1, .fin (-1), .fin 1⟩ [⟨3, 1, 1, 1⟩, ⟨0, 1, 1, 1⟩] = some x :=
  (C53_returns _ _ ⟨0, 1, 1, 1⟩ (by simp)).1 rfl (by norm_num [Bd.le]) (by norm_num [Bd.ge])

end CRU.Gaussian
