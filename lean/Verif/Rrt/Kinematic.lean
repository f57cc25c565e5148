import Verif.Rrt.PlanMore
import Verif.Rrt.BiMore
import Verif.Path.Smooth
/-
  C62: the propagation functions for kinematic planning (extend and connect), and what they mean for planned paths.
  Doubles are finite rationals, `fl` is rounding to nearest; a quotient outside the range of doubles is outside the range
  of `int32_t` too, so the undefined conversion is where the model says it is. The distance and interpolation functions
  are functions of their arguments; the edge check may keep state (a cache, a counter).
-/
namespace CRU.Rrt
open CRU.Fl CRU.Util

variable {V σ : Type}

/-! ### Model -/

/-- simple_rrt_planner.hpp:1716-1722, the functions given to the `MakeKinematic…PropagationFunction` helpers. -/
structure Kin (σ V : Type) where
  dist : V → V → ℚ
  interp : V → V → ℚ → V
  valid : σ → V → V → Bool × σ

/-- simple_rrt_planner.hpp:1729-1742 and 1773-1788: one step towards the sample. -/
def extend (fl : ℚ → ℚ) (k : Kin σ V) (step : ℚ) (s : σ) (near sampled : V) : Propagation V × σ :=
  let d := k.dist near sampled
  let ratio := if d > step then fl (step / d) else 1
  let x := if ratio < 1 then k.interp near sampled ratio else sampled
  match k.valid s near x with
  | (true, s1) => ([(x, -1)], s1)
  | (false, s1) => ([], s1)

/-- simple_rrt_planner.hpp:1714-1728 and 1758-1772: construction rejects a step size that is not positive. -/
def makeExtend (fl : ℚ → ℚ) (k : Kin σ V) (step : ℚ) : Res (σ → V → V → Propagation V × σ) :=
  if step ≤ 0 then .throw .invalidArgument else .ok (extend fl k step)

/-- `std::numeric_limits<double>::epsilon()`. -/
def dblEps : ℚ := 1 / 4503599627370496

/-- simple_rrt_planner.hpp:1830-1868 and 1912-1950: the loop, with the number of steps still allowed. -/
def connectLoop (fl : ℚ → ℚ) (k : Kin σ V) (step : ℚ) (sampled : V) : Nat → Int → V → σ → Propagation V × σ
  | 0, _, _, s => ([], s)
  | n + 1, parent, current, s =>
    let d := k.dist current sampled
    if d > step then
      let target := k.interp current sampled (fl (step / d))
      match k.valid s current target with
      | (true, s1) =>
        let r := connectLoop fl k step sampled n (parent + 1) target s1
        ((target, parent) :: r.1, r.2)
      | (false, s1) => ([], s1)
    else if |d| ≤ dblEps then ([], s)
    else
      match k.valid s current sampled with
      | (true, s1) => ([(sampled, parent)], s1)
      | (false, s1) => ([], s1)

/-- simple_rrt_planner.hpp:1825-1826 and 1907-1908: the number of steps allowed; the conversion to `int32_t` is undefined
outside its range. -/
def totalSteps (fl : ℚ → ℚ) (k : Kin σ V) (step : ℚ) (near sampled : V) : Res Int :=
  i32.cast ⌈fl (k.dist near sampled / step)⌉

/-- simple_rrt_planner.hpp:1819-1871 and 1899-1953: steps towards the sample until it is reached or an edge is invalid. -/
def connect (fl : ℚ → ℚ) (k : Kin σ V) (step : ℚ) (s : σ) (near sampled : V) : Res (Propagation V × σ) := do
  let n ← totalSteps fl k step near sampled
  pure (connectLoop fl k step sampled n.toNat (-1) near s)

/-- simple_rrt_planner.hpp:1804-1818 and 1884-1898. -/
def makeConnect (fl : ℚ → ℚ) (k : Kin σ V) (step : ℚ) : Res (σ → V → V → Res (Propagation V × σ)) :=
  if step ≤ 0 then .throw .invalidArgument else .ok (connect fl k step)

/-! ### Specification -/

/-- The edge check accepted the edge from `a` to `b`. -/
def Kin.Accepts (k : Kin σ V) (a b : V) : Prop := ∃ s, (k.valid s a b).1 = true

/-- The edge check rejected the edge from `a` to `b`. -/
def Kin.Rejects (k : Kin σ V) (a b : V) : Prop := ∃ s, (k.valid s a b).1 = false

/-- `b` is the next state to try from `a` on the way to `sampled`: the sample itself if it is at most one step away,
otherwise the state at the rounded fraction `step / distance`, which is below one. -/
def Kin.Next (fl : ℚ → ℚ) (k : Kin σ V) (step : ℚ) (sampled a b : V) : Prop :=
  (k.dist a sampled ≤ step ∧ b = sampled) ∨
  (step < k.dist a sampled ∧ b = k.interp a sampled (fl (step / k.dist a sampled)))

/-! ### Extend -/

/-- A floating-point number below another is below it by a relative gap. -/
theorem rep_lt_gap {p : Nat} {emin : Int} {u d : ℚ} (hu : Rep p emin u) (hd : Rep p emin d) (h0 : 0 < u) (h : u < d) :
    u / d ≤ 1 - 2 ^ (-(p : Int)) := by
  obtain ⟨m', e', he', hm', rfl⟩ := hu
  obtain ⟨m, e, he, hm, rfl⟩ := hd
  have hd0 : (0 : ℚ) < (m : ℚ) * 2 ^ e := lt_trans h0 h
  rw [div_le_iff₀ hd0]
  have hP : (2 : ℚ) ^ (-(p : Int)) * 2 ^ p = 1 := by
    rw [← zpow_natCast (2 : ℚ) p, ← zpow_add₀ (by norm_num)]; simp
  have hq : (0 : ℚ) < 2 ^ (-(p : Int)) := two_zpow_pos _
  set q : ℚ := 2 ^ (-(p : Int)) with hqd
  -- write both over the smaller exponent
  have key : ∀ (a b : Int) (w : ℚ), 0 < w → (a : ℚ) * w < b * w → (a : ℚ) ≤ 2 ^ p - 1 → (a : ℚ) ≤ (1 - q) * b := by
    intro a b w hw hlt ha
    have hab : (a : ℚ) < b := lt_of_mul_lt_mul_right hlt hw.le
    have hab' : (a : ℚ) ≤ b - 1 := by
      have : a < b := by exact_mod_cast hab
      have : a ≤ b - 1 := by omega
      exact_mod_cast this
    by_cases hb : (b : ℚ) ≤ 2 ^ p
    · have : q * b ≤ q * 2 ^ p := mul_le_mul_of_nonneg_left hb hq.le
      nlinarith
    · push Not at hb
      have h1q : q ≤ 1 := by
        have : (1 : ℚ) ≤ 2 ^ p := one_le_pow₀ (by norm_num)
        nlinarith
      have : (1 - q) * 2 ^ p ≤ (1 - q) * b := mul_le_mul_of_nonneg_left hb.le (by linarith)
      nlinarith
  have hmp : (m' : ℚ) ≤ 2 ^ p - 1 := by
    have h1 : m' < 2 ^ p := lt_of_le_of_lt (le_abs_self _) hm'
    have : m' ≤ 2 ^ p - 1 := by omega
    exact_mod_cast this
  have hmm : (m : ℚ) ≤ 2 ^ p - 1 := by
    have h1 : m < 2 ^ p := lt_of_le_of_lt (le_abs_self _) hm
    have : m ≤ 2 ^ p - 1 := by omega
    exact_mod_cast this
  rcases le_total e' e with hee | hee
  · -- the larger number is a multiple of the finer unit
    have hsplit : (2 : ℚ) ^ e = 2 ^ (e - e').toNat * 2 ^ e' := by
      rw [← zpow_natCast, ← zpow_add₀ (by norm_num)]; congr 1; omega
    have hw := two_zpow_pos e'
    have hk := key m' (m * 2 ^ (e - e').toNat) (2 ^ e') hw (by
      push_cast
      calc (m' : ℚ) * 2 ^ e' < m * 2 ^ e := h
        _ = m * 2 ^ (e - e').toNat * 2 ^ e' := by rw [hsplit]; ring) hmp
    calc (m' : ℚ) * 2 ^ e' ≤ ((1 - q) * ((m * 2 ^ (e - e').toNat : Int) : ℚ)) * 2 ^ e' :=
          mul_le_mul_of_nonneg_right hk hw.le
      _ = (1 - q) * (m * 2 ^ e) := by rw [hsplit]; push_cast; ring
  · have hsplit : (2 : ℚ) ^ e' = 2 ^ (e' - e).toNat * 2 ^ e := by
      rw [← zpow_natCast, ← zpow_add₀ (by norm_num)]; congr 1; omega
    have hw := two_zpow_pos e
    have hlt : ((m' * 2 ^ (e' - e).toNat : Int) : ℚ) * 2 ^ e < m * 2 ^ e := by
      push_cast
      calc (m' : ℚ) * 2 ^ (e' - e).toNat * 2 ^ e = m' * 2 ^ e' := by rw [hsplit]; ring
        _ < _ := h
    have hlt' : ((m' * 2 ^ (e' - e).toNat : Int) : ℚ) < m := lt_of_mul_lt_mul_right hlt hw.le
    have hk := key (m' * 2 ^ (e' - e).toNat) m (2 ^ e) hw hlt (by linarith)
    calc (m' : ℚ) * 2 ^ e' = ((m' * 2 ^ (e' - e).toNat : Int) : ℚ) * 2 ^ e := by rw [hsplit]; push_cast; ring
      _ ≤ ((1 - q) * m) * 2 ^ e := mul_le_mul_of_nonneg_right hk hw.le
      _ = (1 - q) * (m * 2 ^ e) := by ring

/-- The fraction of the distance taken in one step is between zero and one, and below one. -/
theorem ratio_lt_one {fl : ℚ → ℚ} (hfl : Nearest 53 (-1074) fl) {step d : ℚ} (hs : Rep 53 (-1074) step)
    (hd : Rep 53 (-1074) d) (h0 : 0 < step) (h : step < d) : 0 ≤ fl (step / d) ∧ fl (step / d) < 1 := by
  have hz : fl 0 = 0 := hfl.fix (by simpa using rep_int (p := 53) (emin := -1074) (by norm_num) (by norm_num) (i := 0) (by norm_num))
  constructor
  · rw [← hz]; exact hfl.mono (by apply div_nonneg <;> linarith)
  · have h1 := rep_lt_gap hs hd h0 h
    have hr : Rep 53 (-1074) (1 - 2 ^ (-((53 : Nat) : Int))) := by
      refine ⟨2 ^ 53 - 1, -53, by norm_num, by norm_num, by norm_num⟩
    have := hfl.mono h1
    rw [hfl.fix hr] at this
    have h2 : (0 : ℚ) < 2 ^ (-((53 : Nat) : Int)) := two_zpow_pos _
    linarith

/-- C62. A step size that is not positive is rejected when the function is made; a positive one is accepted. -/
theorem C62_rejects (fl : ℚ → ℚ) (k : Kin σ V) (step : ℚ) :
    (step ≤ 0 → makeExtend fl k step = .throw .invalidArgument ∧ makeConnect fl k step = .throw .invalidArgument) ∧
    (0 < step → makeExtend fl k step = .ok (extend fl k step) ∧ makeConnect fl k step = .ok (connect fl k step)) := by
  constructor
  · intro h; simp [makeExtend, makeConnect, h]
  · intro h; simp [makeExtend, makeConnect, not_le.mpr h]

/-- C62. Extend asks about exactly one edge, from the nearest state to the next state on the way to the sample, and
returns that state with the nearest state as parent if the edge is valid and nothing otherwise. -/
theorem C62_extend {fl : ℚ → ℚ} (hfl : Nearest 53 (-1074) fl) (k : Kin σ V) {step : ℚ} (hs : Rep 53 (-1074) step)
    (h0 : 0 < step) (s : σ) (near sampled : V) (hd : Rep 53 (-1074) (k.dist near sampled)) :
    ∃ x, k.Next fl step sampled near x ∧ (extend fl k step s near sampled).2 = (k.valid s near x).2 ∧
      (extend fl k step s near sampled).1 = (if (k.valid s near x).1 then [(x, -1)] else []) := by
  unfold extend
  dsimp only
  by_cases h : k.dist near sampled > step
  · obtain ⟨-, h2⟩ := ratio_lt_one hfl hs hd h0 h
    refine ⟨k.interp near sampled (fl (step / k.dist near sampled)), Or.inr ⟨h, rfl⟩, ?_⟩
    simp only [h, if_true, h2]
    cases hv : k.valid s near (k.interp near sampled (fl (step / k.dist near sampled))) with
    | mk b s1 => cases b <;> simp
  · refine ⟨sampled, Or.inl ⟨not_lt.mp h, rfl⟩, ?_⟩
    simp only [h, if_false, lt_irrefl]
    cases hv : k.valid s near sampled with
    | mk b s1 => cases b <;> simp

/-! ### Connect -/

theorem connectLoop_spec (fl : ℚ → ℚ) (k : Kin σ V) (step : ℚ) (sampled : V) : ∀ (n : Nat) (parent : Int) (current : V) (s : σ),
    let r := connectLoop fl k step sampled n parent current s
    r.1.length ≤ n ∧
    (∀ (i : Nat) (v : V) (rel : Int), r.1[i]? = some (v, rel) → rel = parent + i) ∧
    Consecutive (fun a b => k.Next fl step sampled a b ∧ k.Accepts a b) (current :: r.1.map Prod.fst) ∧
    (r.1.length < n → ∃ last, (current :: r.1.map Prod.fst).getLast? = some last ∧
      ((r.1 ≠ [] ∧ last = sampled) ∨ (k.dist last sampled ≤ step ∧ |k.dist last sampled| ≤ dblEps) ∨
        ∃ b, k.Next fl step sampled last b ∧ k.Rejects last b)) := by
  intro n
  induction n with
  | zero =>
    intro parent current s
    refine ⟨Nat.le_refl _, by simp [connectLoop], ?_, by simp [connectLoop]⟩
    intro i a b _ hb
    simp [connectLoop] at hb
  | succ n ih =>
    intro parent current s
    have cons0 : Consecutive (fun a b => k.Next fl step sampled a b ∧ k.Accepts a b) [current] := by
      intro i a b _ hb; simp at hb
    unfold connectLoop
    dsimp only
    by_cases hd : k.dist current sampled > step
    · rw [if_pos hd]
      cases hv : k.valid s current (k.interp current sampled (fl (step / k.dist current sampled))) with
      | mk ok s1 =>
        cases ok with
        | false =>
          refine ⟨by simp, by simp, by simpa using cons0, fun _ => ⟨current, by simp, Or.inr (Or.inr ⟨_, Or.inr ⟨hd, rfl⟩, s, by rw [hv]⟩)⟩⟩
        | true =>
          obtain ⟨h1, h2, h3, h4⟩ := ih (parent + 1) (k.interp current sampled (fl (step / k.dist current sampled))) s1
          dsimp only
          refine ⟨by simp; exact h1, ?_, ?_, ?_⟩
          · intro i v rel hi
            cases i with
            | zero => simp at hi; simp [hi.2]
            | succ i => have := h2 i v rel (by simpa using hi); push_cast; omega
          · intro i a b ha hb
            cases i with
            | zero =>
              simp at ha hb
              subst ha hb
              exact ⟨Or.inr ⟨hd, rfl⟩, s, by rw [hv]⟩
            | succ i => exact h3 i a b (by simpa using ha) (by simpa using hb)
          · intro hl
            obtain ⟨last, hg, hcase⟩ := h4 (by simpa using hl)
            refine ⟨last, ?_, ?_⟩
            · simpa [List.getLast?_cons_cons] using hg
            · rcases hcase with ⟨_, h⟩ | h | h
              · exact Or.inl ⟨by simp, h⟩
              · exact Or.inr (Or.inl h)
              · exact Or.inr (Or.inr h)
    · rw [if_neg hd]
      by_cases he : |k.dist current sampled| ≤ dblEps
      · rw [if_pos he]
        exact ⟨by simp, by simp, by simpa using cons0, fun _ => ⟨current, by simp, Or.inr (Or.inl ⟨not_lt.mp hd, he⟩)⟩⟩
      · rw [if_neg he]
        cases hv : k.valid s current sampled with
        | mk ok s1 =>
          cases ok with
          | false =>
            exact ⟨by simp, by simp, by simpa using cons0,
              fun _ => ⟨current, by simp, Or.inr (Or.inr ⟨sampled, Or.inl ⟨not_lt.mp hd, rfl⟩, s, by rw [hv]⟩)⟩⟩
          | true =>
            refine ⟨by simp, ?_, ?_, fun _ => ⟨sampled, by simp, Or.inl ⟨by simp, rfl⟩⟩⟩
            · intro i v rel hi
              cases i with
              | zero => simp at hi; simp [hi.2]
              | succ i => simp at hi
            · intro i a b ha hb
              cases i with
              | zero =>
                simp at ha hb
                subst ha hb
                exact ⟨Or.inl ⟨not_lt.mp hd, rfl⟩, s, by rw [hv]⟩
              | succ i => simp at hb

/-- C62. Connect returns a chain of states from the nearest state towards the sample: each is the next state to try from
the one before, each edge was accepted by the edge check, and the relative parents are -1, 0, 1, …. It takes at most
`ceil(distance / step size)` steps, and fewer only if the sample was reached or the next edge was rejected. -/
theorem C62_connect (fl : ℚ → ℚ) (k : Kin σ V) (step : ℚ) (s s' : σ) (near sampled : V) (ps : Propagation V)
    (h : connect fl k step s near sampled = .ok (ps, s')) :
    (∀ (i : Nat) (v : V) (rel : Int), ps[i]? = some (v, rel) → rel = (i : Int) - 1) ∧
    Consecutive (fun a b => k.Next fl step sampled a b ∧ k.Accepts a b) (near :: ps.map Prod.fst) ∧
    ps.length ≤ ⌈fl (k.dist near sampled / step)⌉.toNat ∧
    (ps.length < ⌈fl (k.dist near sampled / step)⌉.toNat → ∃ last, (near :: ps.map Prod.fst).getLast? = some last ∧
      ((ps ≠ [] ∧ last = sampled) ∨ (k.dist last sampled ≤ step ∧ |k.dist last sampled| ≤ dblEps) ∨
        ∃ b, k.Next fl step sampled last b ∧ k.Rejects last b)) := by
  unfold connect totalSteps IntType.cast at h
  split at h
  · simp only [Res.ok_bind, Res.pure_eq, Res.ok.injEq] at h
    obtain ⟨h1, h2, h3, h4⟩ := connectLoop_spec fl k step sampled ⌈fl (k.dist near sampled / step)⌉.toNat (-1) near s
    rw [h] at h1 h2 h3 h4
    exact ⟨fun i v rel hi => by have := h2 i v rel hi; omega, h3, h1, h4⟩
  · cases h

/-- C62. Connect returns normally when `ceil(distance / step size)` fits `int32_t`; otherwise the conversion is
undefined behaviour. -/
theorem C62_connect_defined (fl : ℚ → ℚ) (k : Kin σ V) (step : ℚ) (s : σ) (near sampled : V) :
    (-2147483648 ≤ ⌈fl (k.dist near sampled / step)⌉ ∧ ⌈fl (k.dist near sampled / step)⌉ ≤ 2147483647 →
      ∃ r, connect fl k step s near sampled = .ok r) ∧
    (2147483647 < ⌈fl (k.dist near sampled / step)⌉ → connect fl k step s near sampled = .ub) := by
  unfold connect totalSteps IntType.cast
  constructor
  · intro h
    rw [if_pos (show i32.has _ from h)]
    exact ⟨_, rfl⟩
  · intro h
    rw [if_neg (show ¬ i32.has _ from fun hh => by have := hh.2; simp only [i32] at this; omega)]
    rfl

/-- In a chain of relative parents -1, 0, 1, … the parent of a state is the one before it. -/
theorem parentIn_chain {q : V} {ps : Propagation V} {R : V → V → Prop}
    (hrel : ∀ (i : Nat) (v : V) (rel : Int), ps[i]? = some (v, rel) → rel = (i : Int) - 1)
    (hc : Consecutive R (q :: ps.map Prod.fst)) {a b : V} (h : ParentIn q ps a b) : R a b := by
  obtain ⟨i, rel, hi, hcase⟩ := h
  have hr := hrel i b rel hi
  cases i with
  | zero =>
    rcases hcase with ⟨-, rfl⟩ | ⟨h0, -⟩
    · exact hc 0 a b (by simp) (by simp [hi])
    · simp at hr; omega
  | succ i =>
    rcases hcase with ⟨hn, -⟩ | ⟨-, -, r, hr'⟩
    · push_cast at hr; omega
    · have : rel.toNat = i := by push_cast at hr; omega
      rw [this] at hr'
      exact hc (i + 1) a b (by simp [hr']) (by simp [hi])

/-! ### Step lengths and how close connect gets -/

/-- Interpolation runs along a shortest path: it splits the distance in the given proportion. -/
structure Kin.Geodesic (k : Kin σ V) : Prop where
  nonneg : ∀ a b, 0 ≤ k.dist a b
  self : ∀ a, k.dist a a = 0
  first : ∀ a b t, 0 ≤ t → t ≤ 1 → k.dist a (k.interp a b t) = t * k.dist a b
  rest : ∀ a b t, 0 ≤ t → t ≤ 1 → k.dist (k.interp a b t) b = (1 - t) * k.dist a b

theorem ratio_unit_interval {fl : ℚ → ℚ} (hfl : Nearest 53 (-1074) fl) {step d : ℚ} (h0 : 0 < step) (h : step < d) :
    0 ≤ fl (step / d) ∧ fl (step / d) ≤ 1 := by
  have hz : fl 0 = 0 := hfl.fix (by simpa using rep_int (p := 53) (emin := -1074) (by norm_num) (by norm_num) (i := 0) (by norm_num))
  have ho : fl 1 = 1 := hfl.fix (by simpa using rep_int (p := 53) (emin := -1074) (by norm_num) (by norm_num) (i := 1) (by norm_num))
  have hd : 0 < d := lt_trans h0 h
  constructor
  · rw [← hz]; exact hfl.mono (by positivity)
  · conv_rhs => rw [← ho]
    exact hfl.mono (by rw [div_le_one hd]; exact h.le)

/-- C62. A state produced by one step is at most one step size away from its parent, up to rounding: a factor
`1 + 2^-53` unless the quotient is subnormal. -/
theorem C62_step_length {fl : ℚ → ℚ} (hfl : Nearest 53 (-1074) fl) (k : Kin σ V) (hg : k.Geodesic) {step : ℚ}
    (h0 : 0 < step) {sampled a b : V} (hu : (2 : ℚ) ^ (-1022 : Int) * k.dist a sampled ≤ step)
    (h : k.Next fl step sampled a b) : k.dist a b ≤ step * (1 + 2 ^ (-53 : Int)) := by
  have hq : (0 : ℚ) < 2 ^ (-53 : Int) := two_zpow_pos _
  rcases h with ⟨h1, rfl⟩ | ⟨h1, rfl⟩
  · nlinarith
  · obtain ⟨r0, r1⟩ := ratio_unit_interval hfl h0 h1
    have hdp : 0 < k.dist a sampled := lt_trans h0 h1
    rw [hg.first _ _ _ r0 r1]
    have hpos : 0 < step / k.dist a sampled := div_pos h0 hdp
    have hn := hfl.rel_err (by norm_num) (x := step / k.dist a sampled) (by
      rw [abs_of_pos hpos, le_div_iff₀ hdp]
      simpa using hu)
    have h2 := (abs_le.mp hn).2
    rw [abs_of_pos hpos] at h2
    have h3 : fl (step / k.dist a sampled) ≤ step / k.dist a sampled * (1 + 2 ^ (-53 : Int)) := by
      have : (2 : ℚ) ^ (-((53 : Nat) : Int)) = 2 ^ (-53 : Int) := rfl
      rw [this] at h2
      linarith
    calc fl (step / k.dist a sampled) * k.dist a sampled
        ≤ step / k.dist a sampled * (1 + 2 ^ (-53 : Int)) * k.dist a sampled := mul_le_mul_of_nonneg_right h3 hdp.le
      _ = step * (1 + 2 ^ (-53 : Int)) := by field_simp

theorem connectLoop_reach {fl : ℚ → ℚ} (hfl : Nearest 53 (-1074) fl) (k : Kin σ V) (hg : k.Geodesic) {step : ℚ} (h0 : 0 < step)
    (hv : ∀ s a b, (k.valid s a b).1 = true) (sampled : V) (D : ℚ) : ∀ (n : Nat) (parent : Int) (current : V) (s : σ) (B : ℚ),
    0 ≤ B → k.dist current sampled ≤ D → k.dist current sampled ≤ n * step + B →
    ∃ last, (current :: (connectLoop fl k step sampled n parent current s).1.map Prod.fst).getLast? = some last ∧
      k.dist last sampled ≤ max dblEps (B + n * (D * (2 ^ (-53 : Int) / 2))) := by
  intro n
  have hq : (0 : ℚ) < 2 ^ (-53 : Int) / 2 := half_pos (two_zpow_pos _)
  induction n with
  | zero =>
    intro parent current s B hB hD h
    exact ⟨current, by simp [connectLoop], by simp at h ⊢; right; exact h⟩
  | succ n ih =>
    intro parent current s B hB hD h
    have hD0 : 0 ≤ D := le_trans (hg.nonneg _ _) hD
    have hself : k.dist sampled sampled ≤ max dblEps (B + ((n + 1 : Nat) : ℚ) * (D * (2 ^ (-53 : Int) / 2))) := by
      rw [hg.self]; exact le_max_of_le_left (by norm_num [dblEps])
    unfold connectLoop
    dsimp only
    by_cases hd : k.dist current sampled > step
    · rw [if_pos hd]
      have hvv := hv s current (k.interp current sampled (fl (step / k.dist current sampled)))
      cases hval : k.valid s current (k.interp current sampled (fl (step / k.dist current sampled))) with
      | mk ok s1 =>
        rw [hval] at hvv
        dsimp only at hvv
        subst hvv
        dsimp only
        obtain ⟨r0, r1⟩ := ratio_unit_interval hfl h0 hd
        have hdp : 0 < k.dist current sampled := lt_trans h0 hd
        have hpos : 0 < step / k.dist current sampled := div_pos h0 hdp
        have hrest := hg.rest current sampled _ r0 r1
        have hle1 : step / k.dist current sampled ≤ 1 := (div_le_one hdp).mpr hd.le
        have herr := hfl.unit_err (by norm_num) (by norm_num) (x := step / k.dist current sampled) (by rw [abs_of_pos hpos]; exact hle1)
        have herr' := (abs_le.mp herr).1
        have hc : (2 : ℚ) ^ (-((53 : Nat) : Int)) = 2 ^ (-53 : Int) := rfl
        rw [hc] at herr'
        have hmul : step / k.dist current sampled * k.dist current sampled = step := by field_simp
        have hnew : k.dist (k.interp current sampled (fl (step / k.dist current sampled))) sampled ≤
            k.dist current sampled - step + D * (2 ^ (-53 : Int) / 2) := by
          rw [hrest]
          nlinarith
        have hnew' : k.dist (k.interp current sampled (fl (step / k.dist current sampled))) sampled ≤ D := by
          rw [hrest]; nlinarith
        obtain ⟨last, hl, hle⟩ := ih (parent + 1) _ s1 (B + D * (2 ^ (-53 : Int) / 2)) (by positivity) hnew' (by
          push_cast at h; linarith)
        refine ⟨last, by simpa [List.getLast?_cons_cons] using hl, le_trans hle (max_le_max le_rfl (le_of_eq ?_))⟩
        push_cast; ring
    · rw [if_neg hd]
      by_cases he : |k.dist current sampled| ≤ dblEps
      · rw [if_pos he]
        exact ⟨current, by simp, le_max_of_le_left (le_trans (le_abs_self _) he)⟩
      · rw [if_neg he]
        have hvv := hv s current sampled
        cases hval : k.valid s current sampled with
        | mk ok s1 =>
          rw [hval] at hvv
          dsimp only at hvv
          subst hvv
          exact ⟨sampled, by simp, hself⟩

/-- C62. Without obstacles connect ends at the sample up to rounding: the last state is within machine epsilon, or within
`distance * (steps + 2) * 2^-54`, of the sample. -/
theorem C62_connect_reaches {fl : ℚ → ℚ} (hfl : Nearest 53 (-1074) fl) (k : Kin σ V) (hg : k.Geodesic) {step : ℚ}
    (h0 : 0 < step) (hv : ∀ s a b, (k.valid s a b).1 = true) (s s' : σ) (near sampled : V) (ps : Propagation V)
    (hu : k.dist near sampled = 0 ∨ (2 : ℚ) ^ (-1022 : Int) * step ≤ k.dist near sampled)
    (h : connect fl k step s near sampled = .ok (ps, s')) :
    ∃ last, (near :: ps.map Prod.fst).getLast? = some last ∧
      k.dist last sampled ≤ max dblEps
        (k.dist near sampled * ((⌈fl (k.dist near sampled / step)⌉.toNat : ℚ) + 2) * (2 ^ (-53 : Int) / 2)) := by
  unfold connect totalSteps IntType.cast at h
  split at h
  · simp only [Res.ok_bind, Res.pure_eq, Res.ok.injEq] at h
    have hq : (0 : ℚ) < 2 ^ (-53 : Int) := two_zpow_pos _
    have hD0 := hg.nonneg near sampled
    have hle : k.dist near sampled ≤ (⌈fl (k.dist near sampled / step)⌉.toNat : ℚ) * step + k.dist near sampled * 2 ^ (-53 : Int) := by
      rcases hu with hu | hu
      · rw [hu]; positivity
      · have hpos : 0 < k.dist near sampled := lt_of_lt_of_le (mul_pos (two_zpow_pos _) h0) hu
        have hqp : 0 < k.dist near sampled / step := div_pos hpos h0
        have he := hfl.rel_err (by norm_num) (x := k.dist near sampled / step) (by
          rw [abs_of_pos hqp, le_div_iff₀ h0]; simpa using hu)
        have he' := (abs_le.mp he).1
        rw [abs_of_pos hqp, show (2 : ℚ) ^ (-((53 : Nat) : Int)) = 2 ^ (-53 : Int) from rfl] at he'
        have hceil : fl (k.dist near sampled / step) ≤ (⌈fl (k.dist near sampled / step)⌉.toNat : ℚ) := by
          refine le_trans (Int.le_ceil _) ?_
          exact_mod_cast Int.self_le_toNat _
        have hmul : k.dist near sampled / step * step = k.dist near sampled := by field_simp
        have h3 : k.dist near sampled / step - 2 ^ (-53 : Int) * (k.dist near sampled / step) ≤
            (⌈fl (k.dist near sampled / step)⌉.toNat : ℚ) := by linarith
        have h4 := mul_le_mul_of_nonneg_right h3 h0.le
        nlinarith
    obtain ⟨last, hl, hb⟩ := connectLoop_reach hfl k hg h0 hv sampled (k.dist near sampled) _ (-1) near s _ (by positivity) le_rfl hle
    rw [h] at hl
    refine ⟨last, hl, le_trans hb (max_le_max le_rfl (le_of_eq ?_))⟩
    ring
  · cases h

/-! ### Paths -/

/-- Planning with one of the two propagation functions, every call returning normally. -/
def UsesKinematic (fl : ℚ → ℚ) (k : Kin σ V) (step : ℚ) (e : Env σ V V) : Prop :=
  (∀ s q x, e.propagate s q x = extend fl k step s q x) ∨ (∀ s q x, connect fl k step s q x = .ok (e.propagate s q x))

/-- The same for the bidirectional planner. -/
def BiUsesKinematic (fl : ℚ → ℚ) (k : Kin σ V) (step : ℚ) (e : BiEnv σ V) : Prop :=
  (∀ s q v x, e.propagate s q v x = extend fl k step s q v) ∨
  (∀ s q v x, connect fl k step s q v = .ok (e.propagate s q v x))

theorem extend_parent {fl : ℚ → ℚ} {k : Kin σ V} {step : ℚ} {s : σ} {q x a b : V}
    (h : ParentIn q (extend fl k step s q x).1 a b) : k.Accepts a b := by
  unfold extend at h
  dsimp only at h
  split at h
  · next s1 hv =>
    obtain ⟨i, rel, hi, hc⟩ := h
    cases i with
    | zero =>
      simp only [List.length_cons, List.length_nil, List.getElem?_cons_zero, Option.some.injEq, Prod.mk.injEq] at hi
      obtain ⟨rfl, rfl⟩ := hi
      rcases hc with ⟨-, rfl⟩ | ⟨h, -⟩
      · exact ⟨s, by rw [hv]⟩
      · omega
    | succ i => simp at hi
  · obtain ⟨i, rel, hi, -⟩ := h
    simp at hi

theorem connect_parent {fl : ℚ → ℚ} {k : Kin σ V} {step : ℚ} {s : σ} {q x a b : V} {r : Propagation V × σ}
    (h : connect fl k step s q x = .ok r) (hp : ParentIn q r.1 a b) : k.Accepts a b := by
  obtain ⟨ps, s'⟩ := r
  obtain ⟨h1, h2, -⟩ := C62_connect fl k step s s' q x ps h
  exact (parentIn_chain h1 h2 hp).2

/-- C62. With the extend or the connect function, every edge of every path planned by `RRTPlanMultiPath` that was not in
the given tree was accepted by the edge check, in the direction in which the path takes it. -/
theorem C62_rrt_edges_valid (fl : ℚ → ℚ) (k : Kin σ V) (step : ℚ) (e : Env σ V V) (hk : UsesKinematic fl k step e)
    (hro : e.ReadOnly) (fuel : Nat) (t₀ t : Tree V) (s s' : σ) (r : Result V) (hl : Linked t₀)
    (h : rrtPlanMultiPath e fuel t₀ s = some ((t, s'), .ok r)) :
    ∀ p ∈ r.paths, Consecutive (fun a b => TreeEdge t₀ a b ∨ k.Accepts a b) p := by
  intro p hp i a b ha hb
  rcases (C38_sound e hro fuel t₀ t s s' r hl h p hp).2.2 i a b ha hb with h | ⟨s, q, x, hpar⟩
  · exact Or.inl h
  · right
    rcases hk with hk | hk
    · rw [hk] at hpar; exact extend_parent hpar
    · exact connect_parent (hk s q x) hpar

/-- C62. For `BiRRTPlanMultiPath` the edges on the start side were accepted in the direction of the path, those on the
goal side in the opposite direction: the goal tree is checked from the goal outwards. -/
theorem C62_birrt_edges_valid (fl : ℚ → ℚ) (k : Kin σ V) (step : ℚ) (e : BiEnv σ V) (hk : BiUsesKinematic fl k step e)
    (hro : e.ReadOnly) (fuel : Nat) (a₀ b₀ a b : Tree V) (s s' : σ) (r : BiResult V) (ha : Linked a₀) (hb : Linked b₀)
    (h : biRRTPlanMultiPath e fuel a₀ b₀ s = some ((a, b, s'), .ok r)) :
    ∀ p ∈ r.paths, ∃ ps pg, p = ps ++ pg ∧
      (∃ u v, ps.getLast? = some u ∧ pg.head? = some v ∧ Joined e u v) ∧
      Consecutive (fun x y => TreeEdge a₀ x y ∨ k.Accepts x y) ps ∧
      Consecutive (fun x y => TreeEdge b₀ y x ∨ k.Accepts y x) pg := by
  have conv : ∀ side x y, ProducedOn e side x y → k.Accepts x y := by
    rintro side x y ⟨s, q, v, hpar⟩
    rcases hk with hk | hk
    · rw [hk] at hpar; exact extend_parent hpar
    · exact connect_parent (hk s q v side) hpar
  intro p hp
  obtain ⟨ps, pg, h1, -, -, h2, h3, h4⟩ := C39_sound e hro fuel a₀ b₀ a b s s' r ha hb h p hp
  refine ⟨ps, pg, h1, h2, ?_, ?_⟩
  · intro i x y hx hy
    exact (h3 i x y hx hy).imp id (conv _ _ _)
  · intro i x y hx hy
    exact (h4 i x y hx hy).imp id (conv _ _ _)

/-! ### Witnesses -/

/-- Points on a line without obstacles; the edge check counts its calls. -/
def lineKin : Kin Nat ℚ where
  dist a b := |b - a|
  interp a b t := a + t * (b - a)
  valid s _ _ := (true, s + 1)

theorem line_geodesic : lineKin.Geodesic := by
  refine ⟨fun a b => abs_nonneg _, fun a => by simp [lineKin], ?_, ?_⟩
  · intro a b t h0 _
    show |a + t * (b - a) - a| = t * |b - a|
    rw [show a + t * (b - a) - a = t * (b - a) by ring, abs_mul, abs_of_nonneg h0]
  · intro a b t _ h1
    show |b - (a + t * (b - a))| = (1 - t) * |b - a|
    rw [show b - (a + t * (b - a)) = (1 - t) * (b - a) by ring, abs_mul, abs_of_nonneg (by linarith)]

example : connect (nearest 53 (-1074)) lineKin 1 0 0 (5 / 2) =
    .ok ([(18014398509481985 / 18014398509481984, -1),
      (162259276829213373899977140819285 / 81129638414606681695789005144064, 0), (5 / 2, 1)], 3) := by decide +kernel

example : extend (nearest 53 (-1074)) lineKin 1 0 0 2 = ([(1, -1)], 1) ∧ extend (nearest 53 (-1074)) lineKin 1 0 0 1 = ([(1, -1)], 1) := by
  decide +kernel

/-- C62. The bound of `C62_connect_reaches` cannot be replaced by zero: with a step size of the double nearest to 1/3, from
0 to 1, connect takes its three allowed steps, ends short of the sample and does not add it, although no edge is
rejected. -/
theorem C62_connect_stops_short :
    connect (nearest 53 (-1074)) lineKin (nearest 53 (-1074) (1 / 3)) 0 0 1 =
      .ok ([(6004799503160661 / 18014398509481984, -1),
        (216345702438951136176771922482517 / 324518553658426726783156020576256, 0),
        (1461501637330902810030833613240692413271834449237 / 1461501637330902918203684832716283019655932542976, 1)], 3) := by
  decide +kernel

/-- Four places in a row. -/
def rowKin : Kin Nat (Fin 4) where
  dist a b := |((b : Nat) : ℚ) - ((a : Nat) : ℚ)|
  interp a b _ := if a < b then a + 1 else a - 1
  valid s _ _ := (true, s + 1)

/-- A planner on the row with the connect function. -/
def rowEnv : Env Nat (Fin 4) (Fin 4) where
  sample s := (2, s)
  nearest s t _ := ((t.length : Int) - 1, s)
  propagate s q x := match connect (nearest 53 (-1074)) rowKin 1 s q x with
    | .ok r => r
    | _ => ([], s)
  stateAdded := none
  goalReached s v := (decide (v = 2), s)
  goalCallback := none
  terminate s n := (decide (3 ≤ n), s)

/-- A whole plan with the connect function meets the hypotheses of `C62_rrt_edges_valid`. -/
example : UsesKinematic (nearest 53 (-1074)) rowKin 1 rowEnv ∧ rowEnv.ReadOnly ∧
    rrtPlanMultiPath rowEnv 9 [⟨0, -1, []⟩] 0 =
      some (([⟨0, -1, [1]⟩, ⟨1, 0, [2]⟩, ⟨2, 1, []⟩], 2), .ok ⟨[[0, 1, 2]], ⟨1, 1, 0⟩, 3, 1⟩) := by
  refine ⟨Or.inr fun s q x => ?_, ⟨by simp [rowEnv], by simp [rowEnv]⟩, by decide +kernel⟩
  have hb : ∀ q x : Fin 4, -2147483648 ≤ ⌈nearest 53 (-1074) (rowKin.dist q x / 1)⌉ ∧
      ⌈nearest 53 (-1074) (rowKin.dist q x / 1)⌉ ≤ 2147483647 := by decide +kernel
  obtain ⟨r, hr⟩ := (C62_connect_defined (nearest 53 (-1074)) rowKin 1 s q x).1 (hb q x)
  simp only [rowEnv, hr]

end CRU.Rrt
