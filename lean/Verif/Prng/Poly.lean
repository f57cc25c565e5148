import Mathlib.Algebra.Group.Hom.Defs
import Mathlib.Algebra.Group.Basic
import Mathlib.Dynamics.PeriodicPts.Lemmas
import Mathlib.Data.Nat.Prime.Basic
import Mathlib.Data.Nat.Bitwise
import Mathlib.Tactic.Abel
import Mathlib.Tactic.Ring
/-
  Polynomials over GF(2), written as natural numbers (bit `i` is the coefficient of `x^i`), acting on a group in which every element
  is its own inverse, `x` acting as a given additive map `f`. Used to find the period of linear generators.
-/
namespace CRU.Prng.Poly

variable {V : Type} [AddCommGroup V] (f : V →+ V)

/-- The polynomial made of the lowest `k` coefficients of `r`, applied to `v`. -/
def act : Nat → Nat → V → V
  | 0, _, _ => 0
  | k + 1, r, v => (if r.testBit k then f^[k] v else 0) + act k r v

theorem iter_add (k : Nat) (v w : V) : f^[k] (v + w) = f^[k] v + f^[k] w := by
  induction k generalizing v w with
  | zero => rfl
  | succ k ih => rw [Function.iterate_succ_apply, map_add, ih, ← Function.iterate_succ_apply, ← Function.iterate_succ_apply]

theorem iter_zero (k : Nat) : f^[k] 0 = 0 := by
  induction k with
  | zero => rfl
  | succ k ih => rw [Function.iterate_succ_apply, map_zero, ih]

theorem act_add (k r : Nat) (v w : V) : act f k r (v + w) = act f k r v + act f k r w := by
  induction k with
  | zero => simp [act]
  | succ k ih =>
    simp only [act, ih, iter_add]
    split
    · abel
    · abel

theorem act_zero (k r : Nat) : act f k r 0 = 0 := by
  induction k with
  | zero => rfl
  | succ k ih => simp [act, ih]

theorem act_xor (h2 : ∀ v : V, v + v = 0) (k r s : Nat) (v : V) : act f k (r ^^^ s) v = act f k r v + act f k s v := by
  induction k with
  | zero => simp [act]
  | succ k ih =>
    simp only [act, ih, Nat.testBit_xor]
    cases r.testBit k <;> cases s.testBit k <;> simp only [Bool.false_bne, Bool.true_bne, Bool.not_true, Bool.not_false,
      Bool.false_eq_true, if_true, if_false, bne_self_eq_false, zero_add]
    · abel
    · abel
    · have := h2 (f^[k] v)
      calc act f k r v + act f k s v = (f^[k] v + f^[k] v) + (act f k r v + act f k s v) := by rw [this, zero_add]
        _ = _ := by abel

theorem act_stable (k d r : Nat) (h : r < 2 ^ k) (v : V) : act f (k + d) r v = act f k r v := by
  induction d with
  | zero => rfl
  | succ d ih =>
    rw [← Nat.add_assoc]
    show (if r.testBit (k + d) then f^[k + d] v else 0) + act f (k + d) r v = _
    rw [Nat.testBit_lt_two_pow (lt_of_lt_of_le h (Nat.pow_le_pow_right (by omega) (by omega))), ih]
    simp

theorem act_low (i r : Nat) (v : V) : act f i (r <<< i) v = 0 := by
  have key : ∀ j ≤ i, act f j (r <<< i) v = 0 := by
    intro j
    induction j with
    | zero => intro _; rfl
    | succ j ih =>
      intro hj
      simp only [act]
      rw [ih (by omega), Nat.testBit_shiftLeft]
      have : ¬ i ≤ j := by omega
      simp [this]
  exact key i le_rfl

theorem act_shift (k i r : Nat) (v : V) : act f (k + i) (r <<< i) v = f^[i] (act f k r v) := by
  induction k with
  | zero => rw [Nat.zero_add, act_low]; exact (iter_zero f i).symm
  | succ k ih =>
    rw [show k + 1 + i = (k + i) + 1 by omega]
    simp only [act]
    rw [ih, iter_add, Nat.testBit_shiftLeft]
    simp only [ge_iff_le, Nat.le_add_left, decide_true, Bool.true_and, Nat.add_sub_cancel]
    congr 1
    split
    · rw [Nat.add_comm k i, Function.iterate_add_apply]
    · rw [iter_zero]

/-- The polynomial `r` applied to `v`. -/
def A (r : Nat) (v : V) : V := act f r r v

theorem A_eq (k r : Nat) (h : r < 2 ^ k) (v : V) : A f r v = act f k r v := by
  unfold A
  have h' : r < 2 ^ r := Nat.lt_two_pow_self
  rcases Nat.le_total k r with hkr | hkr
  · obtain ⟨d, hd⟩ := Nat.exists_eq_add_of_le hkr
    conv_lhs => rw [show act f r r v = act f (k + d) r v by rw [← hd]]
    exact act_stable f k d r h v
  · obtain ⟨d, hd⟩ := Nat.exists_eq_add_of_le hkr
    conv_rhs => rw [show act f k r v = act f (r + d) r v by rw [← hd]]
    exact (act_stable f r d r h' v).symm

theorem A_add (r : Nat) (v w : V) : A f r (v + w) = A f r v + A f r w := act_add f r r v w
theorem A_zero (r : Nat) : A f r 0 = 0 := act_zero f r r

theorem A_xor (h2 : ∀ v : V, v + v = 0) (r s : Nat) (v : V) : A f (r ^^^ s) v = A f r v + A f s v := by
  have hr : r < 2 ^ (max r s) := lt_of_lt_of_le Nat.lt_two_pow_self (Nat.pow_le_pow_right (by omega) (le_max_left r s))
  have hs : s < 2 ^ (max r s) := lt_of_lt_of_le Nat.lt_two_pow_self (Nat.pow_le_pow_right (by omega) (le_max_right r s))
  rw [A_eq f (max r s) _ (Nat.xor_lt_two_pow hr hs), A_eq f _ r hr, A_eq f _ s hs, act_xor f h2]

theorem A_shift (i r : Nat) (v : V) : A f (r <<< i) v = f^[i] (A f r v) := by
  have h : r <<< i < 2 ^ (r + i) := by
    rw [Nat.shiftLeft_eq, Nat.pow_add]
    exact Nat.mul_lt_mul_of_pos_right Nat.lt_two_pow_self (Nat.two_pow_pos i)
  rw [A_eq f (r + i) _ h, act_shift, A]

theorem A_zero_poly (v : V) : A f 0 v = 0 := rfl

theorem A_one (v : V) : A f 1 v = v := by
  rw [A_eq f 1 1 (by omega)]
  simp [act]

/-- Carry-less multiplication with the lowest `k` coefficients of `r`. -/
def clmul : Nat → Nat → Nat → Nat
  | 0, _, _ => 0
  | k + 1, r, s => (if r.testBit k then s <<< k else 0) ^^^ clmul k r s

theorem A_clmul (h2 : ∀ v : V, v + v = 0) (k r s : Nat) (h : r < 2 ^ k) (v : V) : A f (clmul k r s) v = A f r (A f s v) := by
  rw [A_eq f k r h]
  clear h
  induction k with
  | zero => rfl
  | succ k ih =>
    simp only [clmul, act]
    rw [A_xor f h2, ih]
    congr 1
    split
    · rw [A_shift]
    · rfl

/-- One step of a power computation: from `v` the square of `v`, times `x` if `b`, reduced by the multiple `q` of `P`. -/
def stepOk (P v : Nat) (b : Bool) (q v' : Nat) : Bool :=
  decide (v < 2 ^ 128) && decide (q < 2 ^ 130) && decide ((clmul 128 v v <<< b.toNat) ^^^ clmul 130 q P = v')

/-- A chain of such steps from `v` to `t`. -/
def chainOk (P : Nat) : Nat → List (Bool × Nat × Nat) → Nat → Bool
  | v, [], t => decide (v = t)
  | v, (b, q, v') :: l, t => stepOk P v b q v' && chainOk P v' l t

/-- The exponent a chain computes. -/
def expo : Nat → List (Bool × Nat × Nat) → Nat
  | e, [] => e
  | e, (b, _, _) :: l => expo (2 * e + b.toNat) l

theorem chain_power (h2 : ∀ v : V, v + v = 0) {P : Nat} (hP : ∀ v, A f P v = 0) (l : List (Bool × Nat × Nat)) (e v t : Nat)
    (h : chainOk P v l t = true) (hv : ∀ w, A f v w = f^[e] w) (w : V) : A f t w = f^[expo e l] w := by
  induction l generalizing e v with
  | nil =>
    simp only [chainOk, decide_eq_true_eq] at h
    subst h
    exact hv w
  | cons x l ih =>
    obtain ⟨b, q, v'⟩ := x
    simp only [chainOk, stepOk, Bool.and_eq_true, decide_eq_true_eq] at h
    obtain ⟨⟨⟨h1, h3⟩, h4⟩, h5⟩ := h
    refine ih (2 * e + b.toNat) v' h5 (fun w => ?_)
    rw [← h4, A_xor f h2, A_clmul f h2 130 q P h3, hP, A_zero, add_zero, A_shift, A_clmul f h2 128 v v h1, hv, hv,
      ← Function.iterate_add_apply, ← Function.iterate_add_apply]
    congr 1
    omega

/-- `b`, `a` with `a * t' + b * P = 1`. -/
def bezoutOk (P t' a b : Nat) : Bool :=
  decide (a < 2 ^ 128) && decide (b < 2 ^ 128) && decide (clmul 128 a t' ^^^ clmul 128 b P = 1)

theorem bezout_no_fixpoint (h2 : ∀ v : V, v + v = 0) {P : Nat} (hP : ∀ v, A f P v = 0) {t a b e : Nat}
    (ht : ∀ w, A f t w = f^[e] w) (h : bezoutOk P (t ^^^ 1) a b = true) (v : V) (hv : f^[e] v = v) : v = 0 := by
  simp only [bezoutOk, Bool.and_eq_true, decide_eq_true_eq] at h
  obtain ⟨⟨ha, hb⟩, h1⟩ := h
  have := A_one f v
  rw [← h1, A_xor f h2, A_clmul f h2 128 a _ ha, A_clmul f h2 128 b P hb, hP, A_zero, A_xor f h2, ht, hv, A_one, h2, A_zero,
    add_zero] at this
  exact this.symm

/-- If `f^N` is the identity and no nonzero element is fixed by `f^(N/p)` for a prime divisor `p` of `N`, every nonzero element has
period `N`. -/
theorem minimalPeriod_eq {N : Nat} (hid : ∀ v : V, f^[N] v = v)
    (hp : ∀ p, p.Prime → p ∣ N → ∀ v : V, f^[N / p] v = v → v = 0) (v : V) (hv : v ≠ 0) : Function.minimalPeriod f v = N := by
  have hd : Function.minimalPeriod f v ∣ N := Function.IsPeriodicPt.minimalPeriod_dvd (hid v)
  by_contra hne
  obtain ⟨c, hc⟩ := hd
  have hc1 : c ≠ 1 := by
    rintro rfl
    rw [Nat.mul_one] at hc
    exact hne hc.symm
  obtain ⟨p, hpp, hpc⟩ := Nat.exists_prime_and_dvd hc1
  obtain ⟨c', rfl⟩ := hpc
  refine hv (hp p hpp ⟨Function.minimalPeriod f v * c', by rw [hc]; ring⟩ v ?_)
  have : N / p = Function.minimalPeriod f v * c' := by
    conv_lhs => rw [hc, show Function.minimalPeriod f v * (p * c') = (Function.minimalPeriod f v * c') * p by ring]
    exact Nat.mul_div_cancel _ hpp.pos
  rw [this]
  exact (Function.isPeriodicPt_minimalPeriod f v).mul_const c'

end CRU.Prng.Poly
