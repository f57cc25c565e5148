import Verif.Prng.Zero
import Verif.Prng.Cert
import Mathlib.NumberTheory.LucasPrimality
import Mathlib.Tactic.NormNum.Prime
import Mathlib.Tactic.IntervalCases
import Mathlib.Data.ZMod.Basic
/-
  C42: XorShift128Plus has period 2^128 - 1 from every seed.
-/
namespace CRU.Prng
open CRU.Prng.Poly

/-- The states of XorShift128Plus, as a group under bitwise xor. -/
@[ext] structure W where
  a : U64
  b : U64
  deriving DecidableEq

instance : Zero W := ⟨⟨0, 0⟩⟩
instance : Add W := ⟨fun x y => ⟨x.a ^^^ y.a, x.b ^^^ y.b⟩⟩
instance : Neg W := ⟨fun x => x⟩

theorem W.add_a (x y : W) : (x + y).a = x.a ^^^ y.a := rfl
theorem W.add_b (x y : W) : (x + y).b = x.b ^^^ y.b := rfl
theorem W.zero_a : (0 : W).a = 0#64 := rfl
theorem W.zero_b : (0 : W).b = 0#64 := rfl
theorem W.self (x : W) : x + x = 0 := by ext1 <;> simp [W.add_a, W.add_b, W.zero_a, W.zero_b]

instance : AddCommGroup W where
  add_assoc x y z := by ext1 <;> simp only [W.add_a, W.add_b, BitVec.xor_assoc]
  zero_add x := by ext1 <;> simp [W.add_a, W.add_b, W.zero_a, W.zero_b]
  add_zero x := by ext1 <;> simp [W.add_a, W.add_b, W.zero_a, W.zero_b]
  add_comm x y := by ext1 <;> simp only [W.add_a, W.add_b, BitVec.xor_comm]
  neg_add_cancel x := W.self x
  nsmul := nsmulRec
  zsmul := zsmulRec

/-- One step on the states. -/
def wstep (x : W) : W := ⟨(xs128.next (x.a, x.b)).2.1, (xs128.next (x.a, x.b)).2.2⟩

theorem shl_xor {w : Nat} (x y : BitVec w) (k : Nat) : (x ^^^ y) <<< k = x <<< k ^^^ y <<< k := by
  apply BitVec.eq_of_getLsbD_eq
  intro i hi
  simp only [BitVec.getLsbD_shiftLeft, BitVec.getLsbD_xor]
  cases decide (i < w) <;> cases decide (i < k) <;> simp

theorem shr_xor {w : Nat} (x y : BitVec w) (k : Nat) : (x ^^^ y) >>> k = x >>> k ^^^ y >>> k := by
  apply BitVec.eq_of_getLsbD_eq
  intro i hi
  simp

theorem xor4 {w : Nat} (p q r s p' q' r' s' : BitVec w) :
    (p ^^^ p') ^^^ (q ^^^ q') ^^^ (r ^^^ r') ^^^ (s ^^^ s') = (p ^^^ q ^^^ r ^^^ s) ^^^ (p' ^^^ q' ^^^ r' ^^^ s') := by
  ac_rfl

theorem word_add {w : Nat} (a b a' b' : BitVec w) (k l m : Nat) :
    ((a ^^^ a') ^^^ (a ^^^ a') <<< k) ^^^ (b ^^^ b') ^^^ (((a ^^^ a') ^^^ (a ^^^ a') <<< k) >>> l) ^^^ ((b ^^^ b') >>> m) =
    ((a ^^^ a <<< k) ^^^ b ^^^ ((a ^^^ a <<< k) >>> l) ^^^ (b >>> m)) ^^^
      ((a' ^^^ a' <<< k) ^^^ b' ^^^ ((a' ^^^ a' <<< k) >>> l) ^^^ (b' >>> m)) := by
  have h : (a ^^^ a') ^^^ (a ^^^ a') <<< k = (a ^^^ a <<< k) ^^^ (a' ^^^ a' <<< k) := by rw [shl_xor]; ac_rfl
  rw [h, shr_xor (a ^^^ a <<< k), shr_xor b, xor4]

/-- The step is linear. -/
def stepHom : W →+ W where
  toFun := wstep
  map_zero' := by decide
  map_add' x y := by
    ext1
    · rfl
    · exact word_add x.a x.b y.a y.b 23 18 5

/-! ### The characteristic polynomial annihilates every state -/

/-- Evaluate `n` before it is passed on (the kernel reduces lazily otherwise). -/
def force {α : Type} (n : Nat) (F : Nat → α) : α :=
  match n with
  | 0 => F 0
  | k + 1 => F (k + 1)

theorem force_eq {α : Type} (n : Nat) (F : Nat → α) : force n F = F n := by cases n <;> rfl

/-- The second word after a step, on natural numbers. -/
def nextWord (a b : Nat) : Nat :=
  force (a ^^^ (a <<< 23 % 18446744073709551616)) fun s => s ^^^ b ^^^ (s >>> 18) ^^^ (b >>> 5)

/-- Add up the states `f^j v` with the coefficients of `P`. -/
def annLoop (P : Nat) : Nat → Nat → Nat → Nat → Nat → Nat → Bool
  | 0, _, _, _, x, y => Nat.beq x 0 && Nat.beq y 0
  | k + 1, j, a, b, x, y =>
    force (nextWord a b) fun b' => force (x ^^^ if P.testBit j then a else 0) fun x' =>
      force (y ^^^ if P.testBit j then b else 0) fun y' => annLoop P k (j + 1) b b' x' y'

theorem wstep_nat (w : W) : (wstep w).a.toNat = w.b.toNat ∧ (wstep w).b.toNat = nextWord w.a.toNat w.b.toNat := by
  refine ⟨rfl, ?_⟩
  have h : (wstep w).b = (w.a ^^^ w.a <<< 23) ^^^ w.b ^^^ ((w.a ^^^ w.a <<< 23) >>> 18) ^^^ (w.b >>> 5) := rfl
  rw [h]
  unfold nextWord
  rw [force_eq]
  simp only [BitVec.toNat_xor, BitVec.toNat_shiftLeft, BitVec.toNat_ushiftRight]

theorem annLoop_sound (P : Nat) (v : W) (k j : Nat)
    (h : annLoop P k j (stepHom^[j] v).a.toNat (stepHom^[j] v).b.toNat (act stepHom j P v).a.toNat (act stepHom j P v).b.toNat = true) :
    act stepHom (j + k) P v = 0 := by
  induction k generalizing j with
  | zero =>
    simp only [annLoop, Bool.and_eq_true, Nat.beq_eq] at h
    ext1
    · exact BitVec.eq_of_toNat_eq h.1
    · exact BitVec.eq_of_toNat_eq h.2
  | succ k ih =>
    rw [show j + (k + 1) = (j + 1) + k by omega]
    apply ih
    simp only [annLoop, force_eq] at h
    have hs : stepHom^[j + 1] v = wstep (stepHom^[j] v) := by rw [Function.iterate_succ_apply']; rfl
    obtain ⟨n1, n2⟩ := wstep_nat (stepHom^[j] v)
    have hact : act stepHom (j + 1) P v = (if P.testBit j then stepHom^[j] v else 0) + act stepHom j P v := rfl
    rw [hs, n1, n2, hact, W.add_a, W.add_b, BitVec.toNat_xor, BitVec.toNat_xor]
    rw [Nat.xor_comm _ (act stepHom j P v).a.toNat, Nat.xor_comm _ (act stepHom j P v).b.toNat]
    cases hb : P.testBit j with
    | true => simpa only [hb, if_true] using h
    | false => simpa only [hb, Bool.false_eq_true, if_false, W.zero_a, W.zero_b, BitVec.toNat_zero] using h

theorem ann_a : ∀ i : Fin 64, annLoop Cert.P 129 0 (2 ^ i.val) 0 0 0 = true := by decide +kernel
theorem ann_b : ∀ i : Fin 64, annLoop Cert.P 129 0 0 (2 ^ i.val) 0 0 = true := by decide +kernel

theorem P_lt : Cert.P < 2 ^ 129 := by decide +kernel

/-- An additive map that is zero on powers of two is zero. -/
theorem zero_of_bits (g : Nat → W) (hx : ∀ m n, g (m ^^^ n) = g m + g n) (h0 : g 0 = 0) (K : Nat) (hb : ∀ i < K, g (2 ^ i) = 0)
    (n : Nat) (hn : n < 2 ^ K) : g n = 0 := by
  induction K generalizing n with
  | zero => have : n = 0 := by simpa using hn
            subst this; exact h0
  | succ K ih =>
    have ih' := ih (fun i hi => hb i (by omega))
    by_cases ht : n.testBit K = true
    · have hlt : n ^^^ 2 ^ K < 2 ^ K := by
        apply Nat.lt_pow_two_of_testBit
        intro i hi
        rw [Nat.testBit_xor, Nat.testBit_two_pow]
        rcases Nat.eq_or_lt_of_le hi with rfl | hlt
        · simp [ht]
        · have : n.testBit i = false := Nat.testBit_lt_two_pow (lt_of_lt_of_le hn (Nat.pow_le_pow_right (by omega) hlt))
          simp [this]; omega
      have e : n = (n ^^^ 2 ^ K) ^^^ 2 ^ K := by rw [Nat.xor_assoc, Nat.xor_self, Nat.xor_zero]
      rw [e, hx, ih' _ hlt, hb K (by omega), add_zero]
    · apply ih'
      apply Nat.lt_pow_two_of_testBit
      intro i hi
      rcases Nat.eq_or_lt_of_le hi with rfl | hlt
      · simpa using ht
      · exact Nat.testBit_lt_two_pow (lt_of_lt_of_le hn (Nat.pow_le_pow_right (by omega) hlt))

theorem basis_word (i : Nat) (hi : i < 64) : (BitVec.ofNat 64 (2 ^ i)).toNat = 2 ^ i := by
  rw [BitVec.toNat_ofNat]
  exact Nat.mod_eq_of_lt (Nat.pow_lt_pow_right (by omega) hi)

theorem P_annihilates (v : W) : A stepHom Cert.P v = 0 := by
  have key : ∀ i < 64, A stepHom Cert.P ⟨BitVec.ofNat 64 (2 ^ i), 0⟩ = 0 ∧ A stepHom Cert.P ⟨0, BitVec.ofNat 64 (2 ^ i)⟩ = 0 := by
    intro i hi
    constructor
    · rw [A_eq stepHom 129 _ P_lt]
      have h := annLoop_sound Cert.P ⟨BitVec.ofNat 64 (2 ^ i), 0⟩ 129 0 (by
        show annLoop Cert.P 129 0 (BitVec.ofNat 64 (2 ^ i)).toNat 0 0 0 = true
        rw [basis_word i hi]
        exact ann_a ⟨i, hi⟩)
      rwa [Nat.zero_add] at h
    · rw [A_eq stepHom 129 _ P_lt]
      have h := annLoop_sound Cert.P ⟨0, BitVec.ofNat 64 (2 ^ i)⟩ 129 0 (by
        show annLoop Cert.P 129 0 0 (BitVec.ofNat 64 (2 ^ i)).toNat 0 0 = true
        rw [basis_word i hi]
        exact ann_b ⟨i, hi⟩)
      rwa [Nat.zero_add] at h
  have ha : ∀ x : U64, A stepHom Cert.P ⟨x, 0⟩ = 0 := by
    intro x
    have := zero_of_bits (fun n => A stepHom Cert.P ⟨BitVec.ofNat 64 n, 0⟩) (fun m n => by
      rw [← A_add]
      congr 1
      ext1
      · simp [W.add_a]
      · simp [W.add_b]) (A_zero stepHom Cert.P) 64 (fun i hi => (key i hi).1) x.toNat x.isLt
    simpa using this
  have hb : ∀ x : U64, A stepHom Cert.P ⟨0, x⟩ = 0 := by
    intro x
    have := zero_of_bits (fun n => A stepHom Cert.P ⟨0, BitVec.ofNat 64 n⟩) (fun m n => by
      rw [← A_add]
      congr 1
      ext1
      · simp [W.add_a]
      · simp [W.add_b]) (A_zero stepHom Cert.P) 64 (fun i hi => (key i hi).2) x.toNat x.isLt
    simpa using this
  have e : v = ⟨v.a, 0⟩ + ⟨0, v.b⟩ := by
    ext1
    · simp [W.add_a]
    · simp [W.add_b]
  rw [e, A_add, ha, hb, add_zero]

/-! ### The period -/

/-- 2^128 - 1. (Irreducible, so that Lean does not compute with it in unary.) -/
@[irreducible] def period128 : Nat := 2 ^ 128 - 1

theorem period128_eq : period128 = 340282366920938463463374607431768211455 := by unfold period128; norm_num

/-- Powers modulo `m`, by repeated squaring. -/
def powMod (m b : Nat) : Nat → Nat → Nat
  | 0, _ => 1 % m
  | k + 1, e => force (powMod m b k (e / 2)) fun h => if e % 2 = 1 then h * h % m * b % m else h * h % m

theorem powMod_eq (m b k e : Nat) (h : e < 2 ^ k) : powMod m b k e = b ^ e % m := by
  induction k generalizing e with
  | zero =>
    have : e = 0 := by simpa using h
    subst this; rfl
  | succ k ih =>
    have h2 : e / 2 < 2 ^ k := by rw [Nat.pow_succ] at h; omega
    simp only [powMod, force_eq, ih _ h2]
    have he : b ^ (e / 2) * b ^ (e / 2) = b ^ (2 * (e / 2)) := by rw [← pow_add]; congr 1; omega
    split
    · rename_i ho
      have : e = 2 * (e / 2) + 1 := by omega
      rw [← Nat.mul_mod, Nat.mod_mul_mod, he, ← pow_succ, ← this]
    · have : e = 2 * (e / 2) := by omega
      rw [← Nat.mul_mod, he, ← this]

theorem prime_big : Nat.Prime 67280421310721 := by
  have hp : (67280421310721 : Nat) - 1 = 2 ^ 8 * 5 * 47 * 373 * 2998279 := by norm_num
  have conv : ∀ e : Nat, ((3 : ZMod 67280421310721) ^ e = 1 ↔ 3 ^ e % 67280421310721 = 1 % 67280421310721) := by
    intro e
    have := ZMod.natCast_eq_natCast_iff' (3 ^ e) 1 67280421310721
    push_cast at this
    exact this
  refine lucas_primality 67280421310721 3 ?_ ?_
  · rw [conv, ← powMod_eq _ _ 46 _ (by norm_num)]
    decide +kernel
  · intro q hq hd
    have hq2 : q = 2 ∨ q = 5 ∨ q = 47 ∨ q = 373 ∨ q = 2998279 := by
      rw [hp] at hd
      simp only [hq.dvd_mul] at hd
      have h1 : Nat.Prime 2 := by norm_num
      have h2 : Nat.Prime 5 := by norm_num
      have h3 : Nat.Prime 47 := by norm_num
      have h4 : Nat.Prime 373 := by norm_num
      have h5 : Nat.Prime 2998279 := by norm_num
      rcases hd with (((hd | hd) | hd) | hd) | hd
      · exact Or.inl ((Nat.prime_dvd_prime_iff_eq hq h1).mp (hq.dvd_of_dvd_pow hd))
      · exact Or.inr (Or.inl ((Nat.prime_dvd_prime_iff_eq hq h2).mp hd))
      · exact Or.inr (Or.inr (Or.inl ((Nat.prime_dvd_prime_iff_eq hq h3).mp hd)))
      · exact Or.inr (Or.inr (Or.inr (Or.inl ((Nat.prime_dvd_prime_iff_eq hq h4).mp hd))))
      · exact Or.inr (Or.inr (Or.inr (Or.inr ((Nat.prime_dvd_prime_iff_eq hq h5).mp hd))))
    rw [Ne, conv]
    rcases hq2 with rfl | rfl | rfl | rfl | rfl <;>
      (rw [← powMod_eq _ _ 46 _ (by norm_num)]; decide +kernel)

theorem period_factors : period128 = 3 * 5 * 17 * 257 * 641 * 65537 * 274177 * 6700417 * 67280421310721 := by
  rw [period128_eq]

theorem prime_factor {p : Nat} (hp : p.Prime) (hd : p ∣ period128) :
    p = 3 ∨ p = 5 ∨ p = 17 ∨ p = 257 ∨ p = 641 ∨ p = 65537 ∨ p = 274177 ∨ p = 6700417 ∨ p = 67280421310721 := by
  rw [period_factors] at hd
  simp only [hp.dvd_mul] at hd
  have hpr : ∀ q : Nat, q.Prime → p ∣ q → p = q := fun q hq h => (Nat.prime_dvd_prime_iff_eq hp hq).mp h
  rcases hd with (((((((hd | hd) | hd) | hd) | hd) | hd) | hd) | hd) | hd
  · exact Or.inl (hpr _ (by norm_num) hd)
  · exact Or.inr (Or.inl (hpr _ (by norm_num) hd))
  · exact Or.inr (Or.inr (Or.inl (hpr _ (by norm_num) hd)))
  · exact Or.inr (Or.inr (Or.inr (Or.inl (hpr _ (by norm_num) hd))))
  · exact Or.inr (Or.inr (Or.inr (Or.inr (Or.inl (hpr _ (by norm_num) hd)))))
  · exact Or.inr (Or.inr (Or.inr (Or.inr (Or.inr (Or.inl (hpr _ (by norm_num) hd))))))
  · exact Or.inr (Or.inr (Or.inr (Or.inr (Or.inr (Or.inr (Or.inl (hpr _ (by norm_num) hd)))))))
  · exact Or.inr (Or.inr (Or.inr (Or.inr (Or.inr (Or.inr (Or.inr (Or.inl (hpr _ (by norm_num) hd))))))))
  · exact Or.inr (Or.inr (Or.inr (Or.inr (Or.inr (Or.inr (Or.inr (Or.inr (hpr _ prime_big hd))))))))

theorem power_of_chain {l : List (Bool × Nat × Nat)} {t e : Nat} (h : chainOk Cert.P 1 l t = true) (he : expo 0 l = e) (w : W) :
    A stepHom t w = stepHom^[e] w := by
  rw [← he]
  exact chain_power stepHom W.self P_annihilates l 0 1 t h (A_one stepHom) w

theorem no_fixpoint {l : List (Bool × Nat × Nat)} {t a b e : Nat}
    (h : chainOk Cert.P 1 l t = true ∧ bezoutOk Cert.P (t ^^^ 1) a b = true ∧ expo 0 l = e) (v : W) (hv : stepHom^[e] v = v) : v = 0 :=
  bezout_no_fixpoint stepHom W.self P_annihilates (power_of_chain h.1 h.2.2) h.2.1 v hv

theorem step_period (v : W) (hv : v ≠ 0) : Function.minimalPeriod stepHom v = period128 := by
  apply minimalPeriod_eq
  · intro v
    rw [period128_eq, ← power_of_chain Cert.chainN_ok Cert.chainN_expo v, A_one]
  · intro p hp hd v h
    rw [period128_eq] at h
    rcases prime_factor hp hd with rfl | rfl | rfl | rfl | rfl | rfl | rfl | rfl | rfl
    · exact no_fixpoint Cert.chainP3_ok v h
    · exact no_fixpoint Cert.chainP5_ok v h
    · exact no_fixpoint Cert.chainP17_ok v h
    · exact no_fixpoint Cert.chainP257_ok v h
    · exact no_fixpoint Cert.chainP641_ok v h
    · exact no_fixpoint Cert.chainP65537_ok v h
    · exact no_fixpoint Cert.chainP274177_ok v h
    · exact no_fixpoint Cert.chainP6700417_ok v h
    · exact no_fixpoint Cert.chainP67280421310721_ok v h
  · exact hv

/-! ### In terms of the generator -/

def toW (st : U64 × U64) : W := ⟨st.1, st.2⟩

theorem toW_inj {x y : U64 × U64} (h : toW x = toW y) : x = y := by
  have h1 := congrArg W.a h
  have h2 := congrArg W.b h
  exact Prod.ext h1 h2

theorem toW_discard (n : Nat) (st : U64 × U64) : toW (xs128.discard n st) = stepHom^[n] (toW st) := by
  induction n generalizing st with
  | zero => rfl
  | succ n ih => rw [discard_succ, ih]; rfl

theorem toW_zero {st : U64 × U64} (h : st ≠ (0, 0)) : toW st ≠ 0 := fun hz => h (toW_inj (y := (0, 0)) hz)

theorem states_distinct {st : U64 × U64} (h : st ≠ (0, 0)) {m n : Nat} (hm : m < period128) (hn : n < period128)
    (he : xs128.discard m st = xs128.discard n st) : m = n := by
  have h1 := congrArg toW he
  rw [toW_discard, toW_discard] at h1
  have hp := step_period _ (toW_zero h)
  exact Function.iterate_injOn_Iio_minimalPeriod (by rw [hp]; exact hm) (by rw [hp]; exact hn) h1

theorem states_return (st : U64 × U64) (h : st ≠ (0, 0)) : xs128.discard period128 st = st := by
  apply toW_inj
  rw [toW_discard, ← step_period _ (toW_zero h)]
  exact Function.isPeriodicPt_minimalPeriod _ _

theorem period_succ : period128 + 1 = (2 ^ 64) * (2 ^ 64) := by rw [period128_eq]; norm_num

theorem card_states : Nat.card (U64 × U64) = period128 + 1 := by
  have h64 : Nat.card U64 = 2 ^ 64 := by
    rw [Nat.card_congr (⟨fun x => x.toFin, fun x => ⟨x⟩, fun x => rfl, fun x => rfl⟩ : U64 ≃ Fin (2 ^ 64)), Nat.card_eq_fintype_card,
      Fintype.card_fin]
  rw [Nat.card_prod, h64, period_succ]

/-- Every state except the all-zero one is reached, from every other. -/
theorem states_all (st st' : U64 × U64) (h : st ≠ (0, 0)) (h' : st' ≠ (0, 0)) : ∃ n < period128, xs128.discard n st = st' := by
  have hfin : Finite (U64 × U64) := by
    apply (Nat.card_pos_iff.mp _).2
    rw [card_states]
    omega
  have hnz : ∀ n, xs128.discard n st ≠ (0, 0) := by
    intro n hz
    apply h
    apply toW_inj
    have h1 : stepHom^[n] (toW st) = 0 := by rw [← toW_discard, hz]; rfl
    have hinj : Function.Injective stepHom := by
      intro x y hxy
      have e1 := xs128_step_injective (a₁ := (x.a, x.b)) (a₂ := (y.a, y.b))
        (Prod.ext (congrArg W.a hxy) (congrArg W.b hxy))
      exact W.ext (congrArg Prod.fst e1) (congrArg Prod.snd e1)
    exact hinj.iterate n (h1.trans (iter_zero stepHom n).symm)
  let g : Fin (period128 + 1) → U64 × U64 := Fin.cases (0, 0) (fun i => xs128.discard i.val st)
  have hg : Function.Injective g := by
    intro i j
    refine Fin.cases ?_ (fun i => ?_) i <;> refine Fin.cases ?_ (fun j => ?_) j
    · intro _; rfl
    · intro hh; exact absurd hh.symm (hnz j.val)
    · intro hh; exact absurd hh (hnz i.val)
    · intro hh
      have := states_distinct h i.isLt j.isLt hh
      rw [Fin.ext this]
  have hb : Function.Bijective g := hg.bijective_of_nat_card_le (by rw [card_states, Nat.card_eq_fintype_card, Fintype.card_fin])
  obtain ⟨i, hi⟩ := hb.2 st'
  revert hi
  refine Fin.cases ?_ (fun i => ?_) i
  · intro hh; exact absurd hh.symm h'
  · intro hh; exact ⟨i.val, i.isLt, hh⟩

/-- C42: XorShift128Plus has period 2^128 - 1 from every seed: the state (hence every later output) comes back after 2^128 - 1 draws
and not before, in between all other states except the all-zero one are visited; and the output sequences of any two
seeds are one sequence, begun at different places. -/
theorem C42_xs128_full_period (s : U64) :
    (∀ m n, m < period128 → n < period128 → xs128.discard m (xs128.construct s) = xs128.discard n (xs128.construct s) → m = n) ∧
    (∀ n, xs128.output s (n + period128) = xs128.output s n) ∧
    (∀ st, st ≠ (0, 0) → ∃ n < period128, xs128.discard n (xs128.construct s) = st) ∧
    ∀ s', ∃ k < period128, ∀ n, xs128.output s' n = xs128.output s (k + n) := by
  have hnz : ∀ s, xs128.construct s ≠ (0, 0) := fun s => C42_xs128_never_zero s []
  have hadd : ∀ a b st, xs128.discard (a + b) st = xs128.discard b (xs128.discard a st) := by
    intro a
    induction a with
    | zero => intro b st; rw [Nat.zero_add, discard_zero]
    | succ a ih => intro b st; rw [Nat.succ_add, discard_succ, ih, ← discard_succ]
  refine ⟨fun m n hm hn he => states_distinct (hnz s) hm hn he, fun n => ?_, fun st hst => states_all _ _ (hnz s) hst, fun s' => ?_⟩
  · unfold Machine.output
    rw [Nat.add_comm, hadd, states_return _ (hnz s)]
  · obtain ⟨k, hk, he⟩ := states_all (xs128.construct s) (xs128.construct s') (hnz s) (hnz s')
    refine ⟨k, hk, fun n => ?_⟩
    unfold Machine.output
    rw [hadd, he]

/-- Two concrete seeds: the second sequence is met inside the first, and the sequence does not come back after 2^64 draws. -/
example : (∃ k < period128, ∀ n, xs128.output 7 n = xs128.output 42 (k + n)) ∧
    xs128.discard 18446744073709551616 (xs128.construct 42) ≠ xs128.construct 42 :=
  ⟨(C42_xs128_full_period 42).2.2.2 7, fun h => by
    have := (C42_xs128_full_period 42).1 18446744073709551616 0 (by rw [period128_eq]; norm_num) (by rw [period128_eq]; norm_num)
      (by rw [h, discard_zero])
    exact absurd this (by norm_num)⟩

end CRU.Prng
