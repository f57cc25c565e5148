import Verif.Prng.Spec
import Mathlib.Data.Fintype.Card
import Mathlib.Data.Fintype.Prod
import Mathlib.Data.Fintype.EquivFin
import Mathlib.Data.Fintype.BigOperators
import Mathlib.Dynamics.PeriodicPts.Lemmas
/-
  C42: laws of the pseudo-random generators.
-/
namespace CRU.Prng

variable {σ : Type}

/-! ### Shifts and multiplications that lose nothing -/

theorem xor_shr_inj {w k : Nat} (hk : 0 < k) {x y : BitVec w} (h : x ^^^ (x >>> k) = y ^^^ (y >>> k)) : x = y := by
  have hb : ∀ i, (x.getLsbD i ^^ x.getLsbD (k + i)) = (y.getLsbD i ^^ y.getLsbD (k + i)) := by
    intro i
    have := congrArg (fun z => z.getLsbD i) h
    simpa using this
  have key : ∀ d i, w ≤ i + d → x.getLsbD i = y.getLsbD i := by
    intro d
    induction d with
    | zero => intro i hi; rw [BitVec.getLsbD_of_ge x i (by omega), BitVec.getLsbD_of_ge y i (by omega)]
    | succ d ih =>
      intro i hi
      have h1 := hb i
      rw [ih (k + i) (by omega)] at h1
      exact Bool.xor_left_inj.mp h1
  apply BitVec.eq_of_getLsbD_eq
  intro i hi
  exact key w i (by omega)

theorem xor_shl_inj {w k : Nat} (hk : 0 < k) {x y : BitVec w} (h : x ^^^ (x <<< k) = y ^^^ (y <<< k)) : x = y := by
  have key : ∀ i, i < w → x.getLsbD i = y.getLsbD i := by
    intro i
    induction i using Nat.strongRecOn with
    | ind i ih =>
      intro hi
      have h1 := congrArg (fun z => z.getLsbD i) h
      simp only [BitVec.getLsbD_xor, BitVec.getLsbD_shiftLeft] at h1
      by_cases hik : i < k
      · simpa [hik, hi] using h1
      · rw [ih (i - k) (by omega) (by omega)] at h1
        exact Bool.xor_left_inj.mp h1
  exact BitVec.eq_of_getLsbD_eq key

theorem mul_inj {w : Nat} {c d x y : BitVec w} (hc : c * d = 1#w) (h : x * c = y * c) : x = y := by
  have := congrArg (· * d) h
  simpa [BitVec.mul_assoc, hc] using this

theorem mix_injective : Function.Injective mix := by
  intro x y h
  unfold mix at h
  have h1 := xor_shr_inj (by omega) h
  have h2 := mul_inj (d := 0x319642b2d24d8ec3) (by decide) h1
  have h3 := xor_shr_inj (by omega) h2
  have h4 := mul_inj (d := 0x96de1b173f119089) (by decide) h3
  exact xor_shr_inj (by omega) h4

/-! ### discard -/

/-- C42: `discard(z)` is the same as `z` draws whose outputs are thrown away, for all three generators. -/
theorem C42_discard (m : Machine σ) (z : U64) (later : List Call) (s : σ) :
    (m.run (.discard z :: later) s).1 = ((m.run (List.replicate z.toNat .draw ++ later) s).1).drop z.toNat ∧
    (m.run (.discard z :: later) s).2 = (m.run (List.replicate z.toNat .draw ++ later) s).2 := by
  show (m.run later (m.discard z.toNat s)).1 = _ ∧ (m.run later (m.discard z.toNat s)).2 = _
  generalize z.toNat = n
  induction n generalizing s with
  | zero => exact ⟨rfl, rfl⟩
  | succ n ih =>
    rw [List.replicate_succ]
    exact ih (m.next s).2

example : (splitMix.run [.discard 2, .draw] 0).1 = [0x06c45d188009454f] ∧
    (splitMix.run [.draw, .draw, .draw] 0).1 = [0xe220a8397b1dcdaf, 0x6e789e6aa1b965f4, 0x06c45d188009454f] := by decide

/-! ### SplitMix64 -/

theorem counter_step {w : Nat} (st g : BitVec w) (n : Nat) : st + g + BitVec.ofNat w n * g = st + BitVec.ofNat w (n + 1) * g := by
  rw [BitVec.ofNat_add, BitVec.add_mul, BitVec.one_mul, BitVec.add_assoc, BitVec.add_comm g]

theorem counter_step' {w : Nat} (st g : BitVec w) (n : Nat) : st + BitVec.ofNat w n * g + g = st + BitVec.ofNat w (n + 1) * g := by
  rw [BitVec.ofNat_add, BitVec.add_mul, BitVec.one_mul, BitVec.add_assoc]

theorem discard_zero (m : Machine σ) (s : σ) : m.discard 0 s = s := rfl
theorem discard_succ (m : Machine σ) (n : Nat) (s : σ) : m.discard (n + 1) s = m.discard n (m.next s).2 := rfl
theorem splitMix_next (st : U64) : splitMix.next st = (mix (st + gamma), st + gamma) := rfl

theorem splitMix_discard (n : Nat) (st : U64) : splitMix.discard n st = st + BitVec.ofNat 64 n * gamma := by
  induction n generalizing st with
  | zero => rw [BitVec.zero_mul, BitVec.add_zero, discard_zero]
  | succ n ih =>
    rw [← counter_step st gamma n, discard_succ, splitMix_next, ih]

theorem splitMix_output (s : U64) (n : Nat) : splitMix.output s n = mix (s + BitVec.ofNat 64 (n + 1) * gamma) := by
  unfold Machine.output
  rw [splitMix_next, ← counter_step' s gamma n, splitMix_discard, show splitMix.construct s = s from rfl]

/-- The number of 64-bit values, 2^64. (Irreducible, so that Lean does not compute with it in unary.) -/
@[irreducible] def all64 : Nat := 2 ^ 64

theorem all64_eq : all64 = 2 ^ 64 := by unfold all64; rfl

theorem ofNat_inj_lt {w m n : Nat} (hm : m < 2 ^ w) (hn : n < 2 ^ w) (h : BitVec.ofNat w m = BitVec.ofNat w n) : m = n := by
  have h3 := congrArg BitVec.toNat h
  simpa only [BitVec.toNat_ofNat, Nat.mod_eq_of_lt hm, Nat.mod_eq_of_lt hn] using h3

theorem ofNat_add_period (w n : Nat) : BitVec.ofNat w (n + 2 ^ w) = BitVec.ofNat w n := by
  apply BitVec.eq_of_toNat_eq
  simp

theorem add_left_cancel' {w : Nat} {a b c : BitVec w} (h : a + b = a + c) : b = c := by
  have := congrArg (fun x => x - a) h
  simpa [BitVec.add_comm a, BitVec.add_sub_cancel] using this

theorem splitMix_output_inj (s : U64) {m n : Nat} (hm : m < all64) (hn : n < all64)
    (h : splitMix.output s m = splitMix.output s n) : m = n := by
  rw [all64_eq] at hm hn
  rw [splitMix_output, splitMix_output] at h
  have h2 := mul_inj (d := 0xf1de83e19937733d) (by decide) (add_left_cancel' (mix_injective h))
  rw [BitVec.ofNat_add, BitVec.ofNat_add] at h2
  have h3 := add_left_cancel' ((BitVec.add_comm _ _).trans (h2.trans (BitVec.add_comm _ _)))
  exact ofNat_inj_lt hm hn h3

theorem exists_of_inj (w : Nat) (f : Nat → BitVec w) (h : ∀ m n, m < 2 ^ w → n < 2 ^ w → f m = f n → m = n) (v : BitVec w) :
    ∃ n, n < 2 ^ w ∧ f n = v := by
  have hinj : Function.Injective (fun i : Fin (2 ^ w) => (f i.val).toFin) := by
    intro i j hij
    exact Fin.ext (h i j i.isLt j.isLt (BitVec.eq_of_toNat_eq (congrArg Fin.val hij)))
  obtain ⟨i, hi⟩ := (Finite.injective_iff_surjective.mp hinj) v.toFin
  exact ⟨i.val, i.isLt, BitVec.eq_of_toNat_eq (congrArg Fin.val hi)⟩

/-- C42: among the first 2^64 outputs of a SplitMix64 generator each 64-bit value occurs exactly once, for every seed; then the
sequence begins anew. -/
theorem C42_splitmix_full_period (s : U64) :
    (∀ v : U64, ∃! n : Nat, n < all64 ∧ splitMix.output s n = v) ∧
    ∀ n : Nat, splitMix.output s (n + all64) = splitMix.output s n := by
  constructor
  · intro v
    obtain ⟨n, hn, hv⟩ := exists_of_inj 64 (splitMix.output s)
      (fun m n hm hn h => splitMix_output_inj s (by rw [all64_eq]; exact hm) (by rw [all64_eq]; exact hn) h) v
    rw [← all64_eq] at hn
    exact ⟨n, ⟨hn, hv⟩, fun m hm => splitMix_output_inj s hm.1 hn (hm.2.trans hv.symm)⟩
  · intro n
    rw [splitMix_output, splitMix_output, Nat.add_right_comm, all64_eq, ofNat_add_period]

/-! ### Re-seeding -/

theorem run_append (m : Machine σ) (a b : List Call) (s : σ) : m.run (a ++ b) s =
    ((m.run a s).1 ++ (m.run b (m.run a s).2).1, (m.run b (m.run a s).2).2) := by
  induction a generalizing s with
  | nil => rfl
  | cons c a ih =>
    cases c with
    | draw => simp only [List.cons_append, Machine.run, ih]
    | discard z => simp only [List.cons_append, Machine.run, ih]
    | seed x => simp only [List.cons_append, Machine.run, ih]

theorem reseeds_of (m : Machine σ) (h : ∀ st s, m.seed st s = m.construct s) : m.Reseeds := by
  intro s0 s history later
  unfold Machine.outputs Machine.after
  rw [run_append]
  simp only [Machine.run, h]

/-- C42: after `seed(s)` SplitMix64 and XorShift128Plus behave like new generators made with `s`, whatever was done before. -/
theorem C42_reseed : splitMix.Reseeds ∧ xs128.Reseeds :=
  ⟨reseeds_of _ fun _ _ => rfl, reseeds_of _ fun _ _ => rfl⟩

/-- The number of draws in a history. -/
def drawCount : List Call → Nat
  | [] => 0
  | .draw :: cs => drawCount cs + 1
  | .discard z :: cs => drawCount cs + z.toNat
  | .seed _ :: cs => drawCount cs

theorem xs1024_discard_p (n : Nat) (st : Xs1024) : (xs1024.discard n st).p = st.p + Fin.ofNat 16 n := by
  induction n generalizing st with
  | zero => simp [Machine.discard]
  | succ n ih =>
    show (xs1024.discard n (xs1024Next st).2).p = _
    rw [ih]
    show st.p + 1 + Fin.ofNat 16 n = _
    apply Fin.ext
    simp only [Fin.val_add, Fin.val_ofNat, Fin.val_one]
    omega

theorem xs1024_run_p (cs : List Call) (st : Xs1024) : (xs1024.run cs st).2.p = st.p + Fin.ofNat 16 (drawCount cs) := by
  have hadd : ∀ (p : Fin 16) (a b : Nat), p + Fin.ofNat 16 a + Fin.ofNat 16 b = p + Fin.ofNat 16 (b + a) := by
    intro p a b
    apply Fin.ext
    simp only [Fin.val_add, Fin.val_ofNat]
    omega
  induction cs generalizing st with
  | nil => simp [Machine.run, drawCount]
  | cons c cs ih =>
    cases c with
    | draw =>
      show (xs1024.run cs (xs1024Next st).2).2.p = _
      rw [ih]
      exact hadd st.p 1 (drawCount cs)
    | discard z =>
      show (xs1024.run cs (xs1024.discard z.toNat st)).2.p = _
      rw [ih, xs1024_discard_p]
      exact hadd st.p z.toNat (drawCount cs)
    | seed x => exact ih (xs1024.seed st x)

/-- C42, for XorShift1024Star: re-seeding is reproducible if the number of draws since construction is a multiple of 16; in general the
outputs after `seed(s)` depend on `s` and on that number modulo 16 only. Missing: independence of the number of draws, which is
false, see `C42_xs1024_reseed_false`. -/
theorem C42_xs1024_reseed_partial (s0 s0' s : U64) (history history' later : List Call) :
    (drawCount history % 16 = drawCount history' % 16 →
      xs1024.outputs s0 (history ++ [.seed s]) later = xs1024.outputs s0' (history' ++ [.seed s]) later) ∧
    (drawCount history % 16 = 0 → xs1024.outputs s0 (history ++ [.seed s]) later = xs1024.outputs s [] later) := by
  have key : ∀ (s0 : U64) (history : List Call), xs1024.outputs s0 (history ++ [.seed s]) later =
      (xs1024.run later ⟨xs1024Fill s, Fin.ofNat 16 (drawCount history)⟩).1 := by
    intro s0 history
    unfold Machine.outputs Machine.after
    rw [run_append]
    show (xs1024.run later ⟨xs1024Fill s, (xs1024.run history (xs1024.construct s0)).2.p⟩).1 = _
    rw [xs1024_run_p]
    show (xs1024.run later ⟨xs1024Fill s, 0 + Fin.ofNat 16 (drawCount history)⟩).1 = _
    rw [Fin.zero_add]
  constructor
  · intro h
    rw [key, key]
    have : Fin.ofNat 16 (drawCount history) = Fin.ofNat 16 (drawCount history') := Fin.ext h
    rw [this]
  · intro h
    rw [key]
    have : Fin.ofNat 16 (drawCount history) = 0 := Fin.ext h
    rw [this]
    rfl

/-- C42 is false of XorShift1024Star: `seed` does not reset the position, so one draw followed by `seed(1)` gives another first output
than a new generator with seed 1. -/
theorem C42_xs1024_reseed_false : ¬ xs1024.Reseeds := by
  intro h
  have := h 1 1 [.draw] [.draw]
  revert this
  decide +kernel

end CRU.Prng
