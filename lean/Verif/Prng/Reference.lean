import Verif.Prng.Props
/-
  C92: the outputs of the three generators are those of the published algorithms, as functions of the seed and the number of the draw.
  The specification is written with natural numbers and sequences; it has no state, no circular buffer and no position.
-/
namespace CRU.Prng

namespace Published

/-- Numbers of 64 bits. -/
def wrap (n : Nat) : Nat := n % 2 ^ 64

/-- SplitMix64 (Steele, Lea and Flood): the finalizer, "variant 13" of Stafford. -/
def finalizer (z : Nat) : Nat :=
  let z1 := wrap ((z ^^^ (z / 2 ^ 30)) * 0xBF58476D1CE4E5B9)
  let z2 := wrap ((z1 ^^^ (z1 / 2 ^ 27)) * 0x94D049BB133111EB)
  z2 ^^^ (z2 / 2 ^ 31)

/-- SplitMix64: output `n` (from 0) for the seed `s`: the finalizer of `s` plus `n + 1` times the golden ratio. -/
def splitMixOutput (s n : Nat) : Nat := finalizer (wrap (s + (n + 1) * 0x9E3779B97F4A7C15))

/-- The word that a xorshift generator with the shifts `a`, `b`, `c` makes of its oldest and its newest word (Vigna). -/
def xorshift (a b c : Nat) (oldest newest : Nat) : Nat :=
  let x := oldest ^^^ wrap (oldest * 2 ^ a)
  x ^^^ newest ^^^ (x / 2 ^ b) ^^^ (newest / 2 ^ c)

/-- `w` is the sequence of words of xorshift128+ for the seed `s`: the first two come from SplitMix64, each other one from the two before. -/
def IsWords128 (s : Nat) (w : Nat → Nat) : Prop :=
  w 0 = splitMixOutput s 0 ∧ w 1 = splitMixOutput s 1 ∧ ∀ n, w (n + 2) = xorshift 23 18 5 (w n) (w (n + 1))

/-- `w` is the sequence of words of xorshift1024* for the seed `s`: the first 16 come from SplitMix64, the first draw of SplitMix64 being
the newest word; each other word is made of the one 16 before and the one just before. -/
def IsWords1024 (s : Nat) (w : Nat → Nat) : Prop :=
  w 15 = splitMixOutput s 0 ∧ (∀ n, n < 15 → w n = splitMixOutput s (n + 1)) ∧
    ∀ n, w (n + 16) = xorshift 31 11 30 (w n) (w (n + 15))

end Published

open Published

variable {σ : Type}

theorem wrap_toNat (x : U64) : wrap x.toNat = x.toNat := Nat.mod_eq_of_lt x.isLt

theorem toNat_mul_wrap (x c : U64) (k : Nat) (h : c.toNat = k) : (x * c).toNat = wrap (x.toNat * k) := by
  rw [BitVec.toNat_mul, h, wrap]

theorem toNat_shr (x : U64) (k : Nat) : (x >>> k).toNat = x.toNat / 2 ^ k := by
  rw [BitVec.toNat_ushiftRight, Nat.shiftRight_eq_div_pow]

theorem toNat_shl (x : U64) (k : Nat) : (x <<< k).toNat = wrap (x.toNat * 2 ^ k) := by
  rw [BitVec.toNat_shiftLeft, Nat.shiftLeft_eq, wrap]

theorem mix_toNat (z : U64) : (mix z).toNat = finalizer z.toNat := by
  unfold mix finalizer
  dsimp only
  rw [BitVec.toNat_xor, toNat_shr, toNat_mul_wrap _ _ 0x94D049BB133111EB (by decide), BitVec.toNat_xor, toNat_shr,
    toNat_mul_wrap _ _ 0xBF58476D1CE4E5B9 (by decide), BitVec.toNat_xor, toNat_shr]

theorem splitMix_output' (s : U64) (n : Nat) : (splitMix.output s n).toNat = splitMixOutput s.toNat n := by
  rw [splitMix_output, mix_toNat, splitMixOutput]
  congr 1
  rw [BitVec.toNat_add, BitVec.toNat_mul, BitVec.toNat_ofNat, show gamma.toNat = 0x9E3779B97F4A7C15 by decide, wrap,
    Nat.add_mod, Nat.mod_mod, Nat.mul_mod, Nat.mod_mod, ← Nat.mul_mod, ← Nat.add_mod]

theorem discard_succ_end (m : Machine σ) (n : Nat) (s : σ) : m.discard (n + 1) s = (m.next (m.discard n s)).2 := by
  induction n generalizing s with
  | zero => rfl
  | succ n ih => rw [discard_succ, ih]; rfl

theorem output_zero (m : Machine σ) (s : U64) : m.output s 0 = (m.next (m.construct s)).1 := rfl

/-- C92: output `n` of a SplitMix64 generator is that of the published algorithm for its seed. -/
theorem C92_splitmix (s : U64) (n : Nat) : (splitMix.output s n).toNat = splitMixOutput s.toNat n := splitMix_output' s n

/-- The values published with the reference implementation, for the seed 1234567, and the first one for the seed 0. -/
example : splitMix.output 1234567 0 = 6457827717110365317 ∧ splitMix.output 1234567 1 = 3203168211198807973 ∧
    splitMix.output 1234567 2 = 9817491932198370423 ∧ splitMix.output 1234567 3 = 4593380528125082431 ∧
    splitMix.output 1234567 4 = 16408922859458223821 ∧ splitMix.output 0 0 = 0xE220A8397B1DCDAF := by decide +kernel

/-! ### xorshift128+ -/

theorem xs128_seed_words (s : U64) : xs128.construct s = (splitMix.output s 0, splitMix.output s 1) := rfl

theorem xs128_step_word (a b : U64) : (xs128Next (a, b)).2.2.toNat = xorshift 23 18 5 a.toNat b.toNat := by
  unfold xs128Next xorshift
  dsimp only
  simp only [BitVec.toNat_xor, toNat_shr, toNat_shl]

theorem xs128_words {s : U64} {w : Nat → Nat} (hw : IsWords128 s.toNat w) (n : Nat) :
    (xs128.discard n (xs128.construct s)).1.toNat = w n ∧ (xs128.discard n (xs128.construct s)).2.toNat = w (n + 1) := by
  induction n with
  | zero =>
    rw [discard_zero, xs128_seed_words]
    exact ⟨(splitMix_output' s 0).trans hw.1.symm, (splitMix_output' s 1).trans hw.2.1.symm⟩
  | succ n ih =>
    rw [discard_succ_end]
    generalize xs128.discard n (xs128.construct s) = st at ih ⊢
    obtain ⟨a, b⟩ := st
    refine ⟨ih.2, (xs128_step_word a b).trans ?_⟩
    rw [hw.2.2 n, ← ih.1, ← ih.2]

/-- C92: output `n` of a XorShift128Plus generator is the sum, modulo 2^64, of words `n + 1` and `n + 2` of the published sequence that
begins with the first two outputs of SplitMix64 for the seed. -/
theorem C92_xorshift128plus (s : U64) :
    (∃ w, IsWords128 s.toNat w) ∧
    ∀ w, IsWords128 s.toNat w → ∀ n, (xs128.output s n).toNat = wrap (w (n + 1) + w (n + 2)) := by
  constructor
  · refine ⟨fun n => (xs128.discard n (xs128.construct s)).1.toNat, ?_, ?_, ?_⟩
    · exact splitMix_output' s 0
    · exact splitMix_output' s 1
    · intro n
      show (xs128.discard (n + 2) _).1.toNat = xorshift 23 18 5 _ (xs128.discard (n + 1) _).1.toNat
      rw [discard_succ_end xs128 (n + 1), discard_succ_end xs128 n]
      exact xs128_step_word (xs128.discard n (xs128.construct s)).1 (xs128.discard n (xs128.construct s)).2
  · intro w hw n
    have h := xs128_words hw n
    unfold Machine.output
    generalize xs128.discard n (xs128.construct s) = st at h ⊢
    obtain ⟨a, b⟩ := st
    have e : (xs128.next (a, b)).1 = (xs128Next (a, b)).2.2 + b := rfl
    rw [e, BitVec.toNat_add, xs128_step_word, hw.2.2 n, ← h.1, ← h.2, Nat.add_comm, wrap]

/-! ### xorshift1024* -/

theorem xs1024_step_word (st : Xs1024) : ∃ x : U64,
    x.toNat = xorshift 31 11 30 (st.state[st.p + 1]).toNat (st.state[st.p]).toNat ∧
    (xs1024Next st).1 = x * 1181783497276652981 ∧ (xs1024Next st).2 = ⟨st.state.set (st.p + 1 : Fin 16) x (st.p + 1).isLt, st.p + 1⟩ := by
  refine ⟨_, ?_, rfl, rfl⟩
  unfold xorshift
  dsimp only
  simp only [BitVec.toNat_xor, toNat_shr, toNat_shl]

theorem draws_succ (m : Machine σ) (n : Nat) (s : σ) : (draws m (n + 1) s).1 = (m.next s).1 :: (draws m n (m.next s).2).1 := rfl

theorem output_succ (m : Machine U64) (h : ∀ s, m.construct s = s) (s : U64) (n : Nat) : m.output s (n + 1) = m.output (m.next s).2 n := by
  unfold Machine.output
  rw [h, h, discard_succ]

theorem draws_splitMix (n : Nat) (st : U64) : ∀ i, i < n → (draws splitMix n st).1[i]? = some (splitMix.output st i) := by
  induction n generalizing st with
  | zero => intro i hi; omega
  | succ n ih =>
    intro i hi
    cases i with
    | zero => rw [draws_succ]; exact List.getElem?_cons_zero
    | succ i => rw [draws_succ, List.getElem?_cons_succ, ih _ i (by omega), output_succ _ fun _ => rfl]

theorem xs1024Fill_at (s : U64) (i : Fin 16) : (xs1024Fill s)[i] = splitMix.output s i.val := by
  have h := draws_splitMix 16 s i.val i.isLt
  rw [List.getElem?_eq_some_iff] at h
  exact h.2

/-- The word of age `15 - i` in the circular buffer. -/
def Xs1024.word (st : Xs1024) (i : Fin 16) : Nat := (st.state[st.p + 1 + i]).toNat

theorem xs1024_words {s : U64} {w : Nat → Nat} (hw : IsWords1024 s.toNat w) (n : Nat) :
    ∀ i : Fin 16, (xs1024.discard n (xs1024.construct s)).word i = w (n + i.val) := by
  induction n with
  | zero =>
    intro i
    rw [discard_zero]
    show ((xs1024Fill s)[(0 : Fin 16) + 1 + i]).toNat = _
    rw [xs1024Fill_at, splitMix_output', Nat.zero_add]
    by_cases hi : i.val < 15
    · rw [hw.2.1 i.val hi]
      congr 1
      simp only [Fin.val_add]
      have : ((1 : Fin 16)).val = 1 := rfl
      have : ((0 : Fin 16)).val = 0 := rfl
      omega
    · have : i = 15 := by apply Fin.ext; show i.val = 15; omega
      subst this
      exact hw.1.symm
  | succ n ih =>
    rw [discard_succ_end]
    generalize xs1024.discard n (xs1024.construct s) = st at ih ⊢
    obtain ⟨x, hx, -, h2⟩ := xs1024_step_word st
    have e : (xs1024.next st).2 = _ := h2
    rw [e]
    intro i
    show ((st.state.set (st.p + 1 : Fin 16) x (st.p + 1).isLt)[st.p + 1 + 1 + i]).toNat = _
    have h15 := ih 15
    have h0 := ih 0
    have e15 : st.p + 1 + 15 = st.p := by
      apply Fin.ext; simp only [Fin.val_add]
      have : ((1 : Fin 16)).val = 1 := rfl
      have : ((15 : Fin 16)).val = 15 := rfl
      omega
    unfold Xs1024.word at h15 h0
    simp only [e15] at h15
    simp only [Fin.add_zero] at h0
    by_cases hi : i = 15
    · subst hi
      have e2 : st.p + 1 + 1 + 15 = st.p + 1 := by
        apply Fin.ext; simp only [Fin.val_add]
        have : ((1 : Fin 16)).val = 1 := rfl
        have : ((15 : Fin 16)).val = 15 := rfl
        omega
      have : (st.state.set (st.p + 1 : Fin 16) x (st.p + 1).isLt)[st.p + 1 + 1 + 15] = x := by
        simp only [e2]
        exact Vector.getElem_set_self _
      rw [this, hx]
      have : w (n + 1 + (15 : Fin 16).val) = w (n + 16) := rfl
      rw [this, hw.2.2 n]
      exact congrArg₂ _ h0 h15
    · have hi' : i.val < 15 := by
        have h := i.isLt
        have : i.val ≠ 15 := fun h => hi (Fin.ext h)
        omega
      have h1 := ih (i + 1)
      have e3 : st.p + 1 + (i + 1) = st.p + 1 + 1 + i := by
        apply Fin.ext; simp only [Fin.val_add]
        have : ((1 : Fin 16)).val = 1 := rfl
        omega
      unfold Xs1024.word at h1
      simp only [e3] at h1
      have e4 : (i + 1).val = i.val + 1 := by
        simp only [Fin.val_add]
        have : ((1 : Fin 16)).val = 1 := rfl
        omega
      rw [e4] at h1
      have ne : (st.p + 1).val ≠ (st.p + 1 + 1 + i).val := by
        simp only [Fin.val_add]
        have : ((1 : Fin 16)).val = 1 := rfl
        omega
      have : (st.state.set (st.p + 1 : Fin 16) x (st.p + 1).isLt)[st.p + 1 + 1 + i] = st.state[st.p + 1 + 1 + i] :=
        Vector.getElem_set_ne _ _ ne
      rw [this, h1]
      congr 1
      omega

/-- C92: output `n` of a XorShift1024Star generator is word `n + 16` of the published sequence for the seed, times the published
multiplier, modulo 2^64. -/
theorem C92_xorshift1024star (s : U64) (w : Nat → Nat) (hw : IsWords1024 s.toNat w) (n : Nat) :
    (xs1024.output s n).toNat = wrap (w (n + 16) * 1181783497276652981) := by
  have ih := xs1024_words hw n
  unfold Machine.output
  generalize xs1024.discard n (xs1024.construct s) = st at ih ⊢
  obtain ⟨x, hx, h1, -⟩ := xs1024_step_word st
  have h15 := ih 15
  have h0 := ih 0
  have e15 : st.p + 1 + 15 = st.p := by
    apply Fin.ext; simp only [Fin.val_add]
    have : ((1 : Fin 16)).val = 1 := rfl
    have : ((15 : Fin 16)).val = 15 := rfl
    omega
  unfold Xs1024.word at h15 h0
  simp only [e15] at h15
  simp only [Fin.add_zero] at h0
  have e : (xs1024.next st).1 = x * 1181783497276652981 := h1
  rw [e, toNat_mul_wrap _ _ 1181783497276652981 (by decide), hw.2.2 n, hx]
  congr 2
  exact congrArg₂ _ h0 h15

/-- Values for the seed 42, computed with an independent program. -/
example : xs128.output 42 0 = 12706997879443677767 ∧ xs128.output 42 2 = 16395596082725179435 ∧
    xs1024.output 42 0 = 13053142812357507600 ∧ xs1024.output 42 19 = 9631244604919499718 := by decide +kernel

/-- A sequence as in `IsWords1024`. -/
def words1024 (s n : Nat) : Nat :=
  if n < 15 then splitMixOutput s (n + 1)
  else if n = 15 then splitMixOutput s 0
  else xorshift 31 11 30 (words1024 s (n - 16)) (words1024 s (n - 1))
termination_by n
decreasing_by all_goals omega

/-- The hypothesis of `C92_xorshift1024star` holds of exactly one sequence for each seed. -/
theorem C92_words1024_unique (s : U64) : ∃! w, IsWords1024 s.toNat w := by
  refine ⟨words1024 s.toNat, ⟨?_, ?_, ?_⟩, ?_⟩
  · rw [words1024, if_neg (by omega), if_pos (by omega)]
  · intro n hn
    rw [words1024, if_pos hn]
  · intro n
    rw [words1024, if_neg (by omega), if_neg (by omega), show n + 16 - 16 = n by omega, show n + 16 - 1 = n + 15 by omega]
  · intro w hw
    funext n
    induction n using Nat.strongRecOn with
    | ind n ih =>
      rw [words1024]
      split_ifs with h1 h2
      · exact hw.2.1 n h1
      · rw [h2]; exact hw.1
      · obtain ⟨k, rfl⟩ : ∃ k, n = k + 16 := ⟨n - 16, by omega⟩
        rw [hw.2.2 k, ← ih (k + 16 - 16) (by omega), ← ih (k + 16 - 1) (by omega), show k + 16 - 16 = k by omega, show k + 16 - 1 = k + 15 by omega]

end CRU.Prng
