/-
  Model of include/common_robotics_utilities/simple_prngs.hpp. `uint64_t` is `BitVec 64`.
-/
namespace CRU.Prng

abbrev U64 := BitVec 64

/-- A generator as a state machine: the constructor, `seed`, and one draw (output and next state). (simple_prngs.hpp:16-195) -/
structure Machine (σ : Type) where
  construct : U64 → σ
  seed : σ → U64 → σ
  next : σ → U64 × σ

/-- simple_prngs.hpp:52-63, 113-124, 178-189 `discard`: draw `z` times and forget the outputs. -/
def Machine.discard {σ : Type} (m : Machine σ) : Nat → σ → σ
  | 0, s => s
  | z + 1, s => m.discard z (m.next s).2

/-! ### SplitMix64 -/

/-- simple_prngs.hpp:24, the increment. -/
def gamma : U64 := 0x9E3779B97F4A7C15

/-- simple_prngs.hpp:25-27, from the new state to the output. -/
def mix (z : U64) : U64 :=
  let z := (z ^^^ (z >>> 30)) * 0xBF58476D1CE4E5B9
  let z := (z ^^^ (z >>> 27)) * 0x94D049BB133111EB
  z ^^^ (z >>> 31)

/-- simple_prngs.hpp:16-69 `SplitMix64PRNG` -/
def splitMix : Machine U64 where
  construct s := s
  seed _ s := s
  next st :=
    let st := st + gamma
    (mix st, st)

/-! ### XorShift128Plus -/

/-- simple_prngs.hpp:79-87 `Next`. -/
def xs128Next (st : U64 × U64) : U64 × (U64 × U64) :=
  let s1 := st.1
  let s0 := st.2
  let state1 := s0
  let s1 := s1 ^^^ (s1 <<< 23)
  let state2 := s1 ^^^ s0 ^^^ (s1 >>> 18) ^^^ (s0 >>> 5)
  (state2 + s0, (state1, state2))

/-- simple_prngs.hpp:106-111 `seed`. -/
def xs128Seed (s : U64) : U64 × U64 :=
  let d1 := splitMix.next (splitMix.construct s)
  let d2 := splitMix.next d1.2
  (d1.1, d2.1)

/-- simple_prngs.hpp:72-130 `XorShift128PlusPRNG` -/
def xs128 : Machine (U64 × U64) where
  construct := xs128Seed
  seed _ s := xs128Seed s
  next := xs128Next

/-! ### XorShift1024Star -/

/-- simple_prngs.hpp:137-139: the array and `p_`. -/
structure Xs1024 where
  state : Vector U64 16
  p : Fin 16
  deriving DecidableEq

/-- simple_prngs.hpp:141-149 `Next`. (`p_` is a `size_t`; it starts as 0 and is set to `(p_ + 1) & 15`, so `at` never throws.) -/
def xs1024Next (st : Xs1024) : U64 × Xs1024 :=
  let s0 := st.state[st.p]
  let p := st.p + 1
  let s1 := st.state[p]
  let s1 := s1 ^^^ (s1 <<< 31)
  let x := s1 ^^^ s0 ^^^ (s1 >>> 11) ^^^ (s0 >>> 30)
  (x * 1181783497276652981, ⟨st.state.set p x, p⟩)

/-- The first `n` outputs, and the state after them. (simple_prngs.hpp:16-195) -/
def draws {σ : Type} (m : Machine σ) : Nat → σ → List U64 × σ
  | 0, s => ([], s)
  | n + 1, s =>
    let d := m.next s
    let r := draws m n d.2
    (d.1 :: r.1, r.2)

theorem draws_length {σ : Type} (m : Machine σ) (n : Nat) (s : σ) : (draws m n s).1.length = n := by
  induction n generalizing s with
  | zero => rfl
  | succ n ih => simp [draws, ih]

/-- simple_prngs.hpp:169-176, the loop of `seed`. -/
def xs1024Fill (s : U64) : Vector U64 16 := ⟨(draws splitMix 16 (splitMix.construct s)).1.toArray, by simp [draws_length]⟩

/-- simple_prngs.hpp:133-195 `XorShift1024StarPRNG`; the constructor sets `p_`, `seed` does not. -/
def xs1024 : Machine Xs1024 where
  construct s := ⟨xs1024Fill s, 0⟩
  seed st s := { st with state := xs1024Fill s }
  next := xs1024Next

end CRU.Prng
