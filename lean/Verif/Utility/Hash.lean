import Verif.Base
/-
  C97: `hash_combine` (utility.hpp:40-82).
-/
namespace CRU.Util

/-! ### Combining hashes -/

/-- utility.hpp:52: one member; `h` is `std::hash` of it, `size_t` has 64 bits. -/
def hashStep (seed h : BitVec 64) : BitVec 64 := seed ^^^ (h + 0x9e3779b9#64 + (seed <<< 6) + (seed >>> 2))

/-- utility.hpp:43-54 `hash_combine`: the members in order. -/
def hashCombine (seed : BitVec 64) : List (BitVec 64) → BitVec 64
  | [] => seed
  | h :: rest => hashCombine (hashStep seed h) rest

/-- utility.hpp:70-82 `CRU_MAKE_HASHABLE`: the hash of an object whose members have the hashes given. -/
def hashOf (members : List (BitVec 64)) : BitVec 64 := hashCombine 0 members

theorem hashStep_inj {s a b : BitVec 64} (h : hashStep s a = hashStep s b) : a = b := by
  unfold hashStep at h
  have h1 : a + 0x9e3779b9#64 + (s <<< 6) + (s >>> 2) = b + 0x9e3779b9#64 + (s <<< 6) + (s >>> 2) := by
    have := congrArg (s ^^^ ·) h
    simpa [← BitVec.xor_assoc] using this
  simpa [BitVec.add_assoc] using h1

theorem hashCombine_append (s : BitVec 64) (l : List (BitVec 64)) (h : BitVec 64) :
    hashCombine s (l ++ [h]) = hashStep (hashCombine s l) h := by
  induction l generalizing s with
  | nil => rfl
  | cons x l ih => simp only [List.cons_append, hashCombine, ih]

/-- **C97.** Objects that differ at most in their last member collide only if that member's own hash collides. -/
theorem C97_last_member (l : List (BitVec 64)) (a b : BitVec 64) (h : hashOf (l ++ [a]) = hashOf (l ++ [b])) : a = b := by
  unfold hashOf at h
  rw [hashCombine_append, hashCombine_append] at h
  exact hashStep_inj h

/-- **C97.** The last member alone can give every hash value: no value is lost. -/
theorem C97_onto (l : List (BitVec 64)) (v : BitVec 64) : ∃ a, hashOf (l ++ [a]) = v := by
  refine ⟨(hashCombine 0 l ^^^ v) - 0x9e3779b9#64 - (hashCombine 0 l <<< 6) - (hashCombine 0 l >>> 2), ?_⟩
  unfold hashOf
  rw [hashCombine_append]
  generalize hashCombine 0 l = s
  unfold hashStep
  have e : (s ^^^ v) - 0x9e3779b9#64 - s <<< 6 - s >>> 2 + 0x9e3779b9#64 + s <<< 6 + s >>> 2 = s ^^^ v := by
    generalize s ^^^ v = x
    generalize s <<< 6 = y
    generalize s >>> 2 = z
    have h1 : ∀ a b : BitVec 64, a - b + b = a := fun a b => BitVec.sub_add_cancel a b
    have h2 : x - 0x9e3779b9#64 - y - z + 0x9e3779b9#64 = x - y - z := by
      simp only [BitVec.sub_eq_add_neg]
      rw [show x + -0x9e3779b9#64 + -y + -z + 0x9e3779b9#64 = x + -y + -z + (-0x9e3779b9#64 + 0x9e3779b9#64) by ac_rfl]
      rw [show (-0x9e3779b9#64 + 0x9e3779b9#64 : BitVec 64) = 0#64 by decide, BitVec.add_zero]
    rw [h2]
    rw [show x - y - z + y + z = x + (-y + y) + (-z + z) by simp only [BitVec.sub_eq_add_neg]; ac_rfl]
    have h3 : ∀ a : BitVec 64, -a + a = 0#64 := fun a => by
      have := h1 0#64 a; simpa [BitVec.sub_eq_add_neg] using this
    rw [h3, h3, BitVec.add_zero, BitVec.add_zero]
  rw [e, ← BitVec.xor_assoc, BitVec.xor_self, BitVec.zero_xor]

/-- It is not so for the members before the last: objects with different first members and the same second one can collide. -/
theorem C97_first_member_false : ∃ a b c : BitVec 64, a ≠ b ∧ hashOf [a, c] = hashOf [b, c] := by
  refine ⟨-0x9e3779b9#64, -1#64 - 0x9e3779b9#64, 32#64 - 0x2000000000000000#64 - 0x9e3779b9#64, by decide, by decide⟩

/-- The order of the members matters: swapping two of them changes the hash here. -/
example : hashOf [1, 2] ≠ hashOf [2, 1] := by decide

/-- An instance of `C97_last_member` and `C97_onto`. -/
example : hashOf [5, 7] ≠ hashOf [5, 8] ∧ ∃ a, hashOf [5, a] = 0 :=
  ⟨fun h => absurd (C97_last_member [5] 7 8 h) (by decide), C97_onto [5] 0⟩

end CRU.Util
