import Mathlib.Logic.Basic
import Mathlib.Tactic.ByContra
import Verif.Base
/-
  C120: alignment of objects and substrings of all strings (utility.hpp).
-/
namespace CRU.Utility

/-! ### Model -/

/-- utility.hpp:359-387 `CheckAlignment`. The item is given by its address; the second component of the result is what the logging function is called with
(it is called at most once, and does not throw here). `%` by zero is undefined in C++. -/
def checkAlignment (address alignment : UInt64) (logging : Bool) : Res (Bool × List String) :=
  if alignment = 0 then .ub
  else if address % alignment = 0 then
    .ok (true, if logging then ["Item @ " ++ toString address ++ " aligned to " ++ toString alignment ++ " bytes"] else [])
  else
    .ok (false, if logging then ["Item @ " ++ toString address ++ " NOT aligned to " ++ toString alignment ++ " bytes"] else [])

/-- utility.hpp:389-400 `RequireAlignment`. -/
def requireAlignment (address alignment : UInt64) : Res Unit :=
  if alignment = 0 then .ub
  else if address % alignment ≠ 0 then .throw .runtimeError
  else .ok ()

/-- utility.hpp:402-408 `RequireEigenAlignment`: the alignment is the macro EIGEN_DEFAULT_ALIGN_BYTES, a parameter here. -/
def requireEigenAlignment (eigenDefaultAlignBytes : UInt64) (address : UInt64) : Res Unit := requireAlignment address eigenDefaultAlignBytes

/-- `string.find(substring)`: the first position at which the substring is found, from `position` on; none is `npos` (no project code: C++ library). -/
def find (sub : List UInt8) : List UInt8 → Nat → Option Nat
  | [], position => if sub = [] then some position else none
  | c :: rest, position => if sub.isPrefixOf (c :: rest) then some position else find sub rest (position + 1)

/-- utility.hpp:448-460 `CheckAllStringsForSubstring`. Strings are lists of bytes. -/
def checkAllStrings : List (List UInt8) → List UInt8 → Bool
  | [], _ => true
  | s :: rest, sub => if find sub s 0 = none then false else checkAllStrings rest sub

/-! ### Specification -/

/-- The address is a whole number of times the alignment. -/
def Aligned (address alignment : UInt64) : Prop := ∃ k : Nat, address.toNat = k * alignment.toNat

/-- `sub` is somewhere within `s`. -/
def Within (sub s : List UInt8) : Prop := ∃ before after, s = before ++ sub ++ after

/-! ### Proofs -/

theorem mod_eq_zero_iff {a m : UInt64} : a % m = 0 ↔ Aligned a m := by
  rw [← UInt64.toNat_inj, UInt64.toNat_mod]
  constructor
  · intro h
    obtain ⟨k, hk⟩ := Nat.dvd_of_mod_eq_zero h
    exact ⟨k, by rw [hk, Nat.mul_comm]⟩
  · rintro ⟨k, hk⟩
    rw [hk, Nat.mul_mod_left]; rfl

theorem find_none (sub s : List UInt8) (i : Nat) : find sub s i = none ↔ ¬ Within sub s := by
  induction s generalizing i with
  | nil =>
    unfold find
    split
    · rename_i h; subst h
      simp only [reduceCtorEq, false_iff, not_not]
      exact ⟨[], [], rfl⟩
    · rename_i h
      simp only [true_iff]
      rintro ⟨b, a, e⟩
      have := congrArg List.length e
      simp only [List.length_nil, List.length_append] at this
      exact h (List.length_eq_zero_iff.mp (by omega))
  | cons c rest ih =>
    unfold find
    split
    · rename_i h
      simp only [reduceCtorEq, false_iff, not_not]
      obtain ⟨t, ht⟩ := List.isPrefixOf_iff_prefix.mp h
      exact ⟨[], t, by simpa using ht.symm⟩
    · rename_i h
      rw [ih]
      refine not_congr ⟨?_, ?_⟩
      · rintro ⟨b, a, e⟩
        exact ⟨c :: b, a, by rw [e]; rfl⟩
      · rintro ⟨b, a, e⟩
        cases b with
        | nil => exact absurd (List.isPrefixOf_iff_prefix.mpr ⟨a, by simpa using e.symm⟩) h
        | cons x b =>
          simp only [List.cons_append, List.cons.injEq] at e
          exact ⟨b, a, e.2⟩

/-! ### Theorems -/

/-- C120: for an alignment other than zero the check says whether the address is a multiple of it, with one message if there is a logging function and none
otherwise; the requirement throws exactly if it is not. -/
theorem C120_alignment (address alignment : UInt64) (h : alignment ≠ 0) :
    (∀ logging, ∃ b messages, checkAlignment address alignment logging = .ok (b, messages) ∧ (b = true ↔ Aligned address alignment) ∧
      messages.length = (if logging then 1 else 0)) ∧
    (Aligned address alignment → requireAlignment address alignment = .ok ()) ∧
    (¬ Aligned address alignment → requireAlignment address alignment = .throw .runtimeError) := by
  refine ⟨fun logging => ?_, fun ha => ?_, fun ha => ?_⟩
  · unfold checkAlignment
    rw [if_neg h]
    split
    · rename_i e
      exact ⟨_, _, rfl, by simp [mod_eq_zero_iff.mp e], by cases logging <;> rfl⟩
    · rename_i e
      exact ⟨_, _, rfl, by simpa using fun ha => e (mod_eq_zero_iff.mpr ha), by cases logging <;> rfl⟩
  · unfold requireAlignment
    rw [if_neg h, if_neg (by rw [mod_eq_zero_iff.mpr ha]; simp)]
  · unfold requireAlignment
    rw [if_neg h, if_pos (fun e => ha (mod_eq_zero_iff.mp e))]

/-- C120: what is aligned to a number of bytes is aligned to each divisor of the number. -/
theorem C120_alignment_divisor (address alignment smaller : UInt64) (h : alignment ≠ 0) (hd : ∃ k : Nat, alignment.toNat = k * smaller.toNat)
    (hok : requireAlignment address alignment = .ok ()) : requireAlignment address smaller = .ok () := by
  obtain ⟨k, hk⟩ := hd
  have hs : smaller ≠ 0 := by
    rintro rfl
    exact h (UInt64.toNat_inj.mp (by rw [hk]; rfl))
  have ha : Aligned address alignment := by
    by_contra hn
    rw [(C120_alignment address alignment h).2.2 hn] at hok
    cases hok
  obtain ⟨j, hj⟩ := ha
  exact (C120_alignment address smaller hs).2.1 ⟨j * k, by rw [hj, hk, Nat.mul_assoc]⟩

/-- C120 fails for alignment zero: with Eigen's alignment switched off (EIGEN_MAX_ALIGN_BYTES = 0 makes EIGEN_DEFAULT_ALIGN_BYTES zero) the requirement is a
division by zero for each object. -/
theorem C120_eigen_alignment_off_false (address : UInt64) : requireEigenAlignment 0 address = .ub := rfl

/-- C120: all strings contain the substring exactly if the check says so. -/
theorem C120_substring (strings : List (List UInt8)) (sub : List UInt8) : checkAllStrings strings sub = true ↔ ∀ s ∈ strings, Within sub s := by
  induction strings with
  | nil => simp [checkAllStrings]
  | cons s rest ih =>
    unfold checkAllStrings
    by_cases h : find sub s 0 = none
    · rw [if_pos h]
      have := (find_none sub s 0).mp h
      simp [this]
    · rw [if_neg h, ih]
      have : Within sub s := by by_contra hn; exact h ((find_none sub s 0).mpr hn)
      simp [this]

/-- Hypotheses of the alignment theorems: address 48 is aligned to 16 bytes and so to 8; address 40 is not aligned to 16 bytes. -/
example : requireAlignment 48 8 = .ok () ∧ requireAlignment 40 16 = .throw .runtimeError := by
  refine ⟨C120_alignment_divisor 48 16 8 (by decide) ⟨2, by decide⟩ ((C120_alignment 48 16 (by decide)).2.1 ⟨3, by decide⟩), ?_⟩
  refine (C120_alignment 40 16 (by decide)).2.2 ?_
  rintro ⟨k, hk⟩
  have e1 : (40 : UInt64).toNat = 40 := rfl
  have e2 : (16 : UInt64).toNat = 16 := rfl
  rw [e1, e2] at hk
  omega

/-- One of two strings does not contain the substring, the other does in its middle. -/
example : checkAllStrings [[1, 2, 3], [2, 1]] [2] = true ∧ checkAllStrings [[1, 2, 3], [3, 1]] [2, 3] = false := by decide

end CRU.Utility
