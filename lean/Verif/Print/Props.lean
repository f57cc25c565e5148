import Verif.Print.Model
import Mathlib.Data.List.Basic
import Mathlib.Tactic.IntervalCases
namespace CRU.Print

/-! ### Reading back text -/

/-- What follows a printed value inside another one begins with neither a character of a number nor an opening delimiter. -/
def stopChar (c : Char) : Bool := !plain c && !(c ∈ ['[', '{', '(', '<'])

def Stop (r : Text) : Prop := ∀ c, r.head? = some c → stopChar c = true

/-- The head is no character of a number. -/
def Ends (r : Text) : Prop := ∀ c, r.head? = some c → plain c = false

theorem Stop.ends {r : Text} (h : Stop r) : Ends r := by
  intro c hc
  have := h c hc
  simp only [stopChar, Bool.and_eq_true] at this
  simpa using this.1

theorem stop_cons {c : Char} {r : Text} (h : stopChar c = true) : Stop (c :: r) := by
  intro d hd; simp at hd; subst hd; exact h

theorem ends_cons {c : Char} {r : Text} (h : plain c = false) : Ends (c :: r) := by
  intro d hd; simp at hd; subst hd; exact h

theorem split_plain : ∀ {a b r s : Text}, (∀ c ∈ a, plain c = true) → (∀ c ∈ b, plain c = true) → Ends r → Ends s →
    a ++ r = b ++ s → a = b ∧ r = s
  | [], [], r, s, _, _, _, _, h => ⟨rfl, by simpa using h⟩
  | [], c :: b, r, s, _, hb, hr, _, h => by
    have h' : r = c :: (b ++ s) := by simpa using h
    have := hr c (by rw [h']; rfl)
    simp [hb c (by simp)] at this
  | c :: a, [], r, s, ha, _, _, hs, h => by
    have h' : s = c :: (a ++ r) := by simpa using h.symm
    have := hs c (by rw [h']; rfl)
    simp [ha c (by simp)] at this
  | c :: a, d :: b, r, s, ha, hb, hr, hs, h => by
    simp only [List.cons_append, List.cons.injEq] at h
    obtain ⟨h1, h2⟩ := split_plain (fun x hx => ha x (by simp [hx])) (fun x hx => hb x (by simp [hx])) hr hs h.2
    exact ⟨by rw [h.1, h1], h2⟩

theorem Num.ext' {a b : Num} (h : a.text = b.text) : a = b := by
  cases a; cases b; simp at h; subst h; rfl

theorem num_split {a b : Num} {r s : Text} (hr : Ends r) (hs : Ends s) (h : a.text ++ r = b.text ++ s) : a = b ∧ r = s := by
  obtain ⟨h1, h2⟩ := split_plain a.ok b.ok hr hs h
  exact ⟨Num.ext' h1, h2⟩

/-! ### Numbers -/

theorem digit_inj {a b : Nat} (ha : a < 10) (hb : b < 10) (h : digit a = digit b) : a = b := by
  interval_cases a <;> interval_cases b <;> first | rfl | (exact absurd h (by decide))

theorem digit_plain {a : Nat} (ha : a < 10) : plain (digit a) = true := by
  interval_cases a <;> decide

theorem map_digit_inj : ∀ {a b : List Nat}, (∀ d ∈ a, d < 10) → (∀ d ∈ b, d < 10) → a.map digit = b.map digit → a = b
  | [], [], _, _, _ => rfl
  | [], _ :: _, _, _, h => by simp at h
  | _ :: _, [], _, _, h => by simp at h
  | c :: a, d :: b, ha, hb, h => by
    simp only [List.map_cons, List.cons.injEq] at h
    rw [digit_inj (ha c (by simp)) (hb d (by simp)) h.1,
      map_digit_inj (fun x hx => ha x (by simp [hx])) (fun x hx => hb x (by simp [hx])) h.2]

theorem natText_plain (n : Nat) : ∀ c ∈ natText n, plain c = true := by
  intro c hc
  unfold natText at hc
  split at hc
  · simp at hc; subst hc; decide
  · simp only [List.mem_reverse, List.mem_map] at hc
    obtain ⟨d, hd, rfl⟩ := hc
    exact digit_plain (Nat.digits_lt_base (by norm_num) hd)

theorem natText_ne_nil (n : Nat) : natText n ≠ [] := by
  unfold natText
  split
  · simp
  · rename_i h
    simp [Nat.digits_ne_nil_iff_ne_zero.mpr h]

/-- The first digit of a positive number is not zero. -/
theorem natText_head_ne (n : Nat) (c : Char) (h : (natText n).head? = some c) : c ≠ '-' := by
  have hm : c ∈ natText n := List.mem_of_mem_head? h
  unfold natText at hm
  split at hm
  · simp at hm; subst hm; decide
  · simp only [List.mem_reverse, List.mem_map] at hm
    obtain ⟨d, hd, rfl⟩ := hm
    have := Nat.digits_lt_base (by norm_num) hd
    interval_cases d <;> decide

theorem natText_inj {m n : Nat} (h : natText m = natText n) : m = n := by
  unfold natText at h
  have key : ∀ k : Nat, k ≠ 0 → ['0'] ≠ ((Nat.digits 10 k).map digit).reverse := by
    intro k hk e
    have e' : (Nat.digits 10 k).map digit = [0].map digit := by
      have := congrArg List.reverse e
      simpa [digit] using this.symm
    have := map_digit_inj (fun d hd => Nat.digits_lt_base (by norm_num) hd) (by simp) e'
    have h0 := Nat.ofDigits_digits 10 k
    rw [this] at h0
    simp at h0
    omega
  split at h <;> split at h
  · omega
  · rename_i _ h2; exact absurd h (key n h2)
  · rename_i h2 _; exact absurd h.symm (key m h2)
  · have := List.reverse_injective h
    have := map_digit_inj (fun d hd => Nat.digits_lt_base (by norm_num) hd) (fun d hd => Nat.digits_lt_base (by norm_num) hd) this
    exact Nat.digits_inj_iff.mp this

theorem intText_plain (n : Int) : ∀ c ∈ intText n, plain c = true := by
  intro c hc
  cases n with
  | ofNat m => exact natText_plain m c hc
  | negSucc m =>
    simp only [intText, List.mem_cons] at hc
    rcases hc with rfl | hc
    · decide
    · exact natText_plain _ c hc

theorem intText_ne_nil (n : Int) : intText n ≠ [] := by
  cases n with
  | ofNat m => exact natText_ne_nil m
  | negSucc m => simp [intText]

theorem intText_inj {m n : Int} (h : intText m = intText n) : m = n := by
  cases m <;> cases n <;> simp only [intText] at h
  · rw [natText_inj h]
  · exact absurd rfl (natText_head_ne _ '-' (by rw [h]; rfl))
  · exact absurd rfl (natText_head_ne _ '-' (by rw [← h]; rfl))
  · simp only [List.cons.injEq, true_and] at h
    have := natText_inj h
    congr 1; omega

theorem boolText_plain (b : Bool) : ∀ c ∈ boolText b, plain c = true := by
  cases b <;> decide

theorem boolText_inj {a b : Bool} (h : boolText a = boolText b) : a = b := by
  cases a <;> cases b <;> first | rfl | (revert h; decide)

end CRU.Print
