import Verif.NaN.Base
import Verif.Dtw.Props
/-
  C103: dynamic time warping when the distance function returns NaNs.
-/
namespace CRU.NaN
open CRU.Dtw
set_option linter.unusedSectionVars false

variable {A B C : Type} [LinearOrder C] [Add C] [Zero C] [OrderTop C]

theorem num_of_add {a b : Dbl C} {c : C} (h : a + b = .num c) : ∃ x y, a = .num x ∧ b = .num y ∧ x + y = c := by
  cases a with
  | nan => simp at h
  | num x =>
    cases b with
    | nan => simp at h
    | num y => exact ⟨x, y, rfl, rfl, by simpa using h⟩

theorem dtw_nan (hT : ∀ c : C, c + ⊤ = ⊤) (dd : Nat → Nat → Dbl C) : ∀ n i j c, i + j = n → dtw dd (i + 1) (j + 1) = .num c → c ≠ ⊤ →
    ∃ l, WarpPath (i, j) l ∧ pathCost dd l = .num c := by
  intro n
  induction n using Nat.strong_induction_on with
  | _ n ih =>
    intro i j c hn h hc
    rw [dtw] at h
    obtain ⟨x, y, hx, hy, rfl⟩ := num_of_add h
    have hyt : y ≠ ⊤ := fun e => hc (by rw [e]; exact hT x)
    have border : ∀ {z : Dbl C}, z = ⊤ → z = .num y → False := fun h1 h2 => hyt (by
      rw [h1, Dbl.top_def] at h2; injection h2 with h2; exact h2.symm)
    rcases pick_cases (dtw dd i (j + 1)) (dtw dd i j) (dtw dd (i + 1) j) with e | e | e
    · rw [e] at hy
      cases i with
      | zero => exact (border (by rw [dtw]) hy).elim
      | succ i =>
        obtain ⟨l, hl, hc'⟩ := ih (i + j) (by omega) i j y rfl hy hyt
        exact ⟨_, .step hl (Or.inl rfl), by simp only [pathCost]; rw [hc', hx]; rfl⟩
    · rw [e] at hy
      cases i with
      | zero =>
        cases j with
        | zero => exact ⟨_, .start, by simp only [pathCost]; rw [dtw] at hy; rw [hx, hy]; rfl⟩
        | succ j => exact (border (by rw [dtw]) hy).elim
      | succ i =>
        cases j with
        | zero => exact (border (by rw [dtw]) hy).elim
        | succ j =>
          obtain ⟨l, hl, hc'⟩ := ih (i + j) (by omega) i j y rfl hy hyt
          exact ⟨_, .step hl (Or.inr (Or.inr rfl)), by simp only [pathCost]; rw [hc', hx]; rfl⟩
    · rw [e] at hy
      cases j with
      | zero => exact (border (by rw [dtw]) hy).elim
      | succ j =>
        obtain ⟨l, hl, hc'⟩ := ih (i + j) (by omega) i j y rfl hy hyt
        exact ⟨_, .step hl (Or.inr (Or.inl rfl)), by simp only [pathCost]; rw [hc', hx]; rfl⟩

/-- **C103.** An answer of dynamic time warping that is a finite number is, also when some distances are NaN, the cost of a real
warping path (which then pairs no elements whose distance is a NaN), whatever the history of the evaluator. -/
theorem C103_dtw_finite_is_real (hT : ∀ c : C, c + ⊤ = ⊤) {m : Mat (Dbl C)} (h : Evaluator A B m) (xs : List A) (ys : List B)
    (hx : xs ≠ []) (hy : ys ≠ []) (dist : A → B → Dbl C) (c : C) (hc : c ≠ ⊤)
    (hr : (evaluate m xs ys (fun x y => .ok (dist x y))).2 = .ok (.num c)) :
    ∃ l, WarpPath (xs.length - 1, ys.length - 1) l ∧ pathCost (pairCost xs ys dist) l = .num c := by
  have hx' : 0 < xs.length := List.length_pos_iff.mpr hx
  have hy' : 0 < ys.length := List.length_pos_iff.mpr hy
  rw [evaluate_value h xs ys hx hy dist] at hr
  refine dtw_nan hT _ _ (xs.length - 1) (ys.length - 1) c rfl ?_ hc
  rw [show xs.length - 1 + 1 = xs.length by omega, show ys.length - 1 + 1 = ys.length by omega]
  exact Res.ok.inj hr

/-- Distances of the witness: elements 1 and 3 have no distance, 1 and 2 are at distance 10, everything else is at distance 0. -/
def demoDist (x y : Nat) : Dbl ℕ∞ := if x = 1 ∧ y = 2 then .num 10 else if x = 1 ∧ y = 3 then .nan else .num 0

/-- **C103.** But a NaN next to an optimal warping path makes the code miss it: with infinity in place of the NaN the answer is 0, with the
NaN it is 10 (the sequences are 1, 2 and 1, 2, 3). -/
theorem C103_dtw_optimal_false :
    evaluateFresh [1, 2] [1, 2, 3] (fun x y => .ok (demoDist x y)) = .ok (.num 10) ∧
    evaluateFresh [1, 2] [1, 2, 3] (fun x y => .ok (demoDist x y).orTop) = .ok 0 := ⟨rfl, rfl⟩

/-- **C103.** And a NaN as the first pair of elements makes the whole answer a NaN or infinite. -/
theorem C103_dtw_first_pair (hT : ∀ c : C, c + ⊤ = ⊤) {m : Mat (Dbl C)} (h : Evaluator A B m) (x : A) (y : B) (xs : List A)
    (ys : List B) (dist : A → B → Dbl C) (hn : dist x y = .nan) :
    (evaluate m (x :: xs) (y :: ys) (fun x y => .ok (dist x y))).2 = .ok .nan ∨
    (evaluate m (x :: xs) (y :: ys) (fun x y => .ok (dist x y))).2 = .ok (.num ⊤) := by
  have e := evaluate_value h (x :: xs) (y :: ys) (by simp) (by simp) dist
  cases hd : dtw (pairCost (x :: xs) (y :: ys) dist) (x :: xs).length (y :: ys).length with
  | nan => left; rw [e, hd]
  | num c =>
    right
    by_cases hc : c = ⊤
    · rw [e, hd, hc]
    · exfalso
      rw [hd] at e
      obtain ⟨l, hl, hcost⟩ := C103_dtw_finite_is_real hT h (x :: xs) (y :: ys) (by simp) (by simp) dist c hc e
      have key : ∀ {p l}, WarpPath p l → pathCost (pairCost (x :: xs) (y :: ys) dist) l = .nan := by
        intro p l hl
        induction hl with
        | start => simp [pathCost, pairCost, hn]
        | step _ _ ih => simp only [pathCost]; rw [ih]; simp
      rw [key hl] at hcost
      cases hcost

example : ∃ l, WarpPath (1, 2) l ∧ pathCost (pairCost [1, 2] [1, 2, 3] demoDist) l = .num 10 :=
  C103_dtw_finite_is_real (A := Nat) (B := Nat) (fun c => by simp) (.new (first := 0) (second := 0) rfl) [1, 2] [1, 2, 3] (by simp)
    (by simp) demoDist 10 (by decide) C103_dtw_optimal_false.1

example : (evaluate (fresh 1 1) [1] [3, 1] (fun x y => .ok (demoDist x y))).2 = .ok (.nan : Dbl ℕ∞) ∨
    (evaluate (fresh 1 1) [1] [3, 1] (fun x y => .ok (demoDist x y))).2 = .ok (.num ⊤ : Dbl ℕ∞) :=
  C103_dtw_first_pair (fun c => by simp) (.new (first := 0) (second := 0) rfl) 1 3 [] [1] demoDist rfl

end CRU.NaN
