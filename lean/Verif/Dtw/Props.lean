import Verif.Dtw.Model
/-
  C30: the warping cost is that of a real warping path (hence at least the optimum), it does not depend on the evaluator's
  history, and it is optimal unless a particular tie occurs; with that tie it is not.
-/
namespace CRU.Dtw
set_option linter.unusedSectionVars false

section AnyArithmetic
/- Nothing is assumed about `<` and `+`: this part holds with NaN as well. -/
variable {A B C : Type} [LT C] [DecidableLT C] [Add C] [Zero C] [Top C]

/-- Border of a matrix that has been used. -/
def Border (m : Mat C) : Prop :=
  1 < m.rows → 1 < m.cols → m.val 0 0 = 0 ∧ (∀ i, i ≠ 0 → m.val i 0 = ⊤) ∧ (∀ j, j ≠ 0 → m.val 0 j = ⊤)

theorem fresh_border (r c : Nat) : Border (fresh r c : Mat C) := by
  intro hr hc
  have hr' : 1 < r := hr
  have hc' : 1 < c := hc
  refine ⟨?_, ?_, ?_⟩
  · simp [fresh]
  · intro i hi; simp [fresh, hi, hr', hc']
  · intro j hj; simp [fresh, hj, hr', hc']

theorem initMatrix_border {m m' : Mat C} {a b : Int} (h : initMatrix m a b = .ok m') (hb : Border m) : Border m' := by
  unfold initMatrix at h
  dsimp only at h
  split at h
  · split at h
    · cases h
    · cases h; exact fresh_border _ _
  · cases h; exact hb

theorem empty_border : Border (emptyMat : Mat C) := fun h => absurd h (by simp [emptyMat])

/-- What happens to the matrix in a step: nothing, or one entry that is not on the border changes. -/
theorem cellStep_shape (xs : List A) (ys : List B) (d : A → B → Res C) (m : Mat C) (p : Nat × Nat) (h1 : p.1 ≠ 0) (h2 : p.2 ≠ 0)
    (hb : Border m) : Border (cellStep xs ys d m p).1 := by
  unfold cellStep
  split
  · rename_i v _
    unfold Mat.set
    split
    · rename_i m' h
      split at h
      · cases h
        intro hr hc
        obtain ⟨b0, b1, b2⟩ := hb hr hc
        refine ⟨?_, ?_, ?_⟩
        · show (if 0 = p.1 ∧ 0 = p.2 then v else m.val 0 0) = 0
          rw [if_neg (by omega), b0]
        · intro i hi
          show (if i = p.1 ∧ 0 = p.2 then v else m.val i 0) = ⊤
          rw [if_neg (by omega), b1 i hi]
        · intro j hj
          show (if 0 = p.1 ∧ j = p.2 then v else m.val 0 j) = ⊤
          rw [if_neg (by omega), b2 j hj]
      · cases h
    · exact hb
    · exact hb
  · exact hb
  · exact hb

theorem runCells_border (xs : List A) (ys : List B) (d : A → B → Res C) (l : List (Nat × Nat)) :
    ∀ m : Mat C, (∀ p ∈ l, p.1 ≠ 0 ∧ p.2 ≠ 0) → Border m → Border (runCells xs ys d l m).1 := by
  induction l with
  | nil => intro m _ hb; exact hb
  | cons p ps ih =>
    intro m hl hb
    have hs := cellStep_shape xs ys d m p (hl p (by simp)).1 (hl p (by simp)).2 hb
    unfold runCells
    split
    · rename_i m' _ heq
      rw [heq] at hs
      exact ih m' (fun q hq => hl q (by simp [hq])) hs
    · rename_i m' e heq; rw [heq] at hs; exact hs
    · rename_i m' heq; rw [heq] at hs; exact hs

theorem mem_cells {n k : Nat} {p : Nat × Nat} : p ∈ cells n k ↔ 1 ≤ p.1 ∧ p.1 ≤ n ∧ 1 ≤ p.2 ∧ p.2 ≤ k := by
  unfold cells
  rw [List.mem_flatMap]
  constructor
  · rintro ⟨i, hi, hp⟩
    rw [List.mem_map] at hp
    obtain ⟨j, hj, rfl⟩ := hp
    rw [List.mem_range'_1] at hi hj
    dsimp only
    omega
  · rintro ⟨h1, h2, h3, h4⟩
    refine ⟨p.1, by rw [List.mem_range'_1]; omega, ?_⟩
    rw [List.mem_map]
    exact ⟨p.2, by rw [List.mem_range'_1]; omega, rfl⟩

theorem evaluate_border (m : Mat C) (xs : List A) (ys : List B) (d : A → B → Res C) (hb : Border m) :
    Border (evaluate m xs ys d).1 := by
  unfold evaluate
  split
  · exact hb
  · split
    · exact hb
    · split
      · exact hb
      · exact hb
      · rename_i m1 h1
        have := runCells_border xs ys d (cells xs.length ys.length) m1
          (fun p hp => by have := mem_cells.mp hp; omega) (initMatrix_border h1 hb)
        split
        · rename_i m2 _ heq; rw [heq] at this; exact this
        · rename_i m2 e heq; rw [heq] at this; exact this
        · rename_i m2 heq; rw [heq] at this; exact this

theorem Evaluator.border {m : Mat C} (h : Evaluator A B m) : Border m := by
  induction h with
  | new h => exact initMatrix_border h empty_border
  | use _ xs ys d ih => exact evaluate_border _ xs ys d ih

/-! ### Two runs in step -/

/-- Entries of `S` and the border are equal. -/
def Agree (S : Nat × Nat → Prop) (m m' : Mat C) : Prop :=
  (∀ p, S p → m.val p.1 p.2 = m'.val p.1 p.2) ∧ m.val 0 0 = m'.val 0 0 ∧
  (∀ i, i ≠ 0 → m.val i 0 = m'.val i 0) ∧ (∀ j, j ≠ 0 → m.val 0 j = m'.val 0 j)

/-- Every entry of the list depends only on the border, on `S` and on entries earlier in the list. -/
def Ordered : (Nat × Nat → Prop) → List (Nat × Nat) → Prop
  | _, [] => True
  | S, p :: ps => (p.1 ≠ 0 ∧ p.2 ≠ 0) ∧ (p.1 - 1 = 0 ∨ S (p.1 - 1, p.2)) ∧ (p.1 - 1 = 0 ∨ p.2 - 1 = 0 ∨ S (p.1 - 1, p.2 - 1)) ∧
      (p.2 - 1 = 0 ∨ S (p.1, p.2 - 1)) ∧ Ordered (fun q => q = p ∨ S q) ps

theorem Ordered.mono {S S' : Nat × Nat → Prop} {l : List (Nat × Nat)} (h : Ordered S l) (hs : ∀ p, S p → S' p) :
    Ordered S' l := by
  induction l generalizing S S' with
  | nil => trivial
  | cons p ps ih =>
    obtain ⟨h1, h2, h3, h4, h5⟩ := h
    exact ⟨h1, h2.imp_right (hs _), h3.imp_right (·.imp_right (hs _)), h4.imp_right (hs _),
      ih h5 (fun q hq => hq.imp_right (hs _))⟩

theorem Agree.border_or {S : Nat × Nat → Prop} {m m' : Mat C} (h : Agree S m m') {i j : Nat} (hij : i = 0 ∨ j = 0 ∨ S (i, j)) :
    m.val i j = m'.val i j := by
  obtain ⟨h1, h2, h3, h4⟩ := h
  rcases hij with rfl | rfl | hs
  · by_cases hj : j = 0
    · subst hj; exact h2
    · exact h4 j hj
  · by_cases hi : i = 0
    · subst hi; exact h2
    · exact h3 i hi
  · exact h1 _ hs

/-- Sizes large enough for the cells up to `(n, k)`. -/
def Fits (n k : Nat) (m : Mat C) : Prop := n < m.rows ∧ k < m.cols

theorem cellValue_congr (xs : List A) (ys : List B) (d : A → B → Res C) {S : Nat × Nat → Prop} {n k : Nat} {m m' : Mat C} {p : Nat × Nat}
    (hm : Fits n k m) (hm' : Fits n k m') (hpn : p.1 ≤ n ∧ p.2 ≤ k)
    (ha : Agree S m m') (h2 : p.1 - 1 = 0 ∨ S (p.1 - 1, p.2)) (h3 : p.1 - 1 = 0 ∨ p.2 - 1 = 0 ∨ S (p.1 - 1, p.2 - 1))
    (h4 : p.2 - 1 = 0 ∨ S (p.1, p.2 - 1)) : cellValue xs ys d m p.1 p.2 = cellValue xs ys d m' p.1 p.2 := by
  have g : ∀ i j, i ≤ n → j ≤ k → (i = 0 ∨ j = 0 ∨ S (i, j)) → m.get i j = m'.get i j := by
    intro i j hi hj h
    unfold Mat.get
    unfold Fits at hm hm'
    rw [if_pos (by omega), if_pos (by omega), ha.border_or h]
  unfold cellValue
  rw [g (p.1 - 1) p.2 (by omega) (by omega) (h2.imp_right Or.inr), g (p.1 - 1) (p.2 - 1) (by omega) (by omega) h3,
    g p.1 (p.2 - 1) (by omega) (by omega) (Or.inr h4)]

theorem runCells_agree (xs : List A) (ys : List B) (d : A → B → Res C) {n k : Nat} (l : List (Nat × Nat)) :
    ∀ (S : Nat × Nat → Prop) (m m' : Mat C), Fits n k m → Fits n k m' → (∀ p ∈ l, p.1 ≤ n ∧ p.2 ≤ k) → Ordered S l →
    Agree S m m' →
    (runCells xs ys d l m).2 = (runCells xs ys d l m').2 ∧
    Fits n k (runCells xs ys d l m).1 ∧ Fits n k (runCells xs ys d l m').1 ∧
    ((runCells xs ys d l m).2 = .ok () →
      Agree (fun p => p ∈ l ∨ S p) (runCells xs ys d l m).1 (runCells xs ys d l m').1) := by
  induction l with
  | nil => intro S m m' hf hf' _ _ ha; exact ⟨rfl, hf, hf', fun _ => by simpa [runCells] using ha⟩
  | cons p ps ih =>
    intro S m m' hf hf' hl ho ha
    obtain ⟨hp0, o2, o3, o4, o5⟩ := ho
    have hp := hl p (by simp)
    have hc := cellValue_congr xs ys d hf hf' hp ha o2 o3 o4
    unfold runCells cellStep
    rw [← hc]
    cases hv : cellValue xs ys d m p.1 p.2 with
    | ok v =>
      have hset : ∀ q : Mat C, Fits n k q →
          q.set p.1 p.2 v = .ok { q with val := fun a b => if a = p.1 ∧ b = p.2 then v else q.val a b } := by
        intro q hq
        unfold Mat.set
        unfold Fits at hq
        rw [if_pos (by omega)]
      dsimp only
      rw [hset m hf, hset m' hf']
      dsimp only
      obtain ⟨i1, i2, i3, i4⟩ := ih (fun q => q = p ∨ S q)
        { m with val := fun a b => if a = p.1 ∧ b = p.2 then v else m.val a b }
        { m' with val := fun a b => if a = p.1 ∧ b = p.2 then v else m'.val a b } hf hf' (fun q hq => hl q (by simp [hq])) o5
        (by
          obtain ⟨a1, a2, a3, a4⟩ := ha
          refine ⟨?_, ?_, ?_, ?_⟩
          · intro q hq
            dsimp only
            by_cases hqp : q.1 = p.1 ∧ q.2 = p.2
            · rw [if_pos hqp, if_pos hqp]
            · rw [if_neg hqp, if_neg hqp]
              rcases hq with rfl | hq
              · exact absurd ⟨rfl, rfl⟩ hqp
              · exact a1 q hq
          · dsimp only; rw [if_neg (by omega), if_neg (by omega), a2]
          · intro i hi; dsimp only; rw [if_neg (by omega), if_neg (by omega), a3 i hi]
          · intro j hj; dsimp only; rw [if_neg (by omega), if_neg (by omega), a4 j hj])
      refine ⟨i1, i2, i3, fun h => ?_⟩
      obtain ⟨a1, a2, a3, a4⟩ := i4 h
      refine ⟨fun q hq => a1 q ?_, a2, a3, a4⟩
      rcases hq with hq | hq
      · rcases List.mem_cons.mp hq with rfl | hq
        · exact Or.inr (Or.inl rfl)
        · exact Or.inl hq
      · exact Or.inr (Or.inr hq)
    | throw e => exact ⟨rfl, hf, hf', fun h => by cases h⟩
    | ub => exact ⟨rfl, hf, hf', fun h => by cases h⟩

/-- Row `i`, from column `j` on. -/
theorem ordered_row (i : Nat) (hi : i ≠ 0) : ∀ (k j : Nat) (S : Nat × Nat → Prop) (rest : List (Nat × Nat)), j ≠ 0 →
    (∀ b, j - 1 ≤ b → b < j + k → i - 1 = 0 ∨ b = 0 ∨ S (i - 1, b)) → (j - 1 = 0 ∨ S (i, j - 1)) →
    Ordered (fun q => (q.1 = i ∧ j ≤ q.2 ∧ q.2 < j + k) ∨ S q) rest →
    Ordered S ((List.range' j k).map (fun b => (i, b)) ++ rest) := by
  intro k
  induction k with
  | zero =>
    intro j S rest _ _ _ hr
    simp only [List.range'_zero, List.map_nil, List.nil_append]
    exact hr.mono (fun q hq => by rcases hq with h | h; omega; exact h)
  | succ k ih =>
    intro j S rest hj hup hleft hr
    rw [List.range'_succ, List.map_cons, List.cons_append]
    refine ⟨⟨hi, hj⟩, ?_, ?_, hleft, ?_⟩
    · rcases hup j (by omega) (by omega) with h | h | h
      · exact Or.inl h
      · exact absurd h hj
      · exact Or.inr h
    · exact hup (j - 1) (by omega) (by omega)
    · apply ih (j + 1) _ rest (by omega)
      · intro b h1 h2
        rcases hup b (by omega) (by omega) with h | h | h
        · exact Or.inl h
        · exact Or.inr (Or.inl h)
        · exact Or.inr (Or.inr (Or.inr h))
      · exact Or.inr (Or.inl rfl)
      · refine hr.mono (fun q hq => ?_)
        rcases hq with ⟨h1, h2, h3⟩ | h
        · by_cases hqj : q.2 = j
          · exact Or.inr (Or.inl (Prod.ext h1 hqj))
          · exact Or.inl ⟨h1, by omega, by omega⟩
        · exact Or.inr (Or.inr h)

theorem ordered_rows (k : Nat) : ∀ (n i : Nat) (S : Nat × Nat → Prop), i ≠ 0 →
    (∀ b, 1 ≤ b → b ≤ k → i - 1 = 0 ∨ S (i - 1, b)) →
    Ordered S ((List.range' i n).flatMap fun a => (List.range' 1 k).map fun b => (a, b)) := by
  intro n
  induction n with
  | zero => intro i S _ _; trivial
  | succ n ih =>
    intro i S hi hup
    rw [List.range'_succ, List.flatMap_cons]
    apply ordered_row i hi k 1 S _ (by omega)
    · intro b h1 h2
      by_cases hb : b = 0
      · exact Or.inr (Or.inl hb)
      · rcases hup b (by omega) (by omega) with h | h
        · exact Or.inl h
        · exact Or.inr (Or.inr h)
    · exact Or.inl rfl
    · apply ih (i + 1) _ (by omega)
      intro b h1 h2
      exact Or.inr (Or.inl ⟨by simp, h1, by simp; omega⟩)

theorem ordered_cells (n k : Nat) : Ordered (fun _ => False) (cells n k) :=
  ordered_rows k n 1 _ (by omega) (fun _ _ _ => Or.inl rfl)

theorem initMatrix_fits {m m1 : Mat C} {n k : Nat} (h : initMatrix m n k = .ok m1) : Fits n k m1 := by
  unfold initMatrix at h
  dsimp only at h
  unfold Fits
  split at h
  · split at h
    · cases h
    · cases h
      show n < ((n : Int) + 1).toNat ∧ k < ((k : Int) + 1).toNat
      omega
  · cases h; omega

theorem initMatrix_ok (m : Mat C) (n k : Nat) : ∃ m1, initMatrix m n k = .ok m1 := by
  unfold initMatrix
  dsimp only
  split
  · rw [if_neg (by omega)]; exact ⟨_, rfl⟩
  · exact ⟨_, rfl⟩

theorem agree_border {n k : Nat} {m m' : Mat C} (hn : 0 < n) (hk : 0 < k) (hf : Fits n k m) (hf' : Fits n k m') (hb : Border m)
    (hb' : Border m') : Agree (fun _ => False) m m' := by
  unfold Fits at hf hf'
  obtain ⟨b0, b1, b2⟩ := hb (by omega) (by omega)
  obtain ⟨c0, c1, c2⟩ := hb' (by omega) (by omega)
  exact ⟨fun _ h => h.elim, by rw [b0, c0], fun i hi => by rw [b1 i hi, c1 i hi], fun j hj => by rw [b2 j hj, c2 j hj]⟩

/-- Evaluation from any two matrices with a good border. -/
theorem evaluate_congr (m m' : Mat C) (xs : List A) (ys : List B) (d : A → B → Res C) (hb : Border m) (hb' : Border m') :
    (evaluate m xs ys d).2 = (evaluate m' xs ys d).2 := by
  unfold evaluate
  by_cases hx : xs = []
  · rw [if_pos hx, if_pos hx]
  · rw [if_neg hx, if_neg hx]
    by_cases hy : ys = []
    · rw [if_pos hy, if_pos hy]
    · rw [if_neg hy, if_neg hy]
      obtain ⟨m1, e1⟩ := initMatrix_ok m xs.length ys.length
      obtain ⟨m1', e1'⟩ := initMatrix_ok m' xs.length ys.length
      rw [e1, e1']
      dsimp only
      have hx' : 0 < xs.length := List.length_pos_iff.mpr hx
      have hy' : 0 < ys.length := List.length_pos_iff.mpr hy
      have key := runCells_agree xs ys d (n := xs.length) (k := ys.length) (cells xs.length ys.length) (fun _ => False) m1 m1'
        (initMatrix_fits e1) (initMatrix_fits e1') (fun p hp => by have := mem_cells.mp hp; omega) (ordered_cells _ _)
        (agree_border hx' hy' (initMatrix_fits e1) (initMatrix_fits e1') (initMatrix_border e1 hb) (initMatrix_border e1' hb'))
      rcases hr : runCells xs ys d (cells xs.length ys.length) m1 with ⟨m2, r⟩
      rcases hr' : runCells xs ys d (cells xs.length ys.length) m1' with ⟨m2', r'⟩
      rw [hr, hr'] at key
      obtain ⟨k1, k2, k3, k4⟩ := key
      dsimp only at k1 k2 k3 k4
      subst k1
      cases r with
      | ok u =>
        dsimp only
        have ha := k4 rfl
        unfold Mat.get
        unfold Fits at k2 k3
        rw [if_pos (by omega), if_pos (by omega)]
        rw [ha.border_or (i := xs.length) (j := ys.length) (Or.inr (Or.inr (Or.inl (mem_cells.mpr (by dsimp only; omega)))))]
      | throw e => rfl
      | ub => rfl

/-- C30: an evaluator that was constructed with any sizes and used any number of times, for any sequences and distance
functions, including calls that threw, gives the same outcome as the free function with a new evaluator. -/
theorem C30_history_independent {m : Mat C} (h : Evaluator A B m) (xs : List A) (ys : List B) (d : A → B → Res C) :
    (evaluate m xs ys d).2 = evaluateFresh xs ys d := by
  have e : construct (C := C) 0 0 = .ok (fresh 1 1) := rfl
  unfold evaluateFresh
  rw [e]
  exact evaluate_congr _ _ xs ys d h.border (fresh_border 1 1)

/-! ### The values -/

/-- The recurrence of the code. -/
def dtw (dd : Nat → Nat → C) : Nat → Nat → C
  | 0, 0 => 0
  | 0, _ + 1 => ⊤
  | _ + 1, 0 => ⊤
  | i + 1, j + 1 => dd i j + pick (dtw dd i (j + 1)) (dtw dd i j) (dtw dd (i + 1) j)

/-- The matrix of the recurrence is a fixed point of the loop. -/
theorem runCells_dtw (xs : List A) (ys : List B) (d : A → B → Res C) (dd : Nat → Nat → C)
    (hd : ∀ i j x y, xs[i]? = some x → ys[j]? = some y → d x y = .ok (dd i j)) (l : List (Nat × Nat)) :
    (∀ p ∈ l, 1 ≤ p.1 ∧ p.1 ≤ xs.length ∧ 1 ≤ p.2 ∧ p.2 ≤ ys.length) →
    runCells xs ys d l ⟨xs.length + 1, ys.length + 1, dtw dd⟩ = (⟨xs.length + 1, ys.length + 1, dtw dd⟩, .ok ()) := by
  induction l with
  | nil => intro _; rfl
  | cons p ps ih =>
    intro hl
    obtain ⟨h1, h2, h3, h4⟩ := hl p (by simp)
    obtain ⟨i, j⟩ := p
    dsimp only at h1 h2 h3 h4
    obtain ⟨i, rfl⟩ : ∃ i', i = i' + 1 := ⟨i - 1, by omega⟩
    obtain ⟨j, rfl⟩ : ∃ j', j = j' + 1 := ⟨j - 1, by omega⟩
    have hx : xs[i]? = some xs[i] := List.getElem?_eq_getElem (by omega)
    have hy : ys[j]? = some ys[j] := List.getElem?_eq_getElem (by omega)
    have hv : cellValue xs ys d ⟨xs.length + 1, ys.length + 1, dtw dd⟩ (i + 1) (j + 1) = .ok (dtw dd (i + 1) (j + 1)) := by
      unfold cellValue atRaw Mat.get
      rw [show i + 1 - 1 = i from rfl, show j + 1 - 1 = j from rfl, hx, hy]
      dsimp only
      rw [Res.ok_bind, Res.ok_bind, hd i j _ _ hx hy, Res.ok_bind, if_pos (by omega), Res.ok_bind, if_pos (by omega), Res.ok_bind,
        if_pos (by omega), Res.ok_bind, Res.pure_eq, dtw]
    unfold runCells cellStep
    dsimp only
    rw [hv]
    dsimp only
    unfold Mat.set
    rw [if_pos (by dsimp only; omega)]
    dsimp only
    have : (fun a b => if a = i + 1 ∧ b = j + 1 then dtw dd (i + 1) (j + 1) else dtw dd a b) = dtw dd := by
      funext a b
      split
      · rename_i h; rw [h.1, h.2]
      · rfl
    rw [this]
    exact ih (fun q hq => hl q (by simp [hq]))

theorem evaluate_eq_dtw {m : Mat C} (hb : Border m) (xs : List A) (ys : List B) (hx : xs ≠ []) (hy : ys ≠ []) (d : A → B → Res C)
    (dd : Nat → Nat → C) (hd : ∀ i j x y, xs[i]? = some x → ys[j]? = some y → d x y = .ok (dd i j)) :
    (evaluate m xs ys d).2 = .ok (dtw dd xs.length ys.length) := by
  have hx' : 0 < xs.length := List.length_pos_iff.mpr hx
  have hy' : 0 < ys.length := List.length_pos_iff.mpr hy
  have hbr : Border (⟨xs.length + 1, ys.length + 1, dtw dd⟩ : Mat C) := by
    intro _ _
    refine ⟨by simp [dtw], ?_, ?_⟩
    · intro i hi
      obtain ⟨i, rfl⟩ : ∃ i', i = i' + 1 := ⟨i - 1, by omega⟩
      simp [dtw]
    · intro j hj
      obtain ⟨j, rfl⟩ : ∃ j', j = j' + 1 := ⟨j - 1, by omega⟩
      simp [dtw]
  rw [evaluate_congr m ⟨xs.length + 1, ys.length + 1, dtw dd⟩ xs ys d hb hbr]
  unfold evaluate
  rw [if_neg hx, if_neg hy]
  have : initMatrix (⟨xs.length + 1, ys.length + 1, dtw dd⟩ : Mat C) xs.length ys.length
      = .ok ⟨xs.length + 1, ys.length + 1, dtw dd⟩ := by
    unfold initMatrix
    dsimp only
    rw [if_neg (by push_cast; omega)]
  rw [this]
  dsimp only
  rw [runCells_dtw xs ys d dd hd _ (fun p hp => mem_cells.mp hp)]
  dsimp only
  unfold Mat.get
  rw [if_pos (by dsimp only; omega)]

/-- The pair costs of two sequences. -/
def pairCost (xs : List A) (ys : List B) (dist : A → B → C) (i j : Nat) : C :=
  match xs[i]?, ys[j]? with
  | some x, some y => dist x y
  | _, _ => 0

theorem evaluate_value {m : Mat C} (h : Evaluator A B m) (xs : List A) (ys : List B) (hx : xs ≠ []) (hy : ys ≠ [])
    (dist : A → B → C) :
    (evaluate m xs ys (fun x y => .ok (dist x y))).2 = .ok (dtw (pairCost xs ys dist) xs.length ys.length) := by
  apply evaluate_eq_dtw h.border xs ys hx hy
  intro i j x y h1 h2
  unfold pairCost
  rw [h1, h2]

theorem pick_cases (a b c : C) : pick a b c = a ∨ pick a b c = b ∨ pick a b c = c := by
  unfold pick
  split
  · exact Or.inl rfl
  · split
    · exact Or.inr (Or.inr rfl)
    · exact Or.inr (Or.inl rfl)

end AnyArithmetic

variable {A B C : Type} [LinearOrder C] [Add C] [Zero C] [OrderTop C]

theorem pick_top_top (c : C) : pick ⊤ ⊤ c = c := by
  unfold pick
  rw [if_neg (fun h => absurd h.1 (lt_irrefl _))]
  split
  · rfl
  · rename_i h
    by_contra hne
    exact h ⟨lt_top_iff_ne_top.mpr (Ne.symm hne), lt_top_iff_ne_top.mpr (Ne.symm hne)⟩

theorem pick_top_right (a : C) : pick a ⊤ ⊤ = a := by
  unfold pick
  split
  · rfl
  · rename_i h
    have : ¬ a < ⊤ := fun ha => h ⟨ha, ha⟩
    have ha : a = ⊤ := by
      by_contra hne; exact this (lt_top_iff_ne_top.mpr hne)
    subst ha
    rw [if_neg (fun h => absurd h.1 (lt_irrefl _))]

theorem pick_zero : pick (⊤ : C) 0 ⊤ = 0 := by
  unfold pick
  rw [if_neg (fun h => absurd h.2 (lt_irrefl _)), if_neg (fun h => absurd h.1 (lt_irrefl _))]

theorem dtw_one_one (dd : Nat → Nat → C) : dtw dd 1 1 = dd 0 0 + 0 := by simp [dtw, pick_zero]

theorem dtw_row (dd : Nat → Nat → C) (j : Nat) : dtw dd 1 (j + 2) = dd 0 (j + 1) + dtw dd 1 (j + 1) := by
  rw [dtw, show dtw dd 0 (j + 2) = ⊤ from by simp [dtw], show dtw dd 0 (j + 1) = ⊤ from by simp [dtw], pick_top_top]

theorem dtw_col (dd : Nat → Nat → C) (i : Nat) : dtw dd (i + 2) 1 = dd (i + 1) 0 + dtw dd (i + 1) 1 := by
  rw [dtw, show dtw dd (i + 1) 0 = ⊤ from by simp [dtw], show dtw dd (i + 2) 0 = ⊤ from by simp [dtw], pick_top_right]

theorem dtw_inner (dd : Nat → Nat → C) (i j : Nat) : dtw dd (i + 2) (j + 2) =
    dd (i + 1) (j + 1) + pick (dtw dd (i + 1) (j + 2)) (dtw dd (i + 1) (j + 1)) (dtw dd (i + 2) (j + 1)) := by
  rw [dtw]

/-- Every value of the recurrence is the cost of a warping path. -/
theorem dtw_real (dd : Nat → Nat → C) : ∀ i j : Nat, ∃ l, WarpPath (i, j) l ∧ pathCost dd l = dtw dd (i + 1) (j + 1) := by
  intro i
  induction i with
  | zero =>
    intro j
    induction j with
    | zero => exact ⟨_, .start, by rw [dtw_one_one]; rfl⟩
    | succ j ih =>
      obtain ⟨l, hl, hc⟩ := ih
      exact ⟨_, .step hl (Or.inr (Or.inl rfl)), by rw [dtw_row, ← hc]; rfl⟩
  | succ i ihi =>
    intro j
    induction j with
    | zero =>
      obtain ⟨l, hl, hc⟩ := ihi 0
      exact ⟨_, .step hl (Or.inl rfl), by rw [dtw_col, ← hc]; rfl⟩
    | succ j ihj =>
      rw [dtw_inner]
      rcases pick_cases (dtw dd (i + 1) (j + 2)) (dtw dd (i + 1) (j + 1)) (dtw dd (i + 2) (j + 1)) with h | h | h
      · obtain ⟨l, hl, hc⟩ := ihi (j + 1)
        exact ⟨_, .step hl (Or.inl rfl), by rw [h, ← hc]; rfl⟩
      · obtain ⟨l, hl, hc⟩ := ihi j
        exact ⟨_, .step hl (Or.inr (Or.inr rfl)), by rw [h, ← hc]; rfl⟩
      · obtain ⟨l, hl, hc⟩ := ihj
        exact ⟨_, .step hl (Or.inr (Or.inl rfl)), by rw [h, ← hc]; rfl⟩

/-- C30: for all non-empty sequences and every history, the result is the cost of some warping path that pairs the first
elements and the last elements. In particular it is never below the optimum. -/
theorem C30_cost_is_real {m : Mat C} (h : Evaluator A B m) (xs : List A) (ys : List B) (hx : xs ≠ []) (hy : ys ≠ [])
    (dist : A → B → C) :
    ∃ l, WarpPath (xs.length - 1, ys.length - 1) l ∧
      (evaluate m xs ys (fun x y => .ok (dist x y))).2 = .ok (pathCost (pairCost xs ys dist) l) := by
  rw [evaluate_value h xs ys hx hy dist]
  have hx' : 0 < xs.length := List.length_pos_iff.mpr hx
  have hy' : 0 < ys.length := List.length_pos_iff.mpr hy
  obtain ⟨l, hl, hc⟩ := dtw_real (pairCost xs ys dist) (xs.length - 1) (ys.length - 1)
  refine ⟨l, hl, ?_⟩
  rw [hc, show xs.length - 1 + 1 = xs.length by omega, show ys.length - 1 + 1 = ys.length by omega]

/-- C30: empty sequences are refused. -/
theorem C30_empty_throws (m : Mat C) (xs : List A) (ys : List B) (d : A → B → Res C) (h : xs = [] ∨ ys = []) :
    (evaluate m xs ys d).2 = .throw .invalidArgument := by
  unfold evaluate
  by_cases hx : xs = []
  · rw [if_pos hx]
  · rw [if_neg hx, if_pos (h.resolve_left hx)]

/-- The tie that the code resolves wrongly does not occur: whenever the optimal costs of the upper and the left neighbour are
equal, that of the diagonal neighbour is no larger. -/
def NoBadTie (d : Nat → Nat → C) (n k : Nat) : Prop :=
  ∀ i j, i + 1 < n → j + 1 < k → ∀ u g l, Best d (i, j + 1) u → Best d (i, j) g → Best d (i + 1, j) l → u = l → g ≤ u

variable [CostLaws C]

theorem pick_min (a b c : C) (h : a = c → b ≤ a) : pick a b c ≤ a ∧ pick a b c ≤ b ∧ pick a b c ≤ c := by
  unfold pick
  split
  · rename_i h1; exact ⟨le_refl _, h1.1.le, h1.2.le⟩
  · rename_i h1
    split
    · rename_i h2; exact ⟨h2.1.le, h2.2.le, le_refl _⟩
    · rename_i h2
      rcases lt_trichotomy a c with hac | hac | hac
      · have hb : b ≤ a := by
          by_contra hn; exact h1 ⟨lt_of_not_ge hn, hac⟩
        exact ⟨hb, le_refl _, hb.trans hac.le⟩
      · have hb := h hac
        exact ⟨hb, le_refl _, hb.trans hac.le⟩
      · have hb : b ≤ c := by
          by_contra hn; exact h2 ⟨hac, lt_of_not_ge hn⟩
        exact ⟨hb.trans hac.le, le_refl _, hb⟩

theorem warp_cases {e : Nat × Nat} {l : List (Nat × Nat)} (h : WarpPath e l) :
    (e = (0, 0) ∧ l = [(0, 0)]) ∨ ∃ p l', WarpPath p l' ∧ WarpStep p e ∧ l = e :: l' := by
  cases h with
  | start => exact Or.inl ⟨rfl, rfl⟩
  | step h hs => exact Or.inr ⟨_, _, h, hs, rfl⟩

theorem dtw_best (d : Nat → Nat → C) (n k : Nat) (ht : NoBadTie d n k) :
    ∀ i, i < n → ∀ j, j < k → Best d (i, j) (dtw d (i + 1) (j + 1)) := by
  intro i
  induction i with
  | zero =>
    intro _ j
    induction j with
    | zero =>
      intro _
      refine ⟨dtw_real d 0 0, fun l hl => ?_⟩
      rcases warp_cases hl with ⟨_, rfl⟩ | ⟨p, l', _, hs, _⟩
      · rw [dtw_one_one]; exact le_refl _
      · exfalso
        rcases hs with h | h | h <;> (rw [Prod.ext_iff] at h; dsimp only at h; omega)
    | succ j ih =>
      intro hj
      refine ⟨dtw_real d 0 (j + 1), fun l hl => ?_⟩
      rcases warp_cases hl with ⟨h0, _⟩ | ⟨p, l', hp, hs, rfl⟩
      · rw [Prod.ext_iff] at h0; dsimp only at h0; omega
      · have : p = (0, j) := by
          rcases hs with h | h | h <;> (rw [Prod.ext_iff] at h ⊢; dsimp only at h ⊢; omega)
        subst this
        rw [dtw_row]
        exact CostLaws.add_le_add_left _ _ _ ((ih (by omega)).2 l' hp)
  | succ i ihi =>
    intro hi j
    induction j with
    | zero =>
      intro hj
      refine ⟨dtw_real d (i + 1) 0, fun l hl => ?_⟩
      rcases warp_cases hl with ⟨h0, _⟩ | ⟨p, l', hp, hs, rfl⟩
      · rw [Prod.ext_iff] at h0; dsimp only at h0; omega
      · have : p = (i, 0) := by
          rcases hs with h | h | h <;> (rw [Prod.ext_iff] at h ⊢; dsimp only at h ⊢; omega)
        subst this
        rw [dtw_col]
        exact CostLaws.add_le_add_left _ _ _ ((ihi (by omega) 0 hj).2 l' hp)
    | succ j ihj =>
      intro hj
      refine ⟨dtw_real d (i + 1) (j + 1), fun l hl => ?_⟩
      have bu := ihi (by omega) (j + 1) hj
      have bg := ihi (by omega) j (by omega)
      have bl := ihj (by omega)
      obtain ⟨p1, p2, p3⟩ := pick_min _ _ _ (fun h => ht i j hi hj _ _ _ bu bg bl h)
      rw [dtw_inner]
      rcases warp_cases hl with ⟨h0, _⟩ | ⟨p, l', hp, hs, rfl⟩
      · rw [Prod.ext_iff] at h0; dsimp only at h0; omega
      · apply CostLaws.add_le_add_left
        rcases hs with h | h | h
        · have : p = (i, j + 1) := by rw [Prod.ext_iff] at h ⊢; dsimp only at h ⊢; omega
          subst this
          exact p1.trans (bu.2 l' hp)
        · have : p = (i + 1, j) := by rw [Prod.ext_iff] at h ⊢; dsimp only at h ⊢; omega
          subst this
          exact p3.trans (bl.2 l' hp)
        · have : p = (i, j) := by rw [Prod.ext_iff] at h ⊢; dsimp only at h ⊢; omega
          subst this
          exact p2.trans (bg.2 l' hp)

/-- C30, partial: the result is the minimum over all warping paths, provided that the tie described by `NoBadTie` does not
occur. Missing: the tie, where the code picks the more expensive diagonal (`C30_optimal_false`). -/
theorem C30_optimal_partial {m : Mat C} (h : Evaluator A B m) (xs : List A) (ys : List B) (hx : xs ≠ []) (hy : ys ≠ [])
    (dist : A → B → C) (ht : NoBadTie (pairCost xs ys dist) xs.length ys.length) :
    ∃ c, (evaluate m xs ys (fun x y => .ok (dist x y))).2 = .ok c ∧
      Best (pairCost xs ys dist) (xs.length - 1, ys.length - 1) c := by
  have hx' : 0 < xs.length := List.length_pos_iff.mpr hx
  have hy' : 0 < ys.length := List.length_pos_iff.mpr hy
  refine ⟨_, evaluate_value h xs ys hx hy dist, ?_⟩
  have := dtw_best (pairCost xs ys dist) xs.length ys.length ht (xs.length - 1) (by omega) (ys.length - 1) (by omega)
  rwa [show xs.length - 1 + 1 = xs.length by omega, show ys.length - 1 + 1 = ys.length by omega] at this

/-- Distances of the counterexample: sequences `0,1,2` and `0,1,2`, only the pair of middle elements is expensive. -/
def tieDist (x y : Nat) : ℕ∞ := if x = 1 ∧ y = 1 then 10 else 0

/-- C30 is false of the code: for two sequences of length 3 the result is 10, but there is a warping path of cost 0. -/
theorem C30_optimal_false :
    evaluateFresh [0, 1, 2] [0, 1, 2] (fun x y => .ok (tieDist x y)) = .ok (10 : ℕ∞) ∧
    WarpPath (2, 2) [(2, 2), (1, 2), (0, 2), (0, 1), (0, 0)] ∧
    pathCost (pairCost [0, 1, 2] [0, 1, 2] tieDist) [(2, 2), (1, 2), (0, 2), (0, 1), (0, 0)] = 0 := by
  refine ⟨?_, ?_, ?_⟩
  · have e : construct (C := ℕ∞) 0 0 = .ok (fresh 1 1) := rfl
    unfold evaluateFresh
    rw [e]
    dsimp only
    rw [evaluate_value (A := Nat) (B := Nat) (.new e) [0, 1, 2] [0, 1, 2] (by simp) (by simp) tieDist]
    simp [dtw, pairCost, tieDist, pick]
  · exact .step (.step (.step (.step .start (Or.inr (Or.inl rfl))) (Or.inr (Or.inl rfl))) (Or.inl rfl)) (Or.inl rfl)
  · simp [pathCost, pairCost, tieDist]

/-- Non-vacuity: an evaluator with a history (constructed for 4×1, one evaluation, one throwing call). -/
example : Evaluator Nat Nat (evaluate (evaluate (fresh 5 2 : Mat ℕ∞) [3] [4, 5] (fun x y => .ok ((x + y : Nat) : ℕ∞))).1 [1, 2] [3, 4]
    (fun _ _ => .throw .runtimeError)).1 :=
  .use (.use (.new (first := 4) (second := 1) rfl) _ _ _) _ _ _

/-- Non-vacuity of `NoBadTie`: sequences of length 2 with distance |x - y|. -/
example : NoBadTie (pairCost [3, 5] [3, 9] (fun x y : Nat => ((max x y - min x y : Nat) : ℕ∞))) 2 2 := by
  intro i j hi hj u g l _ hg _ _
  obtain rfl : i = 0 := by omega
  obtain rfl : j = 0 := by omega
  have h := hg.2 _ .start
  refine h.trans ?_
  simp [pathCost, pairCost]

end CRU.Dtw
