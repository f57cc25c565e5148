import Verif.NaN.Base
import Verif.Distances.Props
/-
  C102: the Hausdorff distance when the distance function (or the matrix) yields NaNs.
-/
namespace CRU.NaN
open CRU.Parallel CRU.Distances
set_option linter.unusedSectionVars false

variable {A B D : Type} [LinearOrder D] [Zero D] [OrderTop D]

theorem lift_bind {X Y Z W : Type} (f : Y → W) (g : X → Z) (r : Res X) (k : X → Res Y) (k' : Z → Res W)
    (h : ∀ x, r = .ok x → k' (g x) = lift f (k x)) : (lift g r >>= k') = lift f (r >>= k) := by
  cases r with
  | ok x => exact h x rfl
  | throw e => rfl
  | ub => rfl

/-- Rows that differ in that NaNs are infinite. -/
def Rows (row : Nat → Res (Dbl D)) (row' : Nat → Res D) : Prop := ∀ j, row' j = lift Dbl.orTop (row j)

theorem innerMin_nan {row : Nat → Res (Dbl D)} {row' : Nat → Res D} (h : Rows row row') : ∀ k j best,
    innerMin row k j (Dbl.num best) = lift Dbl.num (innerMin row' k j best) := by
  intro k
  induction k with
  | zero => intro j best; rfl
  | succ k ih =>
    intro j best
    unfold innerMin
    rw [h j]
    cases row j with
    | throw e => rfl
    | ub => rfl
    | ok cur =>
      show innerMin row k (j + 1) (if cur < Dbl.num best then cur else Dbl.num best)
        = lift Dbl.num (innerMin row' k (j + 1) (if cur.orTop < best then cur.orTop else best))
      by_cases hc : cur.orTop < best
      · rw [if_pos hc, if_pos ((Dbl.lt_num _ _).mpr hc)]
        cases cur with
        | nan => simp at hc
        | num c => exact ih _ _
      · rw [if_neg hc, if_neg (fun h => hc ((Dbl.lt_num _ _).mp h))]
        exact ih _ _

theorem serialLoop_nan {n2 : Nat} {dist : Nat → Nat → Res (Dbl D)} {dist' : Nat → Nat → Res D} (h : ∀ i, Rows (dist i) (dist' i)) :
    ∀ k i best, serialLoop n2 dist k i (Dbl.num best) = lift Dbl.num (serialLoop n2 dist' k i best) := by
  intro k
  induction k with
  | zero => intro i best; rfl
  | succ k ih =>
    intro i best
    unfold serialLoop
    rw [show (⊤ : Dbl D) = .num ⊤ from rfl, innerMin_nan (h i)]
    refine lift_bind _ _ _ _ _ fun m _ => ?_
    show serialLoop n2 dist k (i + 1) (if Dbl.num best < Dbl.num m then Dbl.num m else Dbl.num best)
      = lift Dbl.num (serialLoop n2 dist' k (i + 1) (if best < m then m else best))
    rw [Dbl.ite_num_lt]
    by_cases hm : best < m
    · rw [if_pos hm, if_pos hm]; exact ih _ _
    · rw [if_neg hm, if_neg hm]; exact ih _ _

theorem atInt_map {X Y : Type} (f : X → Y) (l : List X) (i : Int) : atInt (l.map f) i = lift f (atInt l i) := by
  unfold atInt
  by_cases h : i < 0
  · rw [if_pos h, if_pos h]; rfl
  · rw [if_neg h, if_neg h]
    unfold atChecked
    rw [List.getElem?_map]
    cases l[i.toNat]? <;> rfl

theorem parLoop_nan {n2 : Nat} {dist : Nat → Nat → Res (Dbl D)} {dist' : Nat → Nat → Res D} (h : ∀ i, Rows (dist i) (dist' i)) :
    ∀ cs st, parLoop n2 dist cs (st.map Dbl.num) = lift (List.map Dbl.num) (parLoop n2 dist' cs st) := by
  intro cs
  induction cs with
  | nil => intro st; rfl
  | cons c cs ih =>
    intro st
    unfold parLoop
    rw [show (⊤ : Dbl D) = .num ⊤ from rfl, innerMin_nan (h _)]
    refine lift_bind _ _ _ _ _ fun m _ => ?_
    rw [atInt_map]
    refine lift_bind _ _ _ _ _ fun old _ => ?_
    show parLoop n2 dist cs (if Dbl.num old < Dbl.num m then (st.map Dbl.num).set c.thread.toNat (Dbl.num m) else st.map Dbl.num)
      = lift _ (parLoop n2 dist' cs (if old < m then st.set c.thread.toNat m else st))
    rw [Dbl.ite_num_lt]
    by_cases hm : old < m
    · rw [if_pos hm, if_pos hm, ← List.map_set]; exact ih _
    · rw [if_neg hm, if_neg hm]; exact ih _

theorem maxOf_nan (st : List D) : maxOf (st.map Dbl.num) = Dbl.num (maxOf st) := by
  unfold maxOf
  rw [Dbl.zero_def]
  generalize (0 : D) = z
  induction st generalizing z with
  | nil => rfl
  | cons x st ih =>
    simp only [List.map_cons, List.foldl_cons, gt_iff_lt]
    rw [Dbl.ite_num_lt]
    by_cases h : z < x
    · rw [if_pos h, if_pos h]; exact ih x
    · rw [if_neg h, if_neg h]; exact ih z

theorem parRun_nan {b : Backend} {threads : Int} {n1 n2 : Nat} {dist : Nat → Nat → Res (Dbl D)} {dist' : Nat → Nat → Res D}
    (h : ∀ i, Rows (dist i) (dist' i)) (r : Res (Dbl D)) :
    ParRun b threads n1 n2 dist r ↔ ∃ r', ParRun b threads n1 n2 dist' r' ∧ r = lift Dbl.num r' := by
  have key : ∀ tr, (parLoop n2 dist tr (List.replicate threads.toNat 0) >>= fun st => pure (maxOf st))
      = lift Dbl.num (parLoop n2 dist' tr (List.replicate threads.toNat 0) >>= fun st => pure (maxOf st)) := by
    intro tr
    rw [show List.replicate threads.toNat (0 : Dbl D) = (List.replicate threads.toNat (0 : D)).map Dbl.num by
      rw [List.map_replicate]; rfl, parLoop_nan h]
    refine lift_bind _ _ _ _ _ fun st _ => ?_
    rw [maxOf_nan]; rfl
  constructor
  · rintro ⟨ws, tr, h1, h2, rfl⟩
    exact ⟨_, ⟨ws, tr, h1, h2, rfl⟩, key tr⟩
  · rintro ⟨r', ⟨ws, tr, h1, h2, rfl⟩, rfl⟩
    exact ⟨ws, tr, h1, h2, (key tr).symm⟩

theorem fnDist_nan (xs : List A) (ys : List B) (d : A → B → Dbl D) (i : Nat) :
    Rows (fnDist xs ys d i) (fnDist xs ys (fun x y => (d x y).orTop) i) := by
  intro j
  unfold fnDist
  cases atRaw xs i <;> [skip; rfl; rfl]
  cases atRaw ys j <;> rfl

/-- A matrix of `double`s with its NaNs read as infinity. -/
def matOrTop (m : Mat (Dbl D)) : Mat D := ⟨m.rows, m.cols, fun i j => (m.val i j).orTop⟩

theorem mat_nan (m : Mat (Dbl D)) (i : Nat) : Rows (m.get i) ((matOrTop m).get i) := by
  intro j
  unfold Mat.get matOrTop
  by_cases h : i < m.rows ∧ j < m.cols
  · rw [if_pos h, if_pos h]; rfl
  · rw [if_neg h, if_neg h]; rfl

/-- **C102.** `simple_hausdorff_distance::ComputeDistance`, on any number of threads and every schedule: with a distance function that may
return NaN the possible outcomes are those with a distance function that returns infinity in its place. In particular
the result is never a NaN. -/
theorem C102_hausdorff (b : Backend) (threads : Int) (xs : List A) (ys : List B) (d : A → B → Dbl D) (r : Res (Dbl D)) :
    Hausdorff b threads xs ys d r ↔
      ∃ r' : Res D, Hausdorff b threads xs ys (fun x y => (d x y).orTop) r' ∧ r = lift Dbl.num r' := by
  unfold Hausdorff HausdorffParallel hausdorffSerial
  by_cases ht : threads > 1
  · rw [if_pos ht]
    by_cases hx : xs = []
    · simp only [ht, hx, if_true]; exact ⟨fun h => ⟨_, rfl, h⟩, fun ⟨_, h1, h2⟩ => by rw [h2, h1]; rfl⟩
    · by_cases hy : ys = []
      · simp only [ht, hx, hy, if_true, if_false]; exact ⟨fun h => ⟨_, rfl, h⟩, fun ⟨_, h1, h2⟩ => by rw [h2, h1]; rfl⟩
      · simp only [ht, hx, hy, if_true, if_false]; exact parRun_nan (fnDist_nan xs ys d) r
  · simp only [ht, if_false]
    rw [exists_eq_left]
    by_cases hx : xs = []
    · simp only [hx, if_true]; rfl
    · by_cases hy : ys = []
      · simp only [hx, hy, if_true, if_false]; rfl
      · simp only [hx, hy, if_false]
        rw [← serialLoop_nan (fnDist_nan xs ys d)]; rfl

/-- **C102.** The same for the version with a distance matrix. -/
theorem C102_hausdorff_matrix (b : Backend) (threads : Int) (xs : List A) (ys : List B) (m : Mat (Dbl D)) (r : Res (Dbl D)) :
    HausdorffM b threads xs ys m r ↔ ∃ r' : Res D, HausdorffM b threads xs ys (matOrTop m) r' ∧ r = lift Dbl.num r' := by
  have hd : (matOrTop m).rows = m.rows ∧ (matOrTop m).cols = m.cols := ⟨rfl, rfl⟩
  unfold HausdorffM HausdorffParallelM hausdorffSerialM
  rw [hd.1, hd.2]
  by_cases ht : threads > 1
  · simp only [ht, if_true]
    by_cases hx : xs = []
    · simp only [hx, if_true]; exact ⟨fun h => ⟨_, rfl, h⟩, fun ⟨_, h1, h2⟩ => by rw [h2, h1]; rfl⟩
    · by_cases hy : ys = []
      · simp only [hx, hy, if_true, if_false]; exact ⟨fun h => ⟨_, rfl, h⟩, fun ⟨_, h1, h2⟩ => by rw [h2, h1]; rfl⟩
      · by_cases hm : m.rows ≠ xs.length ∨ m.cols ≠ ys.length
        · simp only [hx, hy, if_false]; rw [if_pos hm]
          simp only [if_pos hm]
          exact ⟨fun h => ⟨_, rfl, h⟩, fun ⟨_, h1, h2⟩ => by rw [h2, h1]; rfl⟩
        · simp only [hx, hy, if_false]; rw [if_neg hm]
          simp only [if_neg hm]
          exact parRun_nan (mat_nan m) r
  · simp only [ht, if_false]
    rw [exists_eq_left]
    by_cases hx : xs = []
    · simp only [hx, if_true]; rfl
    · by_cases hy : ys = []
      · simp only [hx, hy, if_true, if_false]; rfl
      · simp only [hx, hy, if_false]
        by_cases hm : m.rows ≠ xs.length ∨ m.cols ≠ ys.length
        · rw [if_pos hm, if_pos hm]; rfl
        · rw [if_neg hm, if_neg hm, ← serialLoop_nan (mat_nan m)]; rfl

/-- **C102.** What the Hausdorff distance is when distances may be NaN: the largest over the first set of the smallest distance
to the second set, where a NaN counts as infinite. -/
theorem C102_hausdorff_value (b : Backend) (threads : Int) (xs : List A) (ys : List B) (d : A → B → Dbl D) (hx : xs ≠ []) (hy : ys ≠ [])
    (hd : ∀ x ∈ xs, ∀ y ∈ ys, 0 ≤ (d x y).orTop) (hI : InI64 xs.length) (hth : InI64 threads) (h1 : 1 ≤ threads)
    (htid : ∀ t : Nat, (t : Int) < min threads xs.length → (b.tid t : Int) < min threads xs.length)
    (r : Res (Dbl D)) (hr : Hausdorff b threads xs ys d r) :
    ∃ c, r = .ok (.num c) ∧ IsHausdorff (fun x y => (d x y).orTop) xs ys c := by
  obtain ⟨r', h, rfl⟩ := (C102_hausdorff b threads xs ys d r).mp hr
  obtain ⟨c, rfl, hc⟩ := C31_hausdorff b threads xs ys _ hx hy hd hI hth h1 htid r' h
  exact ⟨c, rfl, hc⟩

/-- Two points, one of whose distances is a NaN. -/
example : hausdorffSerial [0, 1] [0] (fun x y : Nat => if x = y then Dbl.num (0 : ℕ∞) else .nan) = .ok (.num ⊤) := rfl

example : ∃ r' : Res ℕ∞, Hausdorff .async 1 [0, 1] [0] (fun x y : Nat => (if x = y then Dbl.num (0 : ℕ∞) else .nan).orTop) r' ∧
    .ok (.num ⊤) = lift Dbl.num r' := (C102_hausdorff _ _ _ _ _ _).mp rfl

end CRU.NaN
