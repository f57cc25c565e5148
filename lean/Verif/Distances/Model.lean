import Verif.Distances.Spec
import Verif.Parallel.Run
import Mathlib.Order.BoundedOrder.Basic
/-
  Model of include/common_robotics_utilities/simple_hausdorff_distance.hpp and of `BuildPairwiseDistanceMatrix` in
  include/common_robotics_utilities/math.hpp. Distances are values of any type with `<`, 0 and infinity (`double` with or
  without NaN); distance functions do not throw.
-/
namespace CRU.Distances
open CRU.Parallel

variable {A B D : Type} [LT D] [DecidableLT D] [Zero D] [Top D]

/-- `Eigen::MatrixXd`; access outside is undefined. -/
structure Mat (D : Type) where
  rows : Nat
  cols : Nat
  val : Nat → Nat → D

/-- `matrix(i, j)` -/
def Mat.get (m : Mat D) (i j : Nat) : Res D := if i < m.rows ∧ j < m.cols then .ok (m.val i j) else .ub

/-- `matrix(i, j) = v` -/
def Mat.set (m : Mat D) (i j : Nat) (v : D) : Res (Mat D) :=
  if i < m.rows ∧ j < m.cols then .ok { m with val := fun a b => if a = i ∧ b = j then v else m.val a b } else .ub

/-- simple_hausdorff_distance.hpp:121-131 (also 59-69, 178-187, 242-253): the smallest distance found by the inner loop over
`jdx = j, …` (`k` more), starting from `best`. `row j` is the distance to element `j`. -/
def innerMin (row : Nat → Res D) : Nat → Nat → D → Res D
  | 0, _, best => .ok best
  | k + 1, j, best => do
    let cur ← row j
    innerMin row k (j + 1) (if cur < best then cur else best)

/-- simple_hausdorff_distance.hpp:117-137 / 240-259: the serial outer loop. -/
def serialLoop (n2 : Nat) (dist : Nat → Nat → Res D) : Nat → Nat → D → Res D
  | 0, _, best => .ok best
  | k + 1, i, best => do
    let m ← innerMin (dist i) n2 0 ⊤
    serialLoop n2 dist k (i + 1) (if m > best then m else best)

/-- simple_hausdorff_distance.hpp:57, 63-64: distance of elements, by `operator[]`. -/
def fnDist (xs : List A) (ys : List B) (d : A → B → D) (i j : Nat) : Res D := do
  let x ← atRaw xs i
  let y ← atRaw ys j
  pure (d x y)

/-- simple_hausdorff_distance.hpp:97-140 `ComputeDistanceSerial` -/
def hausdorffSerial (xs : List A) (ys : List B) (d : A → B → D) : Res D :=
  if xs = [] then .throw .invalidArgument
  else if ys = [] then .throw .invalidArgument
  else serialLoop ys.length (fnDist xs ys d) xs.length 0 0

/-- simple_hausdorff_distance.hpp:215-262 `ComputeDistanceSerial` with a distance matrix. -/
def hausdorffSerialM (xs : List A) (ys : List B) (m : Mat D) : Res D :=
  if xs = [] then .throw .invalidArgument
  else if ys = [] then .throw .invalidArgument
  else if m.rows ≠ xs.length ∨ m.cols ≠ ys.length then .throw .invalidArgument
  else serialLoop ys.length m.get xs.length 0 0

/-- simple_hausdorff_distance.hpp:55-75 / 176-193 `per_item_work`, run for the calls in the given order. A slot of the per-thread storage is only touched by
the thread with that number, so a body is one step. -/
def parLoop (n2 : Nat) (dist : Nat → Nat → Res D) : List Call → List D → Res (List D)
  | [], st => .ok st
  | c :: cs, st => do
    let m ← innerMin (dist c.index.toNat) n2 0 ⊤
    let old ← atInt st c.thread
    parLoop n2 dist cs (if m > old then st.set c.thread.toNat m else st)

/-- simple_hausdorff_distance.hpp:81-88 / 199-206 -/
def maxOf (st : List D) : D := st.foldl (fun m v => if v > m then v else m) 0

/-- simple_hausdorff_distance.hpp:51-90 / 172-208: per-thread storage, parallel loop, reduction; `r` is the outcome of one run. -/
def ParRun (b : Backend) (threads : Int) (n1 n2 : Nat) (dist : Nat → Nat → Res D) (r : Res D) : Prop :=
  ∃ ws tr, staticIndexLoop b threads 0 n1 = .ok ws ∧ Interleaving ws tr ∧
    r = (parLoop n2 dist tr (List.replicate threads.toNat 0) >>= fun st => pure (maxOf st))

/-- simple_hausdorff_distance.hpp:32-91 `ComputeDistanceParallel`. -/
def HausdorffParallel (b : Backend) (threads : Int) (xs : List A) (ys : List B) (d : A → B → D) (r : Res D) : Prop :=
  if xs = [] then r = .throw .invalidArgument
  else if ys = [] then r = .throw .invalidArgument
  else ParRun b threads xs.length ys.length (fnDist xs ys d) r

/-- simple_hausdorff_distance.hpp:148-209 `ComputeDistanceParallel` with a distance matrix. -/
def HausdorffParallelM (b : Backend) (threads : Int) (xs : List A) (ys : List B) (m : Mat D) (r : Res D) : Prop :=
  if xs = [] then r = .throw .invalidArgument
  else if ys = [] then r = .throw .invalidArgument
  else if m.rows ≠ xs.length ∨ m.cols ≠ ys.length then r = .throw .invalidArgument
  else ParRun b threads xs.length ys.length m.get r

/-- simple_hausdorff_distance.hpp:273-296 `ComputeDistance`. -/
def Hausdorff (b : Backend) (threads : Int) (xs : List A) (ys : List B) (d : A → B → D) (r : Res D) : Prop :=
  if threads > 1 then HausdorffParallel b threads xs ys d r else r = hausdorffSerial xs ys d

/-- simple_hausdorff_distance.hpp:306-328 `ComputeDistance` with a distance matrix. -/
def HausdorffM (b : Backend) (threads : Int) (xs : List A) (ys : List B) (m : Mat D) (r : Res D) : Prop :=
  if threads > 1 then HausdorffParallelM b threads xs ys m r else r = hausdorffSerialM xs ys m

/-! ### Pairwise distance matrices -/

/-- One store into the matrix. (math.hpp:540-563) -/
structure Store (D : Type) where
  row : Nat
  col : Nat
  val : D

/-- math.hpp:540-563 `per_item_work`: the stores made for one index, for `jdx = j, …` (`k` of them). -/
def selfStores (xs : List A) (d : A → A → D) (i : Nat) : Nat → Nat → Res (List (Store D))
  | 0, _ => .ok []
  | k + 1, j => do
    let v ← (if i ≠ j then do
        let x ← atRaw xs i
        let y ← atRaw xs j
        pure (d x y)
      else pure 0)
    let rest ← selfStores xs d i k (j + 1)
    pure (⟨i, j, v⟩ :: ⟨j, i, v⟩ :: rest)

/-- math.hpp:583-594 `per_item_work` of the two-set version. -/
def crossStores (xs : List A) (ys : List B) (d : A → B → D) (i : Nat) : Nat → Nat → Res (List (Store D))
  | 0, _ => .ok []
  | k + 1, j => do
    let x ← atRaw xs i
    let y ← atRaw ys j
    let rest ← crossStores xs ys d i k (j + 1)
    pure (⟨i, j, d x y⟩ :: rest)

/-- All stores of one worker, in order. (math.hpp:540-570) -/
def workerStores (f : Nat → Res (List (Store D))) : List Call → Res (List (Store D))
  | [] => .ok []
  | c :: cs => do
    let a ← f c.index.toNat
    let rest ← workerStores f cs
    pure (a ++ rest)

/-- The stores of all workers. (math.hpp:540-570) -/
def allStores (f : Nat → Res (List (Store D))) : List (List Call) → Res (List (List (Store D)))
  | [] => .ok []
  | w :: ws => do
    let a ← workerStores f w
    let rest ← allStores f ws
    pure (a :: rest)

/-- Execute stores in the given order. (math.hpp:540-570) -/
def applyStores : List (Store D) → Mat D → Res (Mat D)
  | [], m => .ok m
  | s :: ss, m => do
    let m' ← m.set s.row s.col s.val
    applyStores ss m'

/-- math.hpp:565-569 / 596-600: `r` is the outcome of one run of the parallel loop, under some interleaving of the single
stores of the workers, starting from an uninitialised matrix `init`. -/
def MatrixRun (b : Backend) (threads : Int) (n : Nat) (f : Nat → Res (List (Store D))) (init : Mat D) (r : Res (Mat D)) : Prop :=
  ∃ ws, staticIndexLoop b threads 0 n = .ok ws ∧
    ((∃ st tr, allStores f ws = .ok st ∧ Interleaving st tr ∧ r = applyStores tr init) ∨
     (∃ e, allStores f ws = .throw e ∧ r = .throw e) ∨ (allStores f ws = .ub ∧ r = .ub))

/-- math.hpp:543-563: the stores made for index `i`: `jdx` runs from `i` to the end of the data. -/
abbrev selfWork (xs : List A) (d : A → A → D) (i : Nat) : Res (List (Store D)) := selfStores xs d i (xs.length - i) i

/-- math.hpp:531-570 `BuildPairwiseDistanceMatrix`, one data set. -/
def SelfMatrix (b : Backend) (threads : Int) (xs : List A) (d : A → A → D) (r : Res (Mat D)) : Prop :=
  ∃ init : Nat → Nat → D, MatrixRun b threads xs.length (selfWork xs d) ⟨xs.length, xs.length, init⟩ r

/-- math.hpp:572-601 `BuildPairwiseDistanceMatrix`, two data sets. -/
def CrossMatrix (b : Backend) (threads : Int) (xs : List A) (ys : List B) (d : A → B → D) (r : Res (Mat D)) : Prop :=
  ∃ init : Nat → Nat → D, MatrixRun b threads xs.length (fun i => crossStores xs ys d i ys.length 0) ⟨xs.length, ys.length, init⟩ r

end CRU.Distances
