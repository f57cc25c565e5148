import Verif.Dtw.Spec
import Verif.Base
/-
  Model of include/common_robotics_utilities/simple_dtw.hpp. Costs are values of any type with `<`, `+`, 0 and infinity (`double` with or
  without NaN); the distance function is deterministic and may throw. Eigen's `matrix(i, j)` is undefined outside the matrix.
-/
namespace CRU.Dtw

variable {A B C : Type} [LT C] [DecidableLT C] [Add C] [Zero C] [Top C]

/-- `Eigen::MatrixXd`. -/
structure Mat (C : Type) where
  rows : Nat
  cols : Nat
  val : Nat → Nat → C

/-- `matrix(i, j)` -/
def Mat.get (m : Mat C) (i j : Nat) : Res C := if i < m.rows ∧ j < m.cols then .ok (m.val i j) else .ub

/-- `matrix(i, j) = v` -/
def Mat.set (m : Mat C) (i j : Nat) (v : C) : Res (Mat C) :=
  if i < m.rows ∧ j < m.cols then .ok { m with val := fun a b => if a = i ∧ b = j then v else m.val a b } else .ub

/-- simple_dtw.hpp:30-41: a new matrix of zeros; border set to infinity if it has more than one row and column. -/
def fresh (rows cols : Nat) : Mat C where
  rows := rows
  cols := cols
  val i j := if rows > 1 ∧ cols > 1 ∧ ((i ≠ 0 ∧ j = 0) ∨ (i = 0 ∧ j ≠ 0)) then ⊤ else 0

/-- simple_dtw.hpp:23-43 `InitializeMatrix`; allocating a matrix with a negative dimension is undefined. -/
def initMatrix (m : Mat C) (first second : Int) : Res (Mat C) :=
  let rows := first + 1
  let cols := second + 1
  if (m.rows : Int) < rows ∨ (m.cols : Int) < cols then
    if rows < 0 ∨ cols < 0 then .ub else .ok (fresh rows.toNat cols.toNat)
  else .ok m

/-- A default-constructed `Eigen::MatrixXd`. -/
def emptyMat : Mat C := ⟨0, 0, fun _ _ => 0⟩

/-- simple_dtw.hpp:53-57, constructor (48-51 is the case `0, 0`). -/
def construct (first second : Int) : Res (Mat C) := initMatrix emptyMat first second

/-- simple_dtw.hpp:94-105: the predecessor cost (up, diagonal, left). -/
def pick (im1j im1jm1 ijm1 : C) : C :=
  if im1j < im1jm1 ∧ im1j < ijm1 then im1j
  else if ijm1 < im1j ∧ ijm1 < im1jm1 then ijm1
  else im1jm1

/-- simple_dtw.hpp:85-107: the new value of entry `(i, j)`. -/
def cellValue (xs : List A) (ys : List B) (d : A → B → Res C) (m : Mat C) (i j : Nat) : Res C := do
  let x ← atRaw xs (i - 1)
  let y ← atRaw ys (j - 1)
  let c ← d x y
  let im1j ← m.get (i - 1) j
  let im1jm1 ← m.get (i - 1) (j - 1)
  let ijm1 ← m.get i (j - 1)
  pure (c + pick im1j im1jm1 ijm1)

/-- simple_dtw.hpp:85-108: one iteration of the inner loop; the matrix survives an exception of `distance_fn`. -/
def cellStep (xs : List A) (ys : List B) (d : A → B → Res C) (m : Mat C) (p : Nat × Nat) : Mat C × Res Unit :=
  match cellValue xs ys d m p.1 p.2 with
  | .ok v =>
    match m.set p.1 p.2 v with
    | .ok m' => (m', .ok ())
    | .throw e => (m, .throw e)
    | .ub => (m, .ub)
  | .throw e => (m, .throw e)
  | .ub => (m, .ub)

/-- The loop bodies, in order, until one fails. (simple_dtw.hpp:79-102) -/
def runCells (xs : List A) (ys : List B) (d : A → B → Res C) : List (Nat × Nat) → Mat C → Mat C × Res Unit
  | [], m => (m, .ok ())
  | p :: ps, m =>
    match cellStep xs ys d m p with
    | (m', .ok _) => runCells xs ys d ps m'
    | (m', .throw e) => (m', .throw e)
    | (m', .ub) => (m', .ub)

/-- simple_dtw.hpp:79, 83: `for i = 1..first, for j = 1..second`. -/
def cells (first second : Nat) : List (Nat × Nat) :=
  (List.range' 1 first).flatMap fun i => (List.range' 1 second).map fun j => (i, j)

/-- simple_dtw.hpp:59-115 `EvaluateWarpingCost`: matrix afterwards and outcome. -/
def evaluate (m : Mat C) (xs : List A) (ys : List B) (d : A → B → Res C) : Mat C × Res C :=
  if xs = [] then (m, .throw .invalidArgument)
  else if ys = [] then (m, .throw .invalidArgument)
  else
    match initMatrix m xs.length ys.length with
    | .throw e => (m, .throw e)
    | .ub => (m, .ub)
    | .ok m1 =>
      match runCells xs ys d (cells xs.length ys.length) m1 with
      | (m2, .ok _) => (m2, m2.get xs.length ys.length)
      | (m2, .throw e) => (m2, .throw e)
      | (m2, .ub) => (m2, .ub)

/-- simple_dtw.hpp:121-131, the free function. -/
def evaluateFresh (xs : List A) (ys : List B) (d : A → B → Res C) : Res C :=
  match construct 0 0 with
  | .ok m => (evaluate m xs ys d).2
  | .throw e => .throw e
  | .ub => .ub

/-- The states an evaluator object can be in: constructed with any sizes, then used any number of times (also by calls that
threw). (simple_dtw.hpp:23-43) -/
inductive Evaluator (A B : Type) {C : Type} [LT C] [DecidableLT C] [Add C] [Zero C] [Top C] : Mat C → Prop
  | new {first second : Int} {m : Mat C} (h : construct first second = .ok m) : Evaluator A B m
  | use {m : Mat C} (h : Evaluator A B m) (xs : List A) (ys : List B) (d : A → B → Res C) :
      Evaluator A B (evaluate m xs ys d).1

end CRU.Dtw
