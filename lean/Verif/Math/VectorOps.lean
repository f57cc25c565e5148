import Verif.Base
import Verif.FloatEven
import Verif.Voxel.Geometry
import Verif.Math.Projection
import Mathlib.Geometry.Euclidean.Angle.Unoriented.Basic
import Mathlib.Analysis.InnerProductSpace.PiL2
/-
  math.cpp:86-235: arithmetic of `std::vector<double>`, and math.cpp:893-932: weighted angles.
-/
namespace CRU.Math.VectorOps
open CRU

section model
variable {K : Type*} [Field K] [LinearOrder K]

/-- The loops `std::vector<double> out(size, 0.0); for (idx …) out[idx] = …;` of math.cpp:108-219: `body idx` is the
expression assigned.  `todo` counts the remaining passes. -/
def fillLoop (body : Nat → Res K) : (todo idx : Nat) → List K → Res (List K)
  | 0, _, out => .ok out
  | todo + 1, idx, out => do
    let x ← body idx
    if idx < out.length then fillLoop body todo (idx + 1) (out.set idx x) else .ub

/-- The loops `double acc = 0.0; for (idx …) acc += …;` of math.cpp:86-95, 226-235; `+=` rounds. -/
def sumLoop (fl : K → K) (body : Nat → Res K) : (todo idx : Nat) → K → Res K
  | 0, _, acc => .ok acc
  | todo + 1, idx, acc => do
    let x ← body idx
    sumLoop fl body todo (idx + 1) (fl (acc + x))

/-- math.cpp:86-95 `SquaredNorm`; `fl` rounds the exact result of an operation. -/
def squaredNorm (fl : K → K) (vec : List K) : Res K :=
  sumLoop fl (fun idx => do let element ← atRaw vec idx; .ok (fl (element * element))) vec.length 0 0

/-- math.cpp:102-110 `Abs`. -/
def abs (vec : List K) : Res (List K) :=
  fillLoop (fun idx => do let x ← atRaw vec idx; .ok |x|) vec.length 0 (List.replicate vec.length 0)

/-- math.cpp:112-122 `Multiply` by a scalar. -/
def multiplyScalar (fl : K → K) (vec : List K) (scalar : K) : Res (List K) :=
  fillLoop (fun idx => do let element ← atRaw vec idx; .ok (fl (element * scalar))) vec.length 0
    (List.replicate vec.length 0)

/-- math.cpp:124-142 `Multiply` of two vectors. -/
def multiply (fl : K → K) (vec1 vec2 : List K) : Res (List K) :=
  if vec1.length = vec2.length then
    fillLoop (fun idx => do
      let element1 ← atRaw vec1 idx
      let element2 ← atRaw vec2 idx
      .ok (fl (element1 * element2))) vec1.length 0 (List.replicate vec1.length 0)
  else .throw .invalidArgument

/-- math.cpp:144-148 `Divide` by a scalar: multiplication by the rounded reciprocal. -/
def divideScalar (fl : K → K) (vec : List K) (scalar : K) : Res (List K) :=
  multiplyScalar fl vec (fl (1 / scalar))

/-- math.cpp:150-168 `Divide` of two vectors.  Division by zero, an infinity or a NaN in the code, is outside the
model: the theorems ask for non-zero divisors where it matters. -/
def divide (fl : K → K) (vec1 vec2 : List K) : Res (List K) :=
  if vec1.length = vec2.length then
    fillLoop (fun idx => do
      let element1 ← atRaw vec1 idx
      let element2 ← atRaw vec2 idx
      .ok (fl (element1 / element2))) vec1.length 0 (List.replicate vec1.length 0)
  else .throw .invalidArgument

/-- math.cpp:170-178 `Add` of a scalar. -/
def addScalar (fl : K → K) (vec : List K) (scalar : K) : Res (List K) :=
  fillLoop (fun idx => do let x ← atRaw vec idx; .ok (fl (x + scalar))) vec.length 0 (List.replicate vec.length 0)

/-- math.cpp:180-198 `Add` of two vectors. -/
def add (fl : K → K) (vec1 vec2 : List K) : Res (List K) :=
  if vec1.length = vec2.length then
    fillLoop (fun idx => do
      let element1 ← atRaw vec1 idx
      let element2 ← atRaw vec2 idx
      .ok (fl (element1 + element2))) vec1.length 0 (List.replicate vec1.length 0)
  else .throw .invalidArgument

/-- math.cpp:200-208 `Sub` of a scalar. -/
def subScalar (fl : K → K) (vec : List K) (scalar : K) : Res (List K) :=
  fillLoop (fun idx => do let x ← atRaw vec idx; .ok (fl (x - scalar))) vec.length 0 (List.replicate vec.length 0)

/-- math.cpp:210-228 `Sub` of two vectors. -/
def sub (fl : K → K) (vec1 vec2 : List K) : Res (List K) :=
  if vec1.length = vec2.length then
    fillLoop (fun idx => do
      let element1 ← atRaw vec1 idx
      let element2 ← atRaw vec2 idx
      .ok (fl (element1 - element2))) vec1.length 0 (List.replicate vec1.length 0)
  else .throw .invalidArgument

/-- math.cpp:230-239 `Sum`. -/
def sum (fl : K → K) (vec : List K) : Res K := sumLoop fl (fun idx => atRaw vec idx) vec.length 0 0

/-- math.cpp:97-100 `Norm`; `root` is `std::sqrt`. -/
def norm (fl root : K → K) (vec : List K) : Res K := do
  let s ← squaredNorm fl vec
  .ok (root s)

end model

/-! ### Loops -/
section lemmas
variable {K : Type*} [Field K] [LinearOrder K]

theorem atRaw_lt {α} {l : List α} {i : Nat} (h : i < l.length) : atRaw l i = .ok l[i] := by simp [atRaw, h]

omit [LinearOrder K] in
theorem fillLoop_ok {body : Nat → Res K} {f : Nat → K} {n : Nat} (hb : ∀ i < n, body i = .ok (f i)) :
    ∀ (todo idx : Nat) (out : List K), idx + todo = n → out.length = n →
      fillLoop body todo idx out = .ok (out.take idx ++ (List.range' idx todo).map f)
  | 0, idx, out, h1, h2 => by
    have : out.take idx = out := List.take_of_length_le (by omega)
    simp [fillLoop, this]
  | todo + 1, idx, out, h1, h2 => by
    rw [fillLoop, hb idx (by omega), Res.ok_bind, if_pos (by omega), fillLoop_ok hb todo (idx + 1) _ (by omega) (by simpa)]
    congr 1
    rw [List.range'_succ, List.map_cons, List.take_set, List.take_add_one]
    have : out[idx]?.toList = [out[idx]'(by omega)] := by simp [List.getElem?_eq_getElem (show idx < out.length by omega)]
    rw [this, List.set_append]
    have e : (out.take idx).length = idx := by simp; omega
    simp [e]

omit [LinearOrder K] in
theorem fill_ok {body : Nat → Res K} {f : Nat → K} {n : Nat} (hb : ∀ i < n, body i = .ok (f i)) :
    fillLoop body n 0 (List.replicate n 0) = .ok ((List.range n).map f) := by
  rw [fillLoop_ok hb n 0 _ (by omega) (by simp)]; simp [List.range_eq_range']

omit [LinearOrder K] in
theorem map_of_fill {l : List K} {body : Nat → Res K} {f : K → K}
    (hb : ∀ i (h : i < l.length), body i = .ok (f l[i])) :
    fillLoop body l.length 0 (List.replicate l.length 0) = .ok (l.map f) := by
  rw [fill_ok (f := fun i => f (l.getD i 0)) (fun i hi => by rw [hb i hi]; simp [hi])]
  congr 1
  apply List.ext_getElem <;> simp
  intro i h; simp [h]

omit [LinearOrder K] in
theorem zipWith_of_fill {l m : List K} {body : Nat → Res K} {f : K → K → K} (hl : l.length = m.length)
    (hb : ∀ i (h : i < l.length) (h' : i < m.length), body i = .ok (f l[i] m[i])) :
    fillLoop body l.length 0 (List.replicate l.length 0) = .ok (List.zipWith f l m) := by
  rw [fill_ok (f := fun i => f (l.getD i 0) (m.getD i 0)) (fun i hi => by rw [hb i hi (hl ▸ hi)]; simp [hi, hl ▸ hi])]
  congr 1
  apply List.ext_getElem <;> simp [hl]
  intro i h; simp [h, hl]

omit [LinearOrder K] in
theorem sumLoop_ok {fl : K → K} {l : List K} {body : Nat → Res K} {f : K → K}
    (hb : ∀ i (h : i < l.length), body i = .ok (f l[i])) : ∀ (todo idx : Nat) (acc : K), idx + todo = l.length →
      sumLoop fl body todo idx acc = .ok ((l.drop idx).foldl (fun a x => fl (a + f x)) acc)
  | 0, idx, acc, h => by simp [sumLoop, List.drop_of_length_le (show l.length ≤ idx by omega)]
  | todo + 1, idx, acc, h => by
    rw [sumLoop, hb idx (by omega), Res.ok_bind, sumLoop_ok hb todo (idx + 1) _ (by omega),
      List.drop_eq_getElem_cons (show idx < l.length by omega), List.foldl_cons]

end lemmas

section props
variable {K : Type} [Field K] [LinearOrder K] [IsStrictOrderedRing K]

omit [IsStrictOrderedRing K] in
/-- Every operation between a vector and a number works element by element, for every vector, and never touches memory
outside it. -/
theorem C90_scalar (fl : K → K) (v : List K) (s : K) :
    abs v = .ok (v.map fun x => |x|) ∧
    multiplyScalar fl v s = .ok (v.map fun x => fl (x * s)) ∧
    divideScalar fl v s = .ok (v.map fun x => fl (x * fl (1 / s))) ∧
    addScalar fl v s = .ok (v.map fun x => fl (x + s)) ∧
    subScalar fl v s = .ok (v.map fun x => fl (x - s)) := by
  refine ⟨?_, ?_, ?_, ?_, ?_⟩ <;>
  · first
    | unfold abs | unfold divideScalar multiplyScalar | unfold multiplyScalar | unfold addScalar | unfold subScalar
    exact map_of_fill fun i h => by simp [atRaw_lt h]

omit [LinearOrder K] [IsStrictOrderedRing K] in
/-- Every operation between two vectors of one size works element by element. -/
theorem C90_vector (fl : K → K) {v w : List K} (h : v.length = w.length) :
    multiply fl v w = .ok (List.zipWith (fun x y => fl (x * y)) v w) ∧
    divide fl v w = .ok (List.zipWith (fun x y => fl (x / y)) v w) ∧
    add fl v w = .ok (List.zipWith (fun x y => fl (x + y)) v w) ∧
    sub fl v w = .ok (List.zipWith (fun x y => fl (x - y)) v w) := by
  refine ⟨?_, ?_, ?_, ?_⟩ <;>
  · first
    | unfold multiply | unfold divide | unfold add | unfold sub
    rw [if_pos h]
    exact zipWith_of_fill h fun i h1 h2 => by simp [atRaw_lt h1, atRaw_lt h2]

omit [LinearOrder K] [IsStrictOrderedRing K] in
/-- Vectors of different sizes are refused. -/
theorem C90_size_mismatch (fl : K → K) {v w : List K} (h : v.length ≠ w.length) :
    multiply fl v w = .throw .invalidArgument ∧ divide fl v w = .throw .invalidArgument ∧
    add fl v w = .throw .invalidArgument ∧ sub fl v w = .throw .invalidArgument := by
  simp [multiply, divide, add, sub, h]

example : ([1, 2, 3] : List ℚ).length = [4, 5, 6].length ∧ add id ([1, 2, 3] : List ℚ) [4, 5, 6] = .ok [5, 7, 9] ∧
    sub id ([1, 2, 3] : List ℚ) [4, 5] = .throw .invalidArgument := by decide +kernel

theorem fold_err {fl : K → K} {u : K} (hu : 0 ≤ u) (hfl : Voxel.RelErr fl u) : ∀ (l : List K) (s : K),
    |l.foldl (fun a x => fl (a + x)) s - (s + l.sum)| ≤ ((1 + u) ^ l.length - 1) * (|s| + (l.map fun x => |x|).sum)
  | [], s => by simp
  | x :: l, s => by
    have hs := hfl (s + x)
    have h1 := fold_err hu hfl l (fl (s + x))
    have hp : (1 : K) ≤ (1 + u) ^ l.length := one_le_pow₀ (by linarith)
    have ha := abs_add_le s x
    have hS : 0 ≤ (l.map fun x => |x|).sum := List.sum_nonneg (by simp)
    have hfs : |fl (s + x)| ≤ (1 + u) * (|s| + |x|) := by
      have := abs_add_le (fl (s + x) - (s + x)) (s + x)
      rw [sub_add_cancel] at this
      nlinarith
    rw [List.foldl_cons, List.sum_cons, List.map_cons, List.sum_cons, List.length_cons, pow_succ]
    have ht := abs_add_le (l.foldl (fun a x => fl (a + x)) (fl (s + x)) - (fl (s + x) + l.sum)) (fl (s + x) - (s + x))
    rw [show l.foldl (fun a x => fl (a + x)) (fl (s + x)) - (fl (s + x) + l.sum) + (fl (s + x) - (s + x))
      = l.foldl (fun a x => fl (a + x)) (fl (s + x)) - (s + (x + l.sum)) by ring] at ht
    generalize (1 + u) ^ l.length = p at *
    generalize (l.map fun x => |x|).sum = S at *
    have h2 : (p - 1) * (|fl (s + x)| + S) ≤ (p - 1) * ((1 + u) * (|s| + |x|) + S) :=
      mul_le_mul_of_nonneg_left (by linarith) (by linarith)
    have h3 : u * |s + x| ≤ u * (|s| + |x|) := mul_le_mul_of_nonneg_left ha hu
    have h4 : 0 ≤ u * p * S := by positivity
    nlinarith

/-- `Sum` of a vector of `n` numbers is within `((1+u)ⁿ−1)·Σ|x|` of the exact sum, for every rounding of relative
error at most `u`; without rounding it is the sum. -/
theorem C90_sum {fl : K → K} {u : K} (hu : 0 ≤ u) (hfl : Voxel.RelErr fl u) (v : List K) :
    ∃ s, sum fl v = .ok s ∧ |s - v.sum| ≤ ((1 + u) ^ v.length - 1) * (v.map fun x => |x|).sum := by
  refine ⟨_, by rw [sum, sumLoop_ok (l := v) (f := id) (fun i h => by simp [atRaw_lt h]) _ _ _ (by simp)], ?_⟩
  simpa using fold_err hu hfl v 0

/-- `SquaredNorm` of a vector of `n` numbers is within a relative `(1+u)ⁿ⁺¹−1` of the exact sum of squares, for every
rounding of relative error at most `u`: there is no cancellation. -/
theorem C90_squared_norm {fl : K → K} {u : K} (hu : 0 ≤ u) (hfl : Voxel.RelErr fl u) (v : List K) :
    ∃ s, squaredNorm fl v = .ok s ∧
      |s - (v.map fun x => x * x).sum| ≤ ((1 + u) ^ (v.length + 1) - 1) * (v.map fun x => x * x).sum := by
  refine ⟨_, by rw [squaredNorm, sumLoop_ok (l := v) (f := fun x => fl (x * x)) (fun i h => by simp [atRaw_lt h]) _ _ _
    (by simp)], ?_⟩
  rw [List.drop_zero]
  have h1 := fold_err hu hfl (v.map fun x => fl (x * x)) 0
  rw [List.foldl_map] at h1
  have key : ∀ l : List K, |(l.map fun x => fl (x * x)).sum - (l.map fun x => x * x).sum| ≤ u * (l.map fun x => x * x).sum ∧
      ((l.map fun x => fl (x * x)).map fun x => |x|).sum ≤ (1 + u) * (l.map fun x => x * x).sum ∧
      0 ≤ (l.map fun x => x * x).sum := by
    intro l
    induction l with
    | nil => simp
    | cons x l ih =>
      obtain ⟨i1, i2, i3⟩ := ih
      have hx := hfl (x * x)
      have hxx : 0 ≤ x * x := mul_self_nonneg x
      rw [abs_of_nonneg hxx] at hx
      simp only [List.map_cons, List.sum_cons]
      refine ⟨?_, ?_, by linarith⟩
      · rw [abs_le] at *; constructor <;> nlinarith
      · have : |fl (x * x)| ≤ (1 + u) * (x * x) := by
          rw [abs_le] at *; constructor <;> nlinarith
        nlinarith
  obtain ⟨k1, k2, k3⟩ := key v
  rw [List.length_map, zero_add, abs_zero, zero_add] at h1
  have hp : (1 : K) ≤ (1 + u) ^ v.length := one_le_pow₀ (by linarith)
  rw [pow_succ]
  have h2 := mul_le_mul_of_nonneg_left k2 (show (0 : K) ≤ (1 + u) ^ v.length - 1 by linarith)
  rw [abs_le] at *
  generalize (1 + u) ^ v.length = p at *
  constructor <;> nlinarith

end props

/-- `Norm` in exact arithmetic is the Euclidean norm. -/
theorem C90_norm (v : List ℝ) :
    norm id Real.sqrt v = .ok ‖(WithLp.toLp 2 fun i : Fin v.length => v[i])‖ := by
  rw [norm, squaredNorm, sumLoop_ok (l := v) (f := fun x => x * x) (fun i h => by simp [atRaw_lt h]) _ _ _ (by simp),
    Res.ok_bind, EuclideanSpace.norm_eq]
  congr 2
  have : ∀ (l : List ℝ) (s : ℝ), l.foldl (fun a x => id (a + x * x)) s = s + (l.map fun x => x * x).sum := by
    intro l
    induction l with
    | nil => simp
    | cons x l ih => intro s; rw [List.foldl_cons, ih, List.map_cons, List.sum_cons, id_eq]; ring
  rw [List.drop_zero, this, zero_add]
  conv_lhs => rw [← List.ofFn_getElem (xs := v)]
  rw [List.map_ofFn, List.sum_ofFn]
  exact Finset.sum_congr rfl fun i _ => by simp [sq]

theorem C90_norm_example : norm id Real.sqrt [3, 4] = .ok 5 := by
  simp [norm, squaredNorm, sumLoop, atRaw]
  rw [show (3 * 3 + 4 * 4 : ℝ) = 5 ^ 2 by norm_num, Real.sqrt_sq (by norm_num)]

/-- With binary64 rounding, dividing a vector by a number is not the rounded quotient: `49 / 49` comes out below one.
(`Divide` of two vectors gives exactly one there.) -/
theorem C90_divide_false :
    (∃ x, divideScalar (Fl.nearestEven 53 (-1074)) [49] 49 = .ok [x] ∧ x < 1) ∧
    divide (Fl.nearestEven 53 (-1074)) [49] [49] = .ok [1] := by
  refine ⟨⟨_, (C90_scalar _ _ _).2.2.1, ?_⟩, ?_⟩ <;> decide +kernel

/-! ### Weighted angles -/
variable {n : Nat}

/-- math.cpp:893-898 `WeightedDotProduct`.  The vectors have one size: Eigen asserts it. -/
def weightedDot (a b w : Vec n) : ℝ := (fun i => a i * w i) ⬝ᵥ b

/-- math.cpp:900-904 `WeightedSquaredNorm`. -/
def weightedSqNorm (a w : Vec n) : ℝ := weightedDot a a w

/-- math.cpp:906-909 `WeightedNorm`.  `std::sqrt` of a negative number is a NaN, which is not positive;
`Real.sqrt` gives 0, which is not positive either. -/
noncomputable def weightedNorm (a w : Vec n) : ℝ := Real.sqrt (weightedSqNorm a w)

open Classical in
/-- math.cpp:911-927 `WeightedCosineAngleBetweenVectors`, in exact arithmetic. -/
noncomputable def weightedCosine (a b w : Vec n) : Res ℝ :=
  if weightedNorm a w > 0 ∧ weightedNorm b w > 0 then
    .ok (max (-1) (min (weightedDot a b w / (weightedNorm a w * weightedNorm b w)) 1))
  else .throw .invalidArgument

/-- math.cpp:929-934 `WeightedAngleBetweenVectors`. -/
noncomputable def weightedAngle (a b w : Vec n) : Res ℝ := do
  let c ← weightedCosine a b w
  .ok (Real.arccos c)

/-- The vector whose coordinates are scaled by the square roots of the weights, as a Euclidean vector. -/
noncomputable def scaled (a w : Vec n) : EuclideanSpace ℝ (Fin n) := WithLp.toLp 2 fun i => Real.sqrt (w i) * a i

theorem weightedDot_eq {w : Vec n} (hw : ∀ i, 0 ≤ w i) (a b : Vec n) :
    weightedDot a b w = inner ℝ (scaled a w) (scaled b w) := by
  simp only [weightedDot, dotProduct, scaled, PiLp.inner_apply, RCLike.inner_apply, conj_trivial]
  refine Finset.sum_congr rfl fun i _ => ?_
  have := Real.mul_self_sqrt (hw i)
  linear_combination (-a i * b i) * this

theorem weightedNorm_eq {w : Vec n} (hw : ∀ i, 0 ≤ w i) (a : Vec n) : weightedNorm a w = ‖scaled a w‖ := by
  rw [weightedNorm, weightedSqNorm, weightedDot_eq hw, real_inner_self_eq_norm_sq, Real.sqrt_sq (norm_nonneg _)]

/-- For weights that are not negative, the weighted angle is the Euclidean angle between the two vectors scaled by the
square roots of the weights, and the call throws exactly when one of these is zero. -/
theorem C90_weighted_angle {w : Vec n} (hw : ∀ i, 0 ≤ w i) (a b : Vec n) :
    (scaled a w ≠ 0 → scaled b w ≠ 0 →
      weightedCosine a b w = .ok (inner ℝ (scaled a w) (scaled b w) / (‖scaled a w‖ * ‖scaled b w‖)) ∧
      weightedAngle a b w = .ok (InnerProductGeometry.angle (scaled a w) (scaled b w))) ∧
    (scaled a w = 0 ∨ scaled b w = 0 →
      weightedCosine a b w = .throw .invalidArgument ∧ weightedAngle a b w = .throw .invalidArgument) := by
  have main : scaled a w ≠ 0 → scaled b w ≠ 0 →
      weightedCosine a b w = .ok (inner ℝ (scaled a w) (scaled b w) / (‖scaled a w‖ * ‖scaled b w‖)) := by
    intro ha hb
    rw [weightedCosine, weightedNorm_eq hw, weightedNorm_eq hw, weightedDot_eq hw,
      if_pos ⟨norm_pos_iff.mpr ha, norm_pos_iff.mpr hb⟩]
    have h := abs_le.mp (abs_real_inner_div_norm_mul_norm_le_one (scaled a w) (scaled b w))
    rw [min_eq_left h.2, max_eq_right h.1]
  refine ⟨fun ha hb => ⟨main ha hb, by rw [weightedAngle, main ha hb, Res.ok_bind, InnerProductGeometry.angle]⟩, ?_⟩
  intro h
  have : weightedCosine a b w = .throw .invalidArgument := by
    rw [weightedCosine, weightedNorm_eq hw, weightedNorm_eq hw, if_neg]
    rintro ⟨h1, h2⟩
    rcases h with h | h
    · simp [h] at h1
    · simp [h] at h2
  exact ⟨this, by rw [weightedAngle, this, Res.throw_bind]⟩

/-- Whatever the weights, also negative ones, a cosine that is returned lies in `[−1, 1]`, an angle in `[0, π]`, and the
order of the two vectors does not matter. -/
theorem C90_weighted_range (a b w : Vec n) :
    (∀ c, weightedCosine a b w = .ok c → -1 ≤ c ∧ c ≤ 1) ∧
    (∀ t, weightedAngle a b w = .ok t → 0 ≤ t ∧ t ≤ Real.pi) ∧
    weightedCosine a b w = weightedCosine b a w ∧ weightedAngle a b w = weightedAngle b a w := by
  have hs : weightedCosine a b w = weightedCosine b a w := by
    have e : weightedDot a b w = weightedDot b a w := by
      simp only [weightedDot, dotProduct]; exact Finset.sum_congr rfl fun i _ => by ring
    simp only [weightedCosine, e, mul_comm (weightedNorm a w), and_comm (a := weightedNorm a w > 0)]
  refine ⟨fun c hc => ?_, fun t ht => ?_, hs, by rw [weightedAngle, weightedAngle, hs]⟩
  · unfold weightedCosine at hc
    split_ifs at hc
    · cases hc
      exact ⟨le_max_left _ _, max_le (by norm_num) (min_le_right _ _)⟩
  · obtain ⟨c, _, hc⟩ := Res.bind_eq_ok.mp ht
    cases hc
    exact ⟨Real.arccos_nonneg c, Real.arccos_le_pi c⟩

/-- A weight of zero hides a coordinate, equal weights give the ordinary angle. -/
theorem C90_weighted_example :
    weightedAngle ![1, 0, 7] ![0, 1, -3] ![1, 1, 0] = .ok (Real.pi / 2) ∧
    weightedAngle ![0, 0, 7] ![0, 1, -3] ![1, 1, 0] = .throw .invalidArgument := by
  constructor
  · simp [weightedAngle, weightedCosine, weightedNorm, weightedSqNorm, weightedDot, dotProduct, Fin.sum_univ_three]
  · simp [weightedAngle, weightedCosine, weightedNorm, weightedSqNorm, weightedDot, dotProduct, Fin.sum_univ_three]

end CRU.Math.VectorOps
