import Verif.Base
import Mathlib.Order.Defs.LinearOrder
/-
  What a K-means labelling is.
-/
namespace CRU.Kmeans

/-- The elements of `data` that carry label `j`, in order. -/
def members {A : Type} (data : List A) (labels : List Int) (j : Int) : List A :=
  ((data.zip labels).filter fun p => p.2 = j).map Prod.fst

/-- `centers` are the centres of the `k` clusters of the labelling `labels`. -/
def AreCenters {A W : Type} (avg : List A → List W → Res A) (data : List A) (weights : List W) (labels : List Int) (k : Nat)
    (centers : List A) : Prop :=
  centers.length = k ∧
  ∀ (j : Nat) (h : j < centers.length), avg (members data labels j) (members weights labels j) = .ok centers[j]

/-- `label` is the number of a centre that is nearest to `x`. -/
def IsNearest {A D : Type} [LinearOrder D] (dist : A → A → D) (centers : List A) (x : A) (label : Int) : Prop :=
  0 ≤ label ∧ ∃ h : label.toNat < centers.length, ∀ (j : Nat) (hj : j < centers.length),
    dist centers[label.toNat] x ≤ dist centers[j] x

/-- One label per datum, each in `[0, k)`. -/
def IsLabelling {A : Type} (data : List A) (k : Int) (labels : List Int) : Prop :=
  labels.length = data.length ∧ ∀ l ∈ labels, 0 ≤ l ∧ l < k

/-- The labelling is stable: every datum carries the label of a nearest one of the labelling's own centres. -/
def IsStable {A W D : Type} [LinearOrder D] (dist : A → A → D) (avg : List A → List W → Res A) (data : List A)
    (weights : List W) (k : Nat) (labels : List Int) : Prop :=
  ∃ centers, AreCenters avg data weights labels k centers ∧
    ∀ (i : Nat) (h : i < data.length) (h' : i < labels.length), IsNearest dist centers data[i] labels[i]

end CRU.Kmeans
