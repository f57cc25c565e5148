import Mathlib.Order.Defs.LinearOrder
/-
  What a K-nearest-neighbours answer is.
-/
namespace CRU.Knn

/-- An answer entry: index and distance (simple_knearest_neighbors.hpp:20-53 `IndexAndDistance`). -/
structure Entry (D : Type) where
  index : Int
  dist : D
  deriving DecidableEq, Repr

/-- `res` answers the K-nearest query over `items[s], …, items[e-1]`, `dist i` being the distance of item `i`:
the right number of entries, distinct indices in range, true distances, and no unreturned item strictly closer than a
returned one. -/
structure IsKNearest {D : Type} [LinearOrder D] (dist : Int → D) (s e : Int) (K : Nat) (res : List (Entry D)) : Prop where
  length : (res.length : Int) = min (K : Int) (e - s)
  distinct : (res.map (·.index)).Nodup
  inRange : ∀ r ∈ res, s ≤ r.index ∧ r.index < e
  trueDist : ∀ r ∈ res, r.dist = dist r.index
  nearest : ∀ r ∈ res, ∀ j, s ≤ j → j < e → j ∉ res.map (·.index) → r.dist ≤ dist j

end CRU.Knn
