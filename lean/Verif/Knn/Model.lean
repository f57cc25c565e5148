import Verif.Parallel.Model
import Verif.Parallel.Fill
import Verif.Knn.Spec
/-
  Model of include/common_robotics_utilities/simple_knearest_neighbors.hpp.
  Distances are values of an arbitrary linear order `D` (IEEE doubles without NaN are one); `current` is fixed, so the
  distance function is `d : Item → D`. Sizes are assumed to be representable (no allocation failure).
-/
namespace CRU.Knn
open CRU.Parallel

variable {Item D : Type}

/-- What the C++ standard guarantees about `std::partial_sort(begin, begin + K, end, by distance)`. -/
def PartialSorted [LinearOrder D] (K : Nat) (l l' : List (Entry D)) : Prop :=
  l'.Perm l ∧ (l'.take K).Pairwise (fun a b => a.dist ≤ b.dist) ∧
  ∀ a ∈ l'.take K, ∀ b ∈ l'.drop K, a.dist ≤ b.dist

/-- An implementation of `std::partial_sort` that meets the standard. -/
def LawfulPartialSort [LinearOrder D] (ps : Nat → List (Entry D) → List (Entry D)) : Prop :=
  ∀ K l, K ≤ l.length → PartialSorted K l (ps K l)

/-- Calling `std::partial_sort` with `begin + K` past the end is undefined. (simple_knearest_neighbors.hpp:117-121, 222-226) -/
def partialSort (ps : Nat → List (Entry D) → List (Entry D)) (K : Nat) (l : List (Entry D)) : Res (List (Entry D)) :=
  if K ≤ l.length then .ok (ps K l) else .ub

/-- simple_knearest_neighbors.hpp:95-101 / 107-113: index and distance of `items[idx], items[idx+1], …` (`n` of them). -/
def collect (items : List Item) (d : Item → D) : Nat → Nat → Res (List (Entry D))
  | 0, _ => .ok []
  | n + 1, idx => do
    let x ← atRaw items idx
    let rest ← collect items d n (idx + 1)
    pure (⟨(idx : Int), d x⟩ :: rest)

/-- simple_knearest_neighbors.hpp:67-124 `GetKNearestNeighborsInRangeSerial`. -/
def knnSerial (ps : Nat → List (Entry D) → List (Entry D)) (items : List Item) (d : Item → D) (s e : Nat) (K : Int) :
    Res (List (Entry D)) :=
  if e < s then .throw .invalidArgument
  else if e > items.length then .throw .invalidArgument
  else if K < 0 then .throw .invalidArgument
  else if K = 0 ∨ e - s = 0 then .ok []
  else if e - s ≤ K.toNat then collect items d (e - s) s
  else do
    let all ← collect items d (e - s) s
    let sorted ← partialSort ps K.toNat all
    pure (sorted.take K.toNat)

/-- simple_knearest_neighbors.hpp:195-204, the per-range work: `per_thread_nearests[thread] = …Serial(start, end)`,
executed for the work ranges in the given order. -/
def runRanges (ps : Nat → List (Entry D) → List (Entry D)) (items : List Item) (d : Item → D) (K : Int) :
    List WorkRange → List (List (Entry D)) → Res (List (List (Entry D)))
  | [], slots => .ok slots
  | w :: ws, slots => do
    let r ← knnSerial ps items d w.start.toNat w.stop.toNat K
    let slots' ← setRaw slots w.thread r
    runRanges ps items d K ws slots'

/-- simple_knearest_neighbors.hpp:212-228: merge. -/
def merge (ps : Nat → List (Entry D) → List (Entry D)) (K : Int) (slots : List (List (Entry D))) :
    Res (List (Entry D)) := do
  let sorted ← partialSort ps K.toNat slots.flatten
  pure (sorted.take K.toNat)

/-- simple_knearest_neighbors.hpp:126-231 `GetKNearestNeighborsInRangeParallel`: `r` is the outcome of one run. The
backend, the interleaving of the per-item work (167-184) and the order in which the per-range results are stored
(191-210; each is one store into its own slot) are arbitrary. -/
def KnnParallelRun (ps : Nat → List (Entry D) → List (Entry D)) (b : Backend) (threads : Int) (items : List Item)
    (d : Item → D) (s e : Nat) (K : Int) (r : Res (List (Entry D))) : Prop :=
  if e < s then r = .throw .invalidArgument
  else if e > items.length then r = .throw .invalidArgument
  else if K < 0 then r = .throw .invalidArgument
  else if K = 0 ∨ e - s = 0 then r = .ok []
  else if e - s ≤ K.toNat then
    ∃ ws tr init, staticIndexLoop b threads s e = .ok ws ∧ Interleaving ws tr ∧ init.length = e - s ∧
      r = fillAll (fun i => do
        let x ← atRaw items i.toNat
        pure (⟨i, d x⟩ : Entry D)) s (tr.map (·.index)) init
  else
    ∃ ws order, staticRangeLoop b threads s e = .ok ws ∧ order.Perm ws ∧
      r = (runRanges ps items d K order (List.replicate threads.toNat []) >>= merge ps K)

/-- simple_knearest_neighbors.hpp:258-280 `GetKNearestNeighborsInRange`. -/
def KnnRun (ps : Nat → List (Entry D) → List (Entry D)) (b : Backend) (threads : Int) (items : List Item)
    (d : Item → D) (s e : Nat) (K : Int) (r : Res (List (Entry D))) : Prop :=
  if threads > 1 then KnnParallelRun ps b threads items d s e K r else r = knnSerial ps items d s e K

end CRU.Knn
