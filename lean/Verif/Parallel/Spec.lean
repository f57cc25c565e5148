/-
  Schedules and index ranges, independent of the model.
-/
namespace CRU

/-- `tr` is one possible order in which the steps of concurrent threads `ls` (each a sequence) can happen. -/
inductive Interleaving {α : Type} : List (List α) → List α → Prop where
  | done {ls} (h : ∀ l ∈ ls, l = []) : Interleaving ls []
  | step {ls} (i : Nat) (x : α) (t tr : List α) (h : ls[i]? = some (x :: t))
      (rest : Interleaving (ls.set i t) tr) : Interleaving ls (x :: tr)

/-- The integers `s, s+1, …, e-1`. -/
def irange (s e : Int) : List Int := (List.range (e - s).toNat).map fun (k : Nat) => s + (k : Int)

end CRU
