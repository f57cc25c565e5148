/-
  Outcomes of a C++ call.  Shared by every model file.
-/
namespace CRU

/-- Exception classes thrown by the modelled code (`std::…`). -/
inductive Exc where
  | invalidArgument | runtimeError | outOfRange | lengthError | badFunctionCall
  deriving DecidableEq, Repr

/-- Outcome of running a piece of C++: normal result, exception, or undefined behaviour. -/
inductive Res (α : Type _) where
  | ok (a : α)
  | throw (e : Exc)
  | ub
  deriving DecidableEq, Repr

namespace Res

@[inline] def bind {α β} : Res α → (α → Res β) → Res β
  | ok a, f => f a
  | throw e, _ => throw e
  | ub, _ => ub

instance : Monad Res where
  pure := ok
  bind := bind

@[simp] theorem pure_eq {α} (a : α) : (pure a : Res α) = ok a := rfl
@[simp] theorem ok_bind {α β} (a : α) (f : α → Res β) : (ok a >>= f) = f a := rfl
@[simp] theorem throw_bind {α β} (e : Exc) (f : α → Res β) : (throw e >>= f) = throw e := rfl
@[simp] theorem ub_bind {α β} (f : α → Res β) : (ub >>= f) = ub := rfl
@[simp] theorem ok_map {α β} (a : α) (f : α → β) : (f <$> ok a) = ok (f a) := rfl
@[simp] theorem throw_map {α β} (e : Exc) (f : α → β) : (f <$> (throw e : Res α)) = throw e := rfl
@[simp] theorem ub_map {α β} (f : α → β) : (f <$> (ub : Res α)) = ub := rfl

theorem bind_eq_ok {α β} {x : Res α} {f : α → Res β} {b : β} :
    (x >>= f) = ok b ↔ ∃ a, x = ok a ∧ f a = ok b := by
  cases x <;> simp

/-- The call finished normally. -/
def isOk {α} : Res α → Bool
  | ok _ => true
  | _ => false

instance : LawfulMonad Res := LawfulMonad.mk'
  (id_map := by intro _ x; cases x <;> rfl)
  (pure_bind := by intros; rfl)
  (bind_assoc := by intro _ _ _ x _ _; cases x <;> rfl)

end Res

/-- `v.at(i)`: bounds-checked access, throws `std::out_of_range`. -/
def atChecked {α} (l : List α) (i : Nat) : Res α :=
  match l[i]? with
  | some a => .ok a
  | none => .throw .outOfRange

/-- `v[i]`: unchecked access, undefined outside the vector. -/
def atRaw {α} (l : List α) (i : Nat) : Res α :=
  match l[i]? with
  | some a => .ok a
  | none => .ub

/-- `v.at(static_cast<size_t>(i))` for a signed index: a negative index becomes a huge unsigned one. -/
def atInt {α} (l : List α) (i : Int) : Res α :=
  if i < 0 then .throw .outOfRange else atChecked l i.toNat

end CRU
