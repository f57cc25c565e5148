import Mathlib.Order.WithBot
import Mathlib.Order.Monotone.Basic
import Mathlib.Algebra.Order.Monoid.WithTop
import Mathlib.Data.ENat.Basic
/-
  Costs. The search algorithms only compare and add `double`s. The laws below hold for non-NaN IEEE doubles with any
  monotone rounding mode that fixes representable values (`roundedCostLaws`): no associativity, no commutativity, no
  cancellation is assumed.
-/
namespace CRU

/-- Laws of cost arithmetic used by the proofs; `⊤` is `std::numeric_limits<double>::infinity()`. -/
class CostLaws (C : Type) [LinearOrder C] [Add C] [Zero C] [OrderTop C] : Prop where
  add_le_add_right : ∀ a b w : C, a ≤ b → a + w ≤ b + w
  add_le_add_left : ∀ w a b : C, a ≤ b → w + a ≤ w + b
  le_add : ∀ a w : C, 0 ≤ w → a ≤ a + w
  zero_add : ∀ a : C, 0 + a = a
  add_zero : ∀ a : C, a + 0 = a

/-- Exact arithmetic with infinity. -/
instance exactCostLaws (C : Type) [AddCommMonoid C] [LinearOrder C] [IsOrderedAddMonoid C] [OrderTop C] : CostLaws C where
  add_le_add_right a b w h := by gcongr
  add_le_add_left w a b h := by gcongr
  le_add a w h := by simpa using (by gcongr : a + 0 ≤ a + w)
  zero_add := zero_add
  add_zero := add_zero

/-- Rounded arithmetic: the representable values of an exact arithmetic `A`, with addition rounded by any monotone function
that returns representable values and fixes them. -/
structure Rounded (A : Type) (rep : A → Prop) where
  val : A
  isRep : rep val

namespace Rounded
variable {A : Type} {rep : A → Prop}

theorem val_inj {x y : Rounded A rep} (h : x.val = y.val) : x = y := by cases x; cases y; cases h; rfl

variable [AddCommMonoid A] [LinearOrder A] [IsOrderedAddMonoid A] [OrderTop A]

instance : LinearOrder (Rounded A rep) := LinearOrder.lift' Rounded.val (fun _ _ => val_inj)

/-- The laws hold for rounded addition. -/
theorem laws (fl : A → A) (hrep : ∀ x, rep (fl x)) (hfix : ∀ x, rep x → fl x = x) (hmono : Monotone fl)
    (h0 : rep 0) (htop : rep ⊤) :
    letI : Add (Rounded A rep) := ⟨fun x y => ⟨fl (x.val + y.val), hrep _⟩⟩
    letI : Zero (Rounded A rep) := ⟨⟨0, h0⟩⟩
    letI : OrderTop (Rounded A rep) := { top := ⟨⊤, htop⟩, le_top := fun x => (le_top : x.val ≤ ⊤) }
    CostLaws (Rounded A rep) := by
  let _ : Add (Rounded A rep) := ⟨fun x y => ⟨fl (x.val + y.val), hrep _⟩⟩
  let _ : Zero (Rounded A rep) := ⟨⟨0, h0⟩⟩
  let _ : OrderTop (Rounded A rep) := { top := ⟨⊤, htop⟩, le_top := fun x => (le_top : x.val ≤ ⊤) }
  refine ⟨?_, ?_, ?_, ?_, ?_⟩
  · intro a b w h
    have h' : a.val ≤ b.val := h
    show fl (a.val + w.val) ≤ fl (b.val + w.val)
    exact hmono (by gcongr)
  · intro w a b h
    have h' : a.val ≤ b.val := h
    show fl (w.val + a.val) ≤ fl (w.val + b.val)
    exact hmono (by gcongr)
  · intro a w h
    have h' : 0 ≤ w.val := h
    show a.val ≤ fl (a.val + w.val)
    calc a.val = fl a.val := (hfix _ a.isRep).symm
      _ ≤ fl (a.val + w.val) := hmono (by simpa using (by gcongr : a.val + 0 ≤ a.val + w.val))
  · intro a
    apply val_inj
    show fl (0 + a.val) = a.val
    rw [zero_add, hfix _ a.isRep]
  · intro a
    apply val_inj
    show fl (a.val + 0) = a.val
    rw [add_zero, hfix _ a.isRep]

end Rounded
end CRU
