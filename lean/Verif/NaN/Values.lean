import Verif.NaN.Base
import Verif.Utility.Model
import Verif.Voxel.Geometry
/-
  C103: clamping, spreading and voxel locations when values are NaNs.
-/
namespace CRU.NaN
open CRU.Util CRU.Voxel
set_option linter.unusedSectionVars false

section Clamp
variable {T : Type} [LT T] [LE T] [DecidableLT T] [DecidableLE T]

/-- **C103.** `ClampValue` of a NaN is a NaN and not a value between the bounds; a NaN for a bound is refused. -/
theorem C103_clamp (val lo hi : Dbl T) :
    (lo = .nan ∨ hi = .nan → clampValue val lo hi = .throw .invalidArgument) ∧
    (∀ a b, lo = .num a → hi = .num b → a ≤ b → clampValue .nan lo hi = .ok .nan) := by
  constructor
  · rintro (rfl | rfl) <;> simp [clampValue]
  · rintro a b rfl rfl h; simp [clampValue, h]

/-- **C103.** `SpreadValue` of a NaN is a NaN; a NaN for one of the thresholds is refused. -/
theorem C103_spread (val low mid high : Dbl T) :
    (low = .nan ∨ mid = .nan ∨ high = .nan → spreadValue val low mid high = .throw .invalidArgument) ∧
    (∀ a b c, low = .num a → mid = .num b → high = .num c → a ≤ b → b ≤ c → spreadValue .nan low mid high = .ok .nan) := by
  constructor
  · rintro (rfl | rfl | rfl) <;> simp [spreadValue]
  · rintro a b c rfl rfl rfl h1 h2; simp [spreadValue, h1, h2]

end Clamp

example : clampValue (.nan : Dbl Nat) (.num 1) (.num 3) = .ok .nan := (C103_clamp .nan (.num 1) (.num 3)).2 1 3 rfl rfl (by decide)
example : clampValue (.num 2 : Dbl Nat) .nan (.num 3) = .throw .invalidArgument := (C103_clamp (.num 2) .nan (.num 3)).1 (.inl rfl)
example : spreadValue (.nan : Dbl Nat) (.num 1) (.num 2) (.num 3) = .ok .nan :=
  (C103_spread .nan (.num 1) (.num 2) (.num 3)).2 1 2 3 rfl rfl rfl (by decide) (by decide)

section Voxel
variable {K : Type}

/-- An operation on numbers as one on `double`s. -/
def op2 (f : K → K → K) : Dbl K → Dbl K → Dbl K
  | .num a, .num b => .num (f a b)
  | _, _ => .nan

/-- The arithmetic of `double`s around an arithmetic of numbers: a NaN is not positive (`CheckPositiveValid`, voxel_grid.hpp:77-80, is false), its floor and
ceiling do not fit any integer type. -/
def nanArith (A : Arith K) : Arith (Dbl K) where
  sub := op2 A.sub
  mul := op2 A.mul
  div := op2 A.div
  add := op2 A.add
  one := .num A.one
  half := .num A.half
  ofInt i := .num (A.ofInt i)
  floor
    | .num a => A.floor a
    | .nan => 2 ^ 63
  ceil
    | .num a => A.ceil a
    | .nan => 2 ^ 63
  pos
    | .num a => A.pos a
    | .nan => false

theorem chk64_nan : chk64 (2 ^ 63) = .ub := by decide

theorem chk_cases (x : Int) : chk64 x = .ub ∨ ∃ y, chk64 x = .ok y := by
  unfold chk64; split
  · exact .inr ⟨_, rfl⟩
  · exact .inl rfl

theorem floor_mul_nan (A : Arith K) {a : Dbl K} (i : Dbl K) (h : a = .nan) : chk64 ((nanArith A).floor ((nanArith A).mul a i)) = .ub := by
  subst h; exact chk64_nan

/-- **C103.** Asking a voxel grid (of valid sizes or not) for the index of a location with a NaN among its coordinates is undefined
behaviour (a NaN is converted to `int64_t`), instead of an index outside the grid, for both forms of the query. -/
theorem C103_voxel_location [DecidableEq K] (A : Arith K) (s : Sizes (Dbl K)) (l : Vec (Dbl K)) (h : l.x = .nan ∨ l.y = .nan ∨ l.z = .nan) :
    gridFrameIndex3 (nanArith A) s l = .ub ∧ (l.w = .num A.one → gridFrameIndex4 (nanArith A) s l = .ub) ∧
    (l.w = .nan → gridFrameIndex4 (nanArith A) s l = .throw .invalidArgument) := by
  have key : gridFrameIndex3 (nanArith A) s l = .ub := by
    unfold gridFrameIndex3
    rcases chk_cases ((nanArith A).floor ((nanArith A).mul l.x s.icx)) with ex | ⟨x, ex⟩
    · rw [ex]; rfl
    · rw [ex, Res.ok_bind]
      rcases chk_cases ((nanArith A).floor ((nanArith A).mul l.y s.icy)) with ey | ⟨y, ey⟩
      · rw [ey]; rfl
      · rw [ey, Res.ok_bind]
        have hz : l.z = .nan := by
          rcases h with h | h | h
          · rw [floor_mul_nan A _ h] at ex; cases ex
          · rw [floor_mul_nan A _ h] at ey; cases ey
          · exact h
        rw [floor_mul_nan A _ hz]; rfl
  refine ⟨key, fun hw => ?_, fun hw => ?_⟩
  · unfold gridFrameIndex4
    rw [if_pos (show l.w = (nanArith A).one from hw)]; exact key
  · unfold gridFrameIndex4
    rw [if_neg (by rw [hw]; intro e; cases e)]

/-- **C103.** A grid whose cell sizes or total sizes include a NaN cannot be made. -/
theorem C103_voxel_sizes (A : Arith K) (cx cy cz sx sy sz : Dbl K) (n : Cell) :
    (cx = .nan ∨ cy = .nan ∨ cz = .nan → mkSizes (nanArith A) cx cy cz n = .throw .invalidArgument) ∧
    (cx = .nan ∨ cy = .nan ∨ cz = .nan ∨ sx = .nan ∨ sy = .nan ∨ sz = .nan →
      mkSizesD (nanArith A) cx cy cz sx sy sz = .throw .invalidArgument) := by
  have hp : (nanArith A).pos .nan = false := rfl
  constructor
  · intro h
    unfold mkSizes initSizes
    rcases h with rfl | rfl | rfl <;> simp [hp, orThrow, Res.pure_eq]
  · intro h
    unfold mkSizesD initSizesD
    rcases h with rfl | rfl | rfl | rfl | rfl | rfl <;> simp [hp, orThrow, Res.pure_eq]

/-- **C103.** On locations and sizes without NaNs this is the arithmetic of the numbers. -/
theorem C103_voxel_numbers (A : Arith K) (s : Sizes (Dbl K)) (s' : Sizes K) (l : Vec K)
    (hs : s.icx = .num s'.icx ∧ s.icy = .num s'.icy ∧ s.icz = .num s'.icz) :
    gridFrameIndex3 (nanArith A) s ⟨.num l.x, .num l.y, .num l.z, .num l.w⟩ = gridFrameIndex3 A s' l := by
  unfold gridFrameIndex3
  rw [hs.1, hs.2.1, hs.2.2]; rfl

end Voxel

example : gridFrameIndex3 (nanArith (exactArith ℚ)) (defaultSizes (nanArith (exactArith ℚ))) ⟨.num 0, .nan, .num 0, .num 1⟩ = .ub :=
  (C103_voxel_location _ _ _ (.inr (.inl rfl))).1

example : mkSizes (nanArith (exactArith ℚ)) (.num 1) .nan (.num 1) ⟨1, 1, 1⟩ = .throw .invalidArgument :=
  (C103_voxel_sizes _ _ _ _ (.num 1) (.num 1) (.num 1) _).1 (.inr (.inl rfl))

/-- **C103.** Comparison by distance, the comparator of `std::partial_sort` in simple_knearest_neighbors.hpp and of the queues in simple_astar_search.hpp and
simple_graph_search.hpp, is not a strict weak ordering once there are two different numbers and a NaN (being equivalent is not transitive), which is what
these algorithms require of it; without NaNs it is one. -/
theorem C103_comparator {T : Type} [LinearOrder T] :
    (∀ a b c : T, ¬ Dbl.num a < Dbl.num b ∧ ¬ Dbl.num b < Dbl.num a → ¬ Dbl.num b < Dbl.num c ∧ ¬ Dbl.num c < Dbl.num b →
      ¬ Dbl.num a < Dbl.num c ∧ ¬ Dbl.num c < Dbl.num a) ∧
    (∀ a c : T, a ≠ c → ∃ b : Dbl T, (¬ Dbl.num a < b ∧ ¬ b < Dbl.num a) ∧ (¬ b < Dbl.num c ∧ ¬ Dbl.num c < b) ∧
      ¬ (¬ Dbl.num a < Dbl.num c ∧ ¬ Dbl.num c < Dbl.num a)) := by
  constructor
  · intro a b c h1 h2
    simp only [Dbl.num_lt_num, not_lt] at *
    exact ⟨h2.1.trans h1.1, h1.2.trans h2.2⟩
  · intro a c h
    refine ⟨.nan, by simp, by simp, ?_⟩
    simp only [Dbl.num_lt_num, not_lt, not_and, not_le]
    intro h1
    exact lt_of_le_of_ne h1 (fun e => h e.symm)

example : ∃ b : Dbl Nat, (¬ Dbl.num 0 < b ∧ ¬ b < Dbl.num 0) ∧ (¬ b < Dbl.num 1 ∧ ¬ Dbl.num 1 < b) ∧
    ¬ (¬ Dbl.num 0 < Dbl.num 1 ∧ ¬ Dbl.num 1 < Dbl.num 0) := C103_comparator.2 0 1 (by decide)

end CRU.NaN
