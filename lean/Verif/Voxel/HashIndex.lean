import Verif.Voxel.Props
import Verif.Voxel.Geometry
/-
  C26: hashes of cells of a voxel grid (voxel_grid.hpp).
-/
namespace CRU.Voxel

variable {K : Type}

/-! ### Model -/

/-- voxel_grid.hpp:1302-1313 `HashDataIndex` (both overloads): the data index, converted to `uint64_t`. -/
def Sizes.hashDataIndex (s : Sizes K) (c : Cell) : Res Int := do
  let d ← s.dataIndex c
  pure (d % 2 ^ 64)

/-! ### Theorems -/

/-- C26: the hashes of cells of the grid are defined, below the number of cells, and different for different cells; each number below the number of cells is the
hash of a cell. -/
theorem C26_hash {A : Arith K} {cx cy cz : K} {n : Cell} {s : Sizes K} (hs : mkSizes A cx cy cz n = .ok s) (hf : InI64 (volume n)) :
    (∀ c, InGrid n c → ∃ d, s.hashDataIndex c = .ok d ∧ 0 ≤ d ∧ d < volume n) ∧
    (∀ c c', InGrid n c → InGrid n c' → s.hashDataIndex c = s.hashDataIndex c' → c = c') ∧
    (∀ d, 0 ≤ d → d < volume n → ∃ c, InGrid n c ∧ s.hashDataIndex c = .ok d) := by
  have key : ∀ c d, s.dataIndex c = .ok d → 0 ≤ d → d < volume n → s.hashDataIndex c = .ok d := by
    intro c d h h0 h1
    unfold Sizes.hashDataIndex
    rw [h, Res.ok_bind, Res.pure_eq, Int.emod_eq_of_lt h0]
    unfold InI64 at hf
    omega
  refine ⟨fun c hc => ?_, fun c c' hc hc' he => ?_, fun d h0 h1 => ?_⟩
  · obtain ⟨d, h, h0, h1, -⟩ := C26_data_index hs hf hc
    exact ⟨d, key c d h h0 h1, h0, h1⟩
  · obtain ⟨d, h, h0, h1, -⟩ := C26_data_index hs hf hc
    obtain ⟨d', h', h0', h1', -⟩ := C26_data_index hs hf hc'
    rw [key c d h h0 h1, key c' d' h' h0' h1'] at he
    cases he
    obtain ⟨b, -, -, -, hu⟩ := C26_grid_index hs hf h0 h1
    rw [hu c hc h, hu c' hc' h']
  · obtain ⟨c, -, hc, h, -⟩ := C26_grid_index hs hf h0 h1
    exact ⟨c, hc, key c d h h0 h1⟩

/-- C26: outside the grid there is no such guarantee: the cell one past the end of a row has the hash of the first cell of the next row, in each grid. (The data
index of cells that are not in the grid is not refused.) -/
theorem C26_hash_outside_false {A : Arith K} {cx cy cz : K} {n : Cell} {s : Sizes K} (hs : mkSizes A cx cy cz n = .ok s) (hf : InI64 (volume n))
    {x y : Int} (hc : InGrid n ⟨x, y + 1, 0⟩) (hy : 0 ≤ y) :
    ¬ InGrid n ⟨x, y, n.z⟩ ∧ s.hashDataIndex ⟨x, y, n.z⟩ = s.hashDataIndex ⟨x, y + 1, 0⟩ := by
  have hg := good_of_mk hs hf
  obtain ⟨_, _, rfl, _⟩ := mkSizes_ok hs
  refine ⟨by unfold InGrid; dsimp only; omega, ?_⟩
  have h1 := dataIndex_ok hg hc
  have hr := position_range hc
  have hI : InGrid s.n ⟨x, y, 0⟩ := by unfold InGrid at hc ⊢; dsimp only at hc ⊢; omega
  have hr' := position_range hI
  rw [position_eq] at hr hr'
  dsimp only at hr hr'
  have hz := hg.nums.z
  obtain ⟨⟨hx0, hx⟩, -, -⟩ := hc
  dsimp only at hx0 hx
  have e1 : 0 ≤ x * (s.n.y * s.n.z) := Int.mul_nonneg hx0 (Int.mul_nonneg (by have := hg.nums.y; omega) (by omega))
  have e2 : 0 ≤ y * s.n.z := Int.mul_nonneg hy (by omega)
  have e3 : (y + 1) * s.n.z = y * s.n.z + s.n.z := by rw [Int.add_mul, Int.one_mul]
  have hf' := hf
  unfold InI64 at hf'
  have h2 : s.dataIndex ⟨x, y, s.n.z⟩ = .ok (position s.n ⟨x, y + 1, 0⟩) := by
    unfold Sizes.dataIndex
    rw [hg.s1, hg.s2]
    dsimp only
    rw [chk64_ok (by unfold InI64; omega), Res.ok_bind, chk64_ok (by unfold InI64; omega), Res.ok_bind, chk64_ok (by unfold InI64; omega), Res.ok_bind,
      chk64_ok (by unfold InI64; omega), position_eq]
    dsimp only
    rw [e3]
    congr 1
    omega
  unfold Sizes.hashDataIndex
  rw [h1, h2]

/-- A 2 x 3 x 4 grid meets the hypotheses of both. -/
example : ∃ s : Sizes ℚ, mkSizes (exactArith ℚ) (1/2) (1/2) (1/2) ⟨2, 3, 4⟩ = .ok s ∧ s.hashDataIndex ⟨1, 2, 3⟩ ≠ s.hashDataIndex ⟨1, 2, 2⟩ ∧
    s.hashDataIndex ⟨1, 1, 4⟩ = s.hashDataIndex ⟨1, 2, 0⟩ := by
  have hm : ∃ s, mkSizes (exactArith ℚ) (1/2) (1/2) (1/2) ⟨2, 3, 4⟩ = .ok s := by
    unfold mkSizes initSizes
    rw [if_pos (by simp [exactArith, roundedArith])]
    exact ⟨_, rfl⟩
  obtain ⟨s, hs⟩ := hm
  have hf : InI64 (volume ⟨2, 3, 4⟩) := by unfold InI64 volume; decide
  refine ⟨s, hs, fun he => ?_, (C26_hash_outside_false hs hf (x := 1) (y := 1) (by decide) (by decide)).2⟩
  have := (C26_hash hs hf).2.1 _ _ (by decide) (by decide) he
  exact absurd this (by decide)

end CRU.Voxel
