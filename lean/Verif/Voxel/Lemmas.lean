import Verif.Voxel.Model
import Mathlib.Tactic.Linarith
import Mathlib.Tactic.Ring
/-
  Index arithmetic of voxel grids.
-/
namespace CRU.Voxel

variable {K T H : Type}

/-- All dimensions positive and the number of cells representable. -/
structure GoodNums (n : Cell) : Prop where
  x : 0 < n.x
  y : 0 < n.y
  z : 0 < n.z
  fits : InI64 (volume n)

/-- Sizes as `Initialize` makes them, with a representable number of cells. -/
structure GoodSizes (s : Sizes K) : Prop where
  nums : GoodNums s.n
  s1 : s.stride1 = s.n.y * s.n.z
  s2 : s.stride2 = s.n.z
  valid : s.valid = true

theorem inBounds_iff (s : Sizes K) (c : Cell) : s.inBounds c = true ↔ InGrid s.n c := by
  unfold Sizes.inBounds InGrid
  simp only [Bool.and_eq_true, decide_eq_true_eq]
  omega

theorem position_range {n c : Cell} (h : InGrid n c) : 0 ≤ position n c ∧ position n c < volume n := by
  obtain ⟨⟨hx0, hx⟩, ⟨hy0, hy⟩, hz0, hz⟩ := h
  unfold position volume
  have hy' : 0 ≤ n.y := by omega
  have hz' : 0 ≤ n.z := by omega
  constructor
  · positivity
  · have h1 : c.x * n.y + c.y + 1 ≤ n.x * n.y := by
      have : (c.x + 1) * n.y ≤ n.x * n.y := Int.mul_le_mul_of_nonneg_right (by omega) hy'
      linarith [Int.add_mul c.x 1 n.y]
    have h2 : (c.x * n.y + c.y + 1) * n.z ≤ n.x * n.y * n.z := Int.mul_le_mul_of_nonneg_right h1 hz'
    linarith [Int.add_mul (c.x * n.y + c.y) 1 n.z]

theorem position_inj {n c d : Cell} (hc : InGrid n c) (hd : InGrid n d) (h : position n c = position n d) : c = d := by
  obtain ⟨⟨_, _⟩, ⟨hy0, hy⟩, hz0, hz⟩ := hc
  obtain ⟨⟨_, _⟩, ⟨hy0', hy'⟩, hz0', hz'⟩ := hd
  unfold position at h
  have hzz : c.z = d.z := by
    have := congrArg (· % n.z) h
    rwa [Int.add_comm, Int.add_mul_emod_self_right, Int.add_comm, Int.add_mul_emod_self_right,
      Int.emod_eq_of_lt hz0 hz, Int.emod_eq_of_lt hz0' hz'] at this
  have hq : c.x * n.y + c.y = d.x * n.y + d.y := by
    rw [hzz] at h
    exact Int.eq_of_mul_eq_mul_right (show n.z ≠ 0 by omega) (by linarith)
  have hyy : c.y = d.y := by
    have := congrArg (· % n.y) hq
    rwa [Int.add_comm, Int.add_mul_emod_self_right, Int.add_comm, Int.add_mul_emod_self_right,
      Int.emod_eq_of_lt hy0 hy, Int.emod_eq_of_lt hy0' hy'] at this
  have hxx : c.x = d.x := by
    rw [hyy] at hq
    exact Int.eq_of_mul_eq_mul_right (show n.y ≠ 0 by omega) (by linarith)
  cases c; cases d; simp_all

/-- The inverse of `position`. -/
theorem position_surj {n : Cell} (hn : GoodNums n) {d : Int} (h0 : 0 ≤ d) (h1 : d < volume n) :
    InGrid n ⟨d.tdiv (n.y * n.z), (d.tmod (n.y * n.z)).tdiv n.z, (d.tmod (n.y * n.z)).tmod n.z⟩ ∧
    position n ⟨d.tdiv (n.y * n.z), (d.tmod (n.y * n.z)).tdiv n.z, (d.tmod (n.y * n.z)).tmod n.z⟩ = d := by
  have hs : 0 < n.y * n.z := Int.mul_pos hn.y hn.z
  have hz := hn.z
  have hm0 : 0 ≤ d % (n.y * n.z) := Int.emod_nonneg _ (by omega)
  have hm1 : d % (n.y * n.z) < n.y * n.z := Int.emod_lt_of_pos _ hs
  rw [Int.tdiv_eq_ediv_of_nonneg h0, Int.tmod_eq_emod_of_nonneg h0, Int.tdiv_eq_ediv_of_nonneg hm0,
    Int.tmod_eq_emod_of_nonneg hm0]
  have hd := Int.mul_ediv_add_emod d (n.y * n.z)
  have hr := Int.mul_ediv_add_emod (d % (n.y * n.z)) n.z
  have hz0 := Int.emod_nonneg (d % (n.y * n.z)) (show n.z ≠ 0 by omega)
  have hz1 := Int.emod_lt_of_pos (d % (n.y * n.z)) hz
  refine ⟨⟨⟨Int.ediv_nonneg h0 (by omega), ?_⟩, ⟨Int.ediv_nonneg hm0 (by omega), ?_⟩, hz0, hz1⟩, ?_⟩
  · show d / (n.y * n.z) < n.x
    apply Int.ediv_lt_of_lt_mul hs
    unfold volume at h1
    linarith [Int.mul_assoc n.x n.y n.z]
  · show d % (n.y * n.z) / n.z < n.y
    exact Int.ediv_lt_of_lt_mul hz hm1
  · unfold position
    dsimp only
    generalize d / (n.y * n.z) = q at *
    generalize d % (n.y * n.z) = r at *
    generalize r / n.z = q' at *
    generalize r % n.z = r' at *
    rw [← hd, ← hr]
    ring

theorem position_eq (n c : Cell) : position n c = c.x * (n.y * n.z) + c.y * n.z + c.z := by unfold position; ring

/-- No overflow for cells of the grid. -/
theorem dataIndex_ok {s : Sizes K} (hs : GoodSizes s) {c : Cell} (hc : InGrid s.n c) :
    s.dataIndex c = .ok (position s.n c) := by
  have hr := position_range hc
  have hf := hs.nums.fits
  rw [position_eq] at hr ⊢
  obtain ⟨⟨hx0, hx⟩, ⟨hy0, hy⟩, hz0, hz⟩ := hc
  have hn := hs.nums
  have e1 : 0 ≤ c.x * (s.n.y * s.n.z) := Int.mul_nonneg hx0 (Int.mul_nonneg (by omega) (by omega))
  have e2 : 0 ≤ c.y * s.n.z := Int.mul_nonneg hy0 (by omega)
  unfold InI64 at hf
  unfold Sizes.dataIndex
  rw [hs.s1, hs.s2]
  rw [chk64_ok (by unfold InI64; omega), Res.ok_bind, chk64_ok (by unfold InI64; omega), Res.ok_bind,
    chk64_ok (by unfold InI64; omega), Res.ok_bind, chk64_ok (by unfold InI64; omega)]

theorem totalCells_ok {s : Sizes K} (hs : GoodNums s.n) : s.totalCells = .ok (volume s.n) := by
  have hf := hs.fits
  have hxy : 0 < s.n.x * s.n.y := Int.mul_pos hs.x hs.y
  have hle : s.n.x * s.n.y * 1 ≤ s.n.x * s.n.y * s.n.z := Int.mul_le_mul_of_nonneg_left hs.z (by omega)
  unfold Sizes.totalCells
  unfold volume at hf ⊢
  have h1 : InI64 (s.n.x * s.n.y) := by unfold InI64 at hf ⊢; omega
  rw [chk64_ok h1, Res.ok_bind, chk64_ok hf]

theorem mkSizes_ok {A : Arith K} {cx cy cz : K} {n : Cell} {s : Sizes K} (h : mkSizes A cx cy cz n = .ok s) :
    (0 < n.x ∧ 0 < n.y ∧ 0 < n.z) ∧ (A.pos cx = true ∧ A.pos cy = true ∧ A.pos cz = true) ∧ s.n = n ∧
    s.stride1 = n.y * n.z ∧ s.stride2 = n.z ∧ s.valid = true ∧ s.cx = cx ∧ s.cy = cy ∧ s.cz = cz ∧
    s.icx = A.div A.one cx ∧ s.icy = A.div A.one cy ∧ s.icz = A.div A.one cz ∧
    s.sx = A.mul (A.ofInt n.x) cx ∧ s.sy = A.mul (A.ofInt n.y) cy ∧ s.sz = A.mul (A.ofInt n.z) cz := by
  unfold mkSizes initSizes at h
  split at h
  · rename_i hc
    simp only [Bool.and_eq_true, decide_eq_true_eq] at hc
    obtain ⟨⟨⟨⟨⟨h1, h2⟩, h3⟩, h4⟩, h5⟩, h6⟩ := hc
    unfold chk64 at h
    split at h
    · cases h
      exact ⟨⟨h4, h5, h6⟩, ⟨h1, h2, h3⟩, rfl, rfl, rfl, rfl, rfl, rfl, rfl, rfl, rfl, rfl, rfl, rfl, rfl⟩
    · cases h
  · cases h

theorem good_of_mk {A : Arith K} {cx cy cz : K} {n : Cell} {s : Sizes K} (h : mkSizes A cx cy cz n = .ok s)
    (hf : InI64 (volume n)) : GoodSizes s := by
  obtain ⟨⟨h1, h2, h3⟩, _, rfl, h5, h6, h7, _⟩ := mkSizes_ok h
  exact ⟨⟨h1, h2, h3, hf⟩, h5, h6, h7⟩

end CRU.Voxel
