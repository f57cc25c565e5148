import Verif.Parallel.Props
import Verif.Parallel.Fill
/-
  Order in which the bodies of a static parallel index loop run, and in-place updates made by such a loop.
-/
namespace CRU
open CRU.Parallel

/-- `order` is the sequence of indices visited by one run of `StaticParallelForIndexLoop` (parallelism.hpp:423-442),
under some interleaving of its workers. -/
def IndexRun (b : Backend) (threads s e : Int) (order : List Int) : Prop :=
  ∃ ws tr, staticIndexLoop b threads s e = .ok ws ∧ Interleaving ws tr ∧ order = tr.map (·.index)

theorem IndexRun.perm {b : Backend} {threads s e : Int} {order : List Int} (h : IndexRun b threads s e order)
    (hs : InI64 s) (he : InI64 e) (hth : InI64 threads) (hsz : InI64 (e - s)) (hse : s ≤ e) :
    order.Perm (irange s e) := by
  obtain ⟨ws, tr, hws, htr, rfl⟩ := h
  by_cases h0 : s = e
  · subst h0
    have : staticIndexLoop b threads s s = .ok [] := by
      unfold staticIndexLoop staticRangeLoop; rw [if_neg (by omega), chk64_ok hsz]; simp
    rw [this] at hws
    simp only [Res.ok.injEq] at hws
    subst hws
    have := htr.perm
    simp at this
    simp [this, irange]
  · have heq := staticRangeLoop_eq b threads s e hs he hth hsz (by omega)
    unfold staticIndexLoop at hws
    rw [heq, Res.ok_bind, Res.pure_eq] at hws
    simp only [Res.ok.injEq] at hws
    subst hws
    refine (htr.perm.map _).trans ?_
    rw [List.map_flatten, List.map_map]
    have : (List.map (fun c => c.index) ∘ expand) = fun w => irange w.start w.stop := by
      funext w; exact expand_index w
    rw [this]
    split
    · simp
    · rename_i hc
      rw [flatten_rangesFrom b s e _ (by omega) (by omega)]
      rw [show (((0 + (min threads ((e : Int) - s)).toNat : Nat)) : Int) = min threads (e - s) by omega]
      rw [bnd_last _ _ _ (by omega) (by omega)]
      rw [show ((0 : Nat) : Int) = 0 from rfl, bnd_zero _ _ _ (by omega) (by omega)]

theorem IndexRun.exists (b : Backend) (threads s e : Int) (hs : InI64 s) (he : InI64 e) (hth : InI64 threads)
    (hsz : InI64 (e - s)) (hse : s ≤ e) : ∃ order, IndexRun b threads s e order := by
  have hok : ∃ ws, staticIndexLoop b threads s e = .ok ws := by
    by_cases h0 : s = e
    · subst h0
      exact ⟨[], by unfold staticIndexLoop staticRangeLoop; rw [if_neg (by omega), chk64_ok hsz]; simp⟩
    · unfold staticIndexLoop
      rw [staticRangeLoop_eq b threads s e hs he hth hsz (by omega), Res.ok_bind, Res.pure_eq]
      exact ⟨_, rfl⟩
  obtain ⟨ws, hws⟩ := hok
  obtain ⟨tr, htr⟩ := Interleaving.exists_run ws
  exact ⟨_, ws, tr, hws, htr, rfl⟩

/-- Loop bodies `v.at(i) = f(i, v.at(i))` executed in the given order; each body touches only element `i`. -/
def modifyAll {α} (f : Int → α → Res α) : List Int → List α → Res (List α)
  | [], v => .ok v
  | i :: is, v => do
    let x ← atInt v i
    let y ← f i x
    modifyAll f is (v.set i.toNat y)

theorem atInt_ok {α} (l : List α) (i : Int) (h0 : 0 ≤ i) (h : i.toNat < l.length) : atInt l i = .ok l[i.toNat] := by
  unfold atInt atChecked
  rw [if_neg (by omega), List.getElem?_eq_getElem h]

theorem atInt_none {α} (l : List α) (i : Int) (h : ¬ (0 ≤ i ∧ i.toNat < l.length)) : atInt l i = .throw .outOfRange := by
  unfold atInt atChecked
  by_cases h0 : i < 0
  · rw [if_pos h0]
  · rw [if_neg h0, List.getElem?_eq_none (by omega)]

theorem modifyAll_ok {α} (f : Int → α → Res α) (g : Int → α → α) (is : List Int) (v : List α)
    (hnd : is.Nodup) (hin : ∀ i ∈ is, 0 ≤ i ∧ i.toNat < v.length)
    (hf : ∀ i ∈ is, ∀ x, v[i.toNat]? = some x → f i x = .ok (g i x)) :
    ∃ v', modifyAll f is v = .ok v' ∧ v'.length = v.length ∧
      ∀ k (hk : k < v'.length) (hk' : k < v.length), v'[k] = if (k : Int) ∈ is then g k v[k] else v[k] := by
  induction is generalizing v with
  | nil => exact ⟨v, rfl, rfl, by simp⟩
  | cons i is ih =>
    obtain ⟨hi0, hi1⟩ := hin i (by simp)
    have hnd' := List.nodup_cons.mp hnd
    obtain ⟨v', h1, h2, h3⟩ := ih (v.set i.toNat (g i v[i.toNat])) hnd'.2
      (fun j hj => by simpa using hin j (by simp [hj]))
      (fun j hj x hx => by
        have hji : j ≠ i := fun h => hnd'.1 (h ▸ hj)
        have := hin j (by simp [hj])
        rw [List.getElem?_set, if_neg (by omega)] at hx
        exact hf j (by simp [hj]) x hx)
    refine ⟨v', ?_, by simpa using h2, ?_⟩
    · simp only [modifyAll]
      rw [atInt_ok v i hi0 hi1, Res.ok_bind, hf i (by simp) _ (List.getElem?_eq_getElem hi1), Res.ok_bind, h1]
    · intro k hk hk'
      rw [h3 k hk (by simpa using hk'), List.getElem_set]
      by_cases hm : (k : Int) ∈ is
      · have : (k : Int) ≠ i := fun h => hnd'.1 (h ▸ hm)
        rw [if_pos hm, if_neg (by omega), if_pos (by simp [hm])]
      · rw [if_neg hm]
        by_cases he : i.toNat = k
        · have : (k : Int) = i := by omega
          subst this
          simp
        · rw [if_neg he, if_neg (by simp only [List.mem_cons, not_or]; exact ⟨by omega, hm⟩)]

theorem irange_nodup' (s e : Int) : (irange s e).Nodup := irange_nodup s e

/-- In whatever order the bodies run, the result is the element-wise update. -/
theorem modifyAll_perm {α} (f : Int → α → Res α) (g : Int → α → α) (order : List Int) (v : List α)
    (hp : order.Perm (irange 0 v.length))
    (hf : ∀ (k : Nat) x, v[k]? = some x → f k x = .ok (g k x)) :
    modifyAll f order v = .ok (v.mapIdx fun k x => g k x) := by
  have hmem : ∀ i, i ∈ order ↔ 0 ≤ i ∧ i < v.length := fun i => by rw [hp.mem_iff, mem_irange]
  obtain ⟨v', h1, h2, h3⟩ := modifyAll_ok f g order v (hp.nodup_iff.mpr (irange_nodup _ _))
    (fun i hi => by have := (hmem i).mp hi; omega)
    (fun i hi x hx => by
      have := (hmem i).mp hi
      have h := hf i.toNat x hx
      rwa [Int.toNat_of_nonneg this.1] at h)
  rw [h1]
  congr 1
  apply List.ext_getElem
  · simp [h2]
  · intro k hk hk'
    simp only [List.length_mapIdx] at hk'
    rw [h3 k hk hk', if_pos ((hmem k).mpr ⟨by omega, by omega⟩)]
    simp

end CRU
