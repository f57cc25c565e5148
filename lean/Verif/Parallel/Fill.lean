import Verif.Parallel.Lemmas
/-
  Filling a preallocated array from concurrently running loop bodies.
-/
namespace CRU

/-- `v[i] = x` on a vector: undefined outside. -/
def setRaw {α} (l : List α) (i : Int) (x : α) : Res (List α) :=
  if 0 ≤ i ∧ i.toNat < l.length then .ok (l.set i.toNat x) else .ub

/-- Loop bodies `v[i - s] = g(i)` executed in the order `is`. -/
def fillAll {α} (g : Int → Res α) (s : Int) : List Int → List α → Res (List α)
  | [], v => .ok v
  | i :: is, v => do
    let x ← g i
    let v' ← setRaw v (i - s) x
    fillAll g s is v'

theorem fillAll_ok {α} (g : Int → α) (s e : Int) (is : List Int) (v : List α)
    (hlen : v.length = (e - s).toNat) (his : ∀ i ∈ is, s ≤ i ∧ i < e) :
    ∃ v', fillAll (fun i => .ok (g i)) s is v = .ok v' ∧ v'.length = v.length ∧
      ∀ k (hk : k < v'.length) (hk' : k < v.length), v'[k] = if s + k ∈ is then g (s + k) else v[k] := by
  induction is generalizing v with
  | nil => exact ⟨v, rfl, rfl, by simp⟩
  | cons i is ih =>
    have hi := his i (by simp)
    have hset : setRaw v (i - s) (g i) = .ok (v.set (i - s).toNat (g i)) := by
      unfold setRaw; rw [if_pos ⟨by omega, by omega⟩]
    obtain ⟨v', h1, h2, h3⟩ := ih (v.set (i - s).toNat (g i)) (by simpa using hlen) (fun j hj => his j (by simp [hj]))
    refine ⟨v', ?_, by simpa using h2, ?_⟩
    · simp only [fillAll, Res.ok_bind, hset, h1]
    · intro k hk hk'
      rw [h3 k hk (by simpa using hk'), List.getElem_set]
      by_cases hm : s + (k : Int) ∈ is
      · simp [hm]
      · simp only [hm, if_false, List.mem_cons, or_false]
        by_cases he : s + (k : Int) = i
        · rw [if_pos (by omega), if_pos he, he]
        · rw [if_neg (by omega), if_neg he]

/-- Whatever the order in which the indices of `[s, e)` are processed, the array ends up holding `g s, …, g (e-1)`. -/
theorem fillAll_irange {α} (g : Int → α) (s e : Int) (is : List Int) (v : List α)
    (hlen : v.length = (e - s).toNat) (hp : is.Perm (irange s e)) :
    fillAll (fun i => .ok (g i)) s is v = .ok ((irange s e).map g) := by
  obtain ⟨v', h1, h2, h3⟩ := fillAll_ok g s e is v hlen (fun i hi => mem_irange.mp (hp.subset hi))
  rw [h1]
  congr 1
  apply List.ext_getElem
  · simp [h2, hlen, length_irange]
  · intro k hk hk'
    rw [h3 k hk (by omega)]
    simp only [List.length_map, length_irange] at hk'
    rw [if_pos (hp.symm.subset (mem_irange.mpr ⟨by omega, by omega⟩))]
    simp [irange_get]

theorem fillAll_congr {α} (g h : Int → Res α) (s : Int) (is : List Int) (v : List α) (hg : ∀ i ∈ is, g i = h i) :
    fillAll g s is v = fillAll h s is v := by
  induction is generalizing v with
  | nil => rfl
  | cons i is ih =>
    simp only [fillAll]
    rw [hg i (by simp)]
    congr 1
    funext x
    congr 1
    funext v'
    exact ih v' (fun j hj => hg j (by simp [hj]))

end CRU
