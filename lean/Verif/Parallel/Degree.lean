import Verif.Parallel.Props
/-
  C05 with the loop called as programs do, through a `DegreeOfParallelism` (parallelism.hpp:25-50).
-/
namespace CRU.Parallel

/-- C05: whatever thread count a program asks for, `DegreeOfParallelism` throws exactly if it is less than one, and a static loop with the degree
that comes out visits each index of the range exactly once, in every interleaving. -/
theorem C05_with_degree (n s e : Int) (hn : -2 ^ 31 ≤ n ∧ n < 2 ^ 31) (hs : InI64 s) (he : InI64 e) (hsz : InI64 (e - s)) (hse : s ≤ e) :
    (mkDegree n = .throw .invalidArgument ∧ n < 1) ∨
    ∃ threads, mkDegree n = .ok threads ∧ threads = n ∧ ∃ ws, staticIndexLoop .async threads s e = .ok ws ∧ (ws.length : Int) ≤ n ∧
      ∀ tr, Interleaving ws tr → ∀ i : Int, (tr.map (·.index)).count i = if s ≤ i ∧ i < e then 1 else 0 := by
  by_cases h : n ≥ 1
  · right
    refine ⟨n, by simp [mkDegree, h], rfl, ?_⟩
    obtain ⟨ws, h1, h2, h3, -⟩ := C05_static_index_loop .async n s e hs he (by unfold InI64; omega) hsz h hse (by intro t ht; exact ht)
    exact ⟨ws, h1, h2, fun tr htr => (h3 tr htr).1⟩
  · left
    exact ⟨by simp [mkDegree, h], by omega⟩

example : mkDegree 0 = .throw .invalidArgument ∧ mkDegree 8 = .ok 8 := by decide

end CRU.Parallel
