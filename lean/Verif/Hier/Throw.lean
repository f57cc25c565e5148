import Verif.Hier.Props
import Verif.Distances.Throw
/-
  C112, hierarchical clustering with a distance function that may throw. The function is only called while the distance matrix is built.
-/
namespace CRU.Hier.Throw
open CRU.Parallel CRU.Distances CRU.Distances.Throw
set_option linter.unusedSectionVars false

variable {A D ε : Type} [LinearOrder D] [OrderTop D] [Zero D]

/-! ### Model -/

/-- simple_hierarchical_clustering.hpp:689-701 `IndexCluster`. -/
def IndexClusterFnRun (b : Backend) (threads : Int) (s : Strategy) (bound : D) (data : List A) (d : A → A → Except ε D)
    (r : Res (Except ε (List (List Nat) × D))) : Prop :=
  ∃ rm, Distances.Throw.SelfMatrix b threads data d rm ∧
    match rm with
    | .ok (.ok m) => ∃ r', IndexClusterRun ⟨b, threads, s, m, bound⟩ r' ∧ r = (r' >>= fun x => .ok (.ok x))
    | .ok (.error x) => r = .ok (.error x)
    | .throw e => r = .throw e
    | .ub => r = .ub

/-- simple_hierarchical_clustering.hpp:708-720 `Cluster`. -/
def ClusterRun (b : Backend) (threads : Int) (s : Strategy) (bound : D) (data : List A) (d : A → A → Except ε D)
    (r : Res (Except ε (List (List A) × D))) : Prop :=
  ∃ rm, Distances.Throw.SelfMatrix b threads data d rm ∧
    match rm with
    | .ok (.ok m) => ∃ r', ClusterMatrixRun data ⟨b, threads, s, m, bound⟩ r' ∧ r = (r' >>= fun x => .ok (.ok x))
    | .ok (.error x) => r = .ok (.error x)
    | .throw e => r = .throw e
    | .ub => r = .ub

/-! ### Theorems -/

/-- C112, hierarchical clustering by a distance function (of elements and of indices): either the function returned on all pairs i < j, and the call
behaves as with the total function that has these values (C33); or it threw on some pair, and the call throws what it threw on one of them, the first
in lexicographic order on one thread or with `std::async`. -/
theorem C112_hierarchical (b : Backend) (threads : Int) (s : Strategy) (bound : D) (data : List A) (d : A → A → Except ε D)
    (hI : InI64 data.length) (hth : InI64 threads) (h1 : 1 ≤ threads) (htid : GoodTid b threads) :
    (∀ r, ClusterRun b threads s bound data d r →
      ((∀ i j (h : i < j) (hj : j < data.length), Returns (d data[i] data[j])) ∧
        ∃ r', r = (r' >>= fun x => .ok (.ok x)) ∧ Hier.ClusterRun b threads s bound data (total d) r') ∨
      ∃ i j x, ∃ (h : i < j) (hj : j < data.length), d data[i] data[j] = .error x ∧ r = .ok (.error x) ∧
        (threads = 1 ∨ b = .async → ∀ i' j' (h' : i' < j') (hj' : j' < data.length), i' < i ∨ (i' = i ∧ j' < j) → Returns (d data[i'] data[j']))) ∧
    (∀ r, IndexClusterFnRun b threads s bound data d r →
      ((∀ i j (h : i < j) (hj : j < data.length), Returns (d data[i] data[j])) ∧
        ∃ r', r = (r' >>= fun x => .ok (.ok x)) ∧ Hier.IndexClusterFnRun b threads s bound data (total d) r') ∨
      ∃ i j x, ∃ (h : i < j) (hj : j < data.length), d data[i] data[j] = .error x ∧ r = .ok (.error x) ∧
        (threads = 1 ∨ b = .async → ∀ i' j' (h' : i' < j') (hj' : j' < data.length), i' < i ∨ (i' = i ∧ j' < j) → Returns (d data[i'] data[j']))) := by
  have hm : ∀ rm, Distances.Throw.SelfMatrix b threads data d rm →
      ((∀ i j (h : i < j) (hj : j < data.length), Returns (d data[i] data[j])) ∧
        ∃ m, rm = .ok (.ok m) ∧ Distances.SelfMatrix b threads data (total d) (.ok m)) ∨
      ∃ i j x, ∃ (h : i < j) (hj : j < data.length), d data[i] data[j] = .error x ∧ rm = .ok (.error x) ∧
        (threads = 1 ∨ b = .async → ∀ i' j' (h' : i' < j') (hj' : j' < data.length), i' < i ∨ (i' = i ∧ j' < j) → Returns (d data[i'] data[j'])) := by
    intro rm hrm
    rcases C107_self_matrix b threads data d hI hth h1 (htid _) rm hrm with h | ⟨i, j, x, hij, hj, k1, k2, k3, k4⟩
    · exact .inl h
    · refine .inr ⟨i, j, x, hij, hj, k1, k2, fun hb i' j' h' hj' ho => ?_⟩
      rcases ho with ho | ⟨rfl, ho⟩
      · exact k4 hb i' j' ho h' hj'
      · exact k3 j' h' ho
  constructor
  · rintro r ⟨rm, hrm, hr⟩
    rcases hm rm hrm with ⟨k1, m, rfl, k2⟩ | ⟨i, j, x, hij, hj, k1, rfl, k3⟩
    · obtain ⟨r', k3, rfl⟩ := hr
      exact .inl ⟨k1, r', rfl, _, k2, k3⟩
    · exact .inr ⟨i, j, x, hij, hj, k1, hr, k3⟩
  · rintro r ⟨rm, hrm, hr⟩
    rcases hm rm hrm with ⟨k1, m, rfl, k2⟩ | ⟨i, j, x, hij, hj, k1, rfl, k3⟩
    · obtain ⟨r', k3, rfl⟩ := hr
      exact .inl ⟨k1, r', rfl, _, k2, k3⟩
    · exact .inr ⟨i, j, x, hij, hj, k1, hr, k3⟩

/-- C112, hierarchical clustering, the result: with distances that are never negative, clusters that are returned are a partition of the data that is
maximal for the answers of the distance function, of bounded diameter (complete link), the connected components (single link). -/
theorem C112_hierarchical_result (b : Backend) (threads : Int) (s : Strategy) (bound : D) (data : List A) (d : A → A → Except ε D)
    (hne : data ≠ []) (hI : InI64 data.length) (hth : InI64 threads) (h1 : 1 ≤ threads) (htid : GoodTid b threads)
    (hd : ∀ x y v, d x y = .ok v → 0 ≤ v) (r : Res (Except ε (List (List A) × D))) (hr : ClusterRun b threads s bound data d r) :
    (∃ (m : Nat → Nat → D) (ics : List (List Nat)) (dist : D), r = .ok (.ok (dataOf data ics, dist)) ∧
      (∀ i j (_ : i < j) (hj : j < data.length), d data[i] data[j] = .ok (m i j) ∧ m j i = m i j) ∧
      IsPartition data.length ics ∧ Maximal s m bound ics ∧ (s = .completeLink → BoundedDiameter m bound ics) ∧
      (s = .singleLink → ∀ i j, i < data.length → j < data.length → (Together ics i j ↔ Linked data.length m bound i j)) ∧
      (dataOf data ics).flatten.Perm data ∧ ∀ c ∈ dataOf data ics, c ≠ []) ∨
    ∃ i j x, ∃ (h : i < j) (hj : j < data.length), d data[i] data[j] = .error x ∧ r = .ok (.error x) := by
  rcases (C112_hierarchical b threads s bound data d hI hth h1 htid).1 r hr with ⟨k1, r', rfl, k2⟩ | ⟨i, j, x, hij, hj, k1, k2, -⟩
  · left
    obtain ⟨m, ics, dist, rfl, g1, g2⟩ := C33_cluster b threads s bound data (total d) hne hI hth htid (fun x y => by
      unfold total
      cases hxy : d x y with
      | ok v => exact hd x y v hxy
      | error e => exact le_refl _) r' k2
    refine ⟨m, ics, dist, rfl, fun i j h hj => ?_, g2⟩
    obtain ⟨e1, e2⟩ := g1 i j h hj
    obtain ⟨v, hv⟩ := k1 i j h hj
    have : total d data[i] data[j] = v := by unfold total; rw [hv]
    rw [this] at e1 e2
    rw [e1, e2]
    exact ⟨hv, rfl⟩
  · exact .inr ⟨i, j, x, hij, hj, k1, k2⟩

/-- Runs exist. -/
theorem C112_hierarchical_exists (b : Backend) (threads : Int) (s : Strategy) (bound : D) (data : List A) (d : A → A → Except ε D)
    (hne : data ≠ []) (hI : InI64 data.length) (hth : InI64 threads) (h1 : 1 ≤ threads) (htid : GoodTid b threads)
    (hd : ∀ x y v, d x y = .ok v → 0 ≤ v) : ∃ r, ClusterRun b threads s bound data d r := by
  obtain ⟨rm, hrm⟩ := (C107_runs_exist b threads data data d d hI hth).2.1
  have hpos : 0 < data.length := List.length_pos_iff.mpr hne
  rcases C107_self_matrix b threads data d hI hth h1 (htid _) rm hrm with ⟨k1, m, rfl, k2⟩ | ⟨i, j, x, hij, hj, -, rfl, -⟩
  · obtain ⟨m', e, g1, g2, g3, g4⟩ := C52_self_matrix b threads data (total d) hI hth _ k2
    cases e
    have hnn : ∀ x y, 0 ≤ total d x y := fun x y => by
      unfold total
      cases hxy : d x y with
      | ok v => exact hd x y v hxy
      | error e => exact le_refl _
    obtain ⟨_, cs, dd, hr⟩ := C33_terminates data.length (⟨b, threads, s, m, bound⟩ : Args D) hpos ⟨g1, g2, fun i j hi hj => by
      rcases Nat.lt_trichotomy i j with h | h | h
      · rw [(g4 i j h hj).1]; exact hnn _ _
      · subst h; rw [g3 i hi]
      · rw [(g4 j i h hi).2]; exact hnn _ _⟩ hI hth htid
    refine ⟨_, _, hrm, (Res.ok (cs, dd) >>= fun x => elementClusters data x.1 >>= fun cs => pure (cs, x.2)), ?_, rfl⟩
    unfold ClusterMatrixRun
    rw [if_neg hne, if_neg (by rw [g1, g2]; simp)]
    exact ⟨_, hr, rfl⟩
  · exact ⟨.ok (.error x), _, hrm, rfl⟩

/-! ### Non-vacuity -/

/-- A pair throws (C107's `demo` throws its first argument where the second is 0): the exception that comes out is 5, of the first such pair. -/
example : ∃ r, ClusterRun .async 3 .singleLink (3 : ℕ∞) [5, 4, 0, 7] Distances.Throw.demo r ∧ r = .ok (.error 5) := by
  obtain ⟨r, hr⟩ := C112_hierarchical_exists .async 3 .singleLink (3 : ℕ∞) [5, 4, 0, 7] Distances.Throw.demo (by simp) (by decide) (by decide)
    (by decide) (fun _ _ h => h) (fun _ _ _ _ => zero_le)
  refine ⟨r, hr, ?_⟩
  rcases (C112_hierarchical .async 3 .singleLink (3 : ℕ∞) [5, 4, 0, 7] Distances.Throw.demo (by decide) (by decide) (by decide)
    (fun _ _ h => h)).1 r hr with ⟨h, -⟩ | ⟨i, j, x, hij, hj, k1, rfl, k3⟩
  · obtain ⟨v, hv⟩ := h 0 2 (by omega) (by simp); cases hv
  · have hi : i = 0 := by
      by_contra hi
      obtain ⟨v, hv⟩ := k3 (.inr rfl) 0 2 (by omega) (by simp) (by omega)
      cases hv
    subst hi
    have : ∀ y, Distances.Throw.demo 5 y = .error x → x = 5 := by
      intro y h
      unfold Distances.Throw.demo at h
      split at h
      · cases h; rfl
      · cases h
    rw [this _ k1]

end CRU.Hier.Throw
