import Verif.Hier.Props
/-
  C33 for the overloads that take data: `IndexCluster` and `Cluster` (simple_hierarchical_clustering.hpp:689-720).
-/
namespace CRU.Hier
open CRU.Distances CRU.Parallel

variable {D : Type} [LinearOrder D] [OrderTop D] [Zero D]

/-- C33: `IndexCluster`, for every data set and every distance function that is never negative: the indices of the data are
partitioned as in the statements on matrices, for the distances d(x_i, x_j), i < j. -/
theorem C33_index_cluster {A : Type} (b : Backend) (threads : Int) (s : Strategy) (bound : D) (data : List A) (d : A → A → D)
    (hne : data ≠ []) (hI : InI64 data.length) (hth : InI64 threads) (htid : GoodTid b threads) (hd : ∀ x y, 0 ≤ d x y)
    (r : Res (List (List Nat) × D)) (hr : IndexClusterFnRun b threads s bound data d r) :
    ∃ (m : Nat → Nat → D) (ics : List (List Nat)) (dist : D), r = .ok (ics, dist) ∧
      (∀ i j (_ : i < j) (hj : j < data.length), m i j = d data[i] data[j] ∧ m j i = d data[i] data[j]) ∧
      IsPartition data.length ics ∧ Maximal s m bound ics ∧ (s = .completeLink → BoundedDiameter m bound ics) ∧
      (s = .singleLink → ∀ i j, i < data.length → j < data.length → (Together ics i j ↔ Linked data.length m bound i j)) := by
  obtain ⟨rm, hsm, hr⟩ := hr
  obtain ⟨m, rfl, h1, h2, h3, h4⟩ := C52_self_matrix b threads data d hI hth rm hsm
  dsimp only at hr
  have hpos : 0 < data.length := List.length_pos_iff.mpr hne
  have hval : ∀ i j, i < data.length → j < data.length → 0 ≤ m.val i j ∧ m.val i j = m.val j i := by
    intro i j hi hj
    rcases Nat.lt_trichotomy i j with h | h | h
    · obtain ⟨e1, e2⟩ := h4 i j h hj
      rw [e1, e2]; exact ⟨hd _ _, rfl⟩
    · subst h
      rw [h3 i hi]; exact ⟨le_refl _, rfl⟩
    · obtain ⟨e1, e2⟩ := h4 j i h hi
      rw [e1, e2]; exact ⟨hd _ _, rfl⟩
  have hG : Call.Good data.length (⟨b, threads, s, m, bound⟩ : Args D) :=
    ⟨hpos, ⟨h1, h2, fun i j hi hj => (hval i j hi hj).1⟩, fun i j hi hj => (hval i j hi hj).2, hI, hth, htid⟩
  obtain ⟨cs, dd, rfl, hpart⟩ := C33_partition data.length _ hpos hG.mat hI hth htid r hr
  obtain ⟨cs2, dd2, e2, hmax⟩ := C33_maximal data.length _ hG _ hr
  cases e2
  refine ⟨m.val, cs, dd, rfl, h4, hpart, hmax, ?_, ?_⟩
  · intro hs
    obtain ⟨cs3, dd3, e3, hB, _⟩ := C33_complete_link_diameter data.length _ hG hs _ hr
    cases e3
    exact hB
  · intro hs
    obtain ⟨cs3, dd3, e3, hB, _⟩ := C33_single_link_components data.length _ hG hs _ hr
    cases e3
    exact hB

/-- C33: both refuse an empty data set. -/
theorem C33_no_data_throws {A : Type} (b : Backend) (threads : Int) (s : Strategy) (bound : D) (d : A → A → D) (hth : InI64 threads) :
    (∀ r, IndexClusterFnRun b threads s bound [] d r → r = .throw .invalidArgument) ∧
    ∀ r, ClusterRun b threads s bound [] d r → r = .throw .invalidArgument := by
  have hI : InI64 (([] : List A).length : Int) := by unfold InI64; simp
  constructor
  · rintro r ⟨rm, hsm, hr⟩
    obtain ⟨m, rfl, h1, h2, -⟩ := C52_self_matrix b threads [] d hI hth rm hsm
    exact C33_bad_matrix_throws _ (.inr h1) r hr
  · rintro r ⟨rm, hsm, hr⟩
    obtain ⟨m, rfl, h1, h2, -⟩ := C52_self_matrix b threads [] d hI hth rm hsm
    dsimp only at hr
    unfold ClusterMatrixRun at hr
    rwa [if_pos rfl] at hr

/-- A run as in `C33_index_cluster`. -/
example (s : Strategy) : ∃ r, IndexClusterFnRun .async 4 s (3 : ℕ∞) [0, 1, 5, 9] (fun x y : Nat => (((max x y - min x y : Nat)) : ℕ∞)) r := by
  obtain ⟨rm, hrm⟩ := (C52_runs_exist .async 4 [0, 1, 5, 9] [0] (fun x y : Nat => (((max x y - min x y : Nat)) : ℕ∞))
    (fun x y : Nat => (((max x y - min x y : Nat)) : ℕ∞)) (by unfold InI64; decide) (by unfold InI64; decide)).1
  obtain ⟨m, rfl, h1, h2, _⟩ := C52_self_matrix _ _ _ _ (by unfold InI64; decide) (by unfold InI64; decide) rm hrm
  obtain ⟨_, cs, d, hr⟩ := C33_terminates 4 (⟨.async, 4, s, m, 3⟩ : Args ℕ∞) (by decide) ⟨h1, h2, fun _ _ _ _ => zero_le⟩ (by unfold InI64; decide)
    (by show InI64 4; unfold InI64; decide) (fun _ _ h => h)
  exact ⟨_, .ok m, hrm, hr⟩

/-- And on no data. -/
example : ∃ r, IndexClusterFnRun .async 4 .singleLink (3 : ℕ∞) [] (fun x y : Nat => (((max x y - min x y : Nat)) : ℕ∞)) r := by
  obtain ⟨rm, hrm⟩ := (C52_runs_exist .async 4 [] [0] (fun x y : Nat => (((max x y - min x y : Nat)) : ℕ∞))
    (fun x y : Nat => (((max x y - min x y : Nat)) : ℕ∞)) (by unfold InI64; decide) (by unfold InI64; decide)).1
  obtain ⟨m, rfl, h1, h2, _⟩ := C52_self_matrix _ _ _ _ (by unfold InI64; decide) (by unfold InI64; decide) rm hrm
  refine ⟨.throw .invalidArgument, .ok m, hrm, ?_⟩
  show IndexClusterRun _ _
  unfold IndexClusterRun
  rw [if_neg (by rw [h1, h2]; simp), if_pos (by rw [h1]; rfl)]

end CRU.Hier
