import Verif.Distances.Model
import Mathlib.Data.ENat.Basic
/-
  C31: Hausdorff distances. C52: pairwise distance matrices.
-/
namespace CRU.Distances
open CRU.Parallel
set_option linter.unusedSectionVars false

variable {A B D : Type} [LinearOrder D] [Zero D] [OrderTop D]

theorem innerMin_ok (row : Nat → Res D) (v : Nat → D) : ∀ (k j : Nat) (best : D), (∀ i, j ≤ i → i < j + k → row i = .ok (v i)) →
    ∃ c, innerMin row k j best = .ok c ∧ ∀ a, a ≤ c ↔ a ≤ best ∧ ∀ i, j ≤ i → i < j + k → a ≤ v i := by
  intro k
  induction k with
  | zero =>
    intro j best _
    exact ⟨best, rfl, fun a => ⟨fun h => ⟨h, fun i h1 h2 => by omega⟩, fun h => h.1⟩⟩
  | succ k ih =>
    intro j best h
    obtain ⟨c, h1, h2⟩ := ih (j + 1) (if v j < best then v j else best) (fun i hi hi' => h i (by omega) (by omega))
    refine ⟨c, ?_, fun a => ?_⟩
    · unfold innerMin
      rw [h j (by omega) (by omega), Res.ok_bind, h1]
    · rw [h2]
      have hm : a ≤ (if v j < best then v j else best) ↔ a ≤ best ∧ a ≤ v j := by
        split
        · rename_i hlt; exact ⟨fun h => ⟨h.trans hlt.le, h⟩, fun h => h.2⟩
        · rename_i hlt; exact ⟨fun h => ⟨h, h.trans (not_lt.mp hlt)⟩, fun h => h.1⟩
      rw [hm]
      constructor
      · rintro ⟨⟨a1, a2⟩, a3⟩
        refine ⟨a1, fun i h1 h2 => ?_⟩
        by_cases hij : i = j
        · subst hij; exact a2
        · exact a3 i (by omega) (by omega)
      · rintro ⟨a1, a2⟩
        exact ⟨⟨a1, a2 j (by omega) (by omega)⟩, fun i h1 h2 => a2 i (by omega) (by omega)⟩

theorem max_le' (a b c : D) : (if a > b then a else b) ≤ c ↔ a ≤ c ∧ b ≤ c := by
  split
  · rename_i h; exact ⟨fun hc => ⟨hc, h.le.trans hc⟩, fun hc => hc.1⟩
  · rename_i h; exact ⟨fun hc => ⟨(not_lt.mp h).trans hc, hc⟩, fun hc => hc.2⟩

theorem serialLoop_ok (n2 : Nat) (dist : Nat → Nat → Res D) (v : Nat → D) : ∀ (k i : Nat) (best : D),
    (∀ a, i ≤ a → a < i + k → innerMin (dist a) n2 0 ⊤ = .ok (v a)) →
    ∃ c, serialLoop n2 dist k i best = .ok c ∧ ∀ a, c ≤ a ↔ best ≤ a ∧ ∀ j, i ≤ j → j < i + k → v j ≤ a := by
  intro k
  induction k with
  | zero => intro i best _; exact ⟨best, rfl, fun a => ⟨fun h => ⟨h, fun j h1 h2 => by omega⟩, fun h => h.1⟩⟩
  | succ k ih =>
    intro i best h
    obtain ⟨c, h1, h2⟩ := ih (i + 1) (if v i > best then v i else best) (fun a ha ha' => h a (by omega) (by omega))
    refine ⟨c, ?_, fun a => ?_⟩
    · unfold serialLoop
      rw [h i (by omega) (by omega), Res.ok_bind, h1]
    · rw [h2, max_le']
      constructor
      · rintro ⟨⟨a1, a2⟩, a3⟩
        refine ⟨a2, fun j h1 h2 => ?_⟩
        by_cases hij : j = i
        · subst hij; exact a1
        · exact a3 j (by omega) (by omega)
      · rintro ⟨a1, a2⟩
        exact ⟨⟨a2 i (by omega) (by omega), a1⟩, fun j h1 h2 => a2 j (by omega) (by omega)⟩

theorem maxOf_le (st : List D) (a : D) : maxOf st ≤ a ↔ 0 ≤ a ∧ ∀ x ∈ st, x ≤ a := by
  unfold maxOf
  generalize (0 : D) = z
  induction st generalizing z with
  | nil => simp
  | cons x st ih =>
    rw [List.foldl_cons, ih, max_le']
    constructor
    · rintro ⟨⟨a1, a2⟩, a3⟩
      refine ⟨a2, fun y hy => ?_⟩
      rcases List.mem_cons.mp hy with rfl | hy
      · exact a1
      · exact a3 y hy
    · rintro ⟨a1, a2⟩
      exact ⟨⟨a2 x (by simp), a1⟩, fun y hy => a2 y (by simp [hy])⟩

theorem parLoop_ok (n2 : Nat) (dist : Nat → Nat → Res D) (v : Nat → D) : ∀ (tr : List Call) (st : List D),
    (∀ c ∈ tr, innerMin (dist c.index.toNat) n2 0 ⊤ = .ok (v c.index.toNat) ∧ 0 ≤ c.thread ∧ c.thread.toNat < st.length) →
    ∃ st', parLoop n2 dist tr st = .ok st' ∧
      ∀ a, (∀ x ∈ st', x ≤ a) ↔ (∀ x ∈ st, x ≤ a) ∧ ∀ c ∈ tr, v c.index.toNat ≤ a := by
  intro tr
  induction tr with
  | nil => intro st _; exact ⟨st, rfl, fun a => by simp⟩
  | cons c cs ih =>
    intro st h
    obtain ⟨h1, h2, h3⟩ := h c (by simp)
    obtain ⟨st', e, hs⟩ := ih (if v c.index.toNat > st[c.thread.toNat] then st.set c.thread.toNat (v c.index.toNat) else st)
      (fun q hq => by
        obtain ⟨q1, q2, q3⟩ := h q (by simp [hq])
        refine ⟨q1, q2, ?_⟩
        split
        · simpa using q3
        · exact q3)
    refine ⟨st', ?_, fun a => ?_⟩
    · unfold parLoop
      rw [h1, Res.ok_bind, atInt_ok st c.thread h2 h3, Res.ok_bind, e]
    · rw [hs]
      have key : (∀ x ∈ (if v c.index.toNat > st[c.thread.toNat] then st.set c.thread.toNat (v c.index.toNat) else st), x ≤ a) ↔
          (∀ x ∈ st, x ≤ a) ∧ v c.index.toNat ≤ a := by
        split
        · rename_i hgt
          constructor
          · intro hx
            have hv : v c.index.toNat ≤ a := hx _ (List.mem_set h3 _)
            refine ⟨fun x hxm => ?_, hv⟩
            obtain ⟨i, hi, rfl⟩ := List.getElem_of_mem hxm
            by_cases hic : i = c.thread.toNat
            · subst hic; exact hgt.le.trans hv
            · have hi' : i < (st.set c.thread.toNat (v c.index.toNat)).length := by simpa using hi
              have := hx (st.set c.thread.toNat (v c.index.toNat))[i] (List.getElem_mem _)
              rwa [List.getElem_set_ne (Ne.symm hic)] at this
          · rintro ⟨hx, hv⟩ x hxm
            rcases List.mem_or_eq_of_mem_set hxm with h | rfl
            · exact hx x h
            · exact hv
        · rename_i hgt
          constructor
          · intro hx
            exact ⟨hx, (not_lt.mp hgt).trans (hx _ (List.getElem_mem _))⟩
          · exact fun hx => hx.1
      rw [key]
      constructor
      · rintro ⟨⟨a1, a2⟩, a3⟩
        refine ⟨a1, fun q hq => ?_⟩
        rcases List.mem_cons.mp hq with rfl | hq
        · exact a2
        · exact a3 q hq
      · rintro ⟨a1, a2⟩
        exact ⟨⟨a1, a2 c (by simp)⟩, fun q hq => a2 q (by simp [hq])⟩

/-- Total distance table of a problem. -/
def Table (n1 n2 : Nat) (dist : Nat → Nat → Res D) (w : Nat → Nat → D) : Prop := ∀ i j, i < n1 → j < n2 → dist i j = .ok (w i j)

/-- Both versions compute the number whose upper bounds are the common upper bounds of 0 and the row minima. -/
theorem serial_spec {n1 n2 : Nat} {dist : Nat → Nat → Res D} {w : Nat → Nat → D} (h : Table n1 n2 dist w) :
    ∃ v : Nat → D, (∀ i, i < n1 → ∀ a, a ≤ v i ↔ ∀ j, j < n2 → a ≤ w i j) ∧
      (∀ i, i < n1 → innerMin (dist i) n2 0 ⊤ = .ok (v i)) ∧
      ∃ c, serialLoop n2 dist n1 0 0 = .ok c ∧ ∀ a, c ≤ a ↔ 0 ≤ a ∧ ∀ i, i < n1 → v i ≤ a := by
  have hv : ∀ i : Nat, ∃ c, i < n1 → (innerMin (dist i) n2 0 ⊤ = .ok c ∧ ∀ a, a ≤ c ↔ ∀ j, j < n2 → a ≤ w i j) := by
    intro i
    by_cases hi : i < n1
    · obtain ⟨c, h1, h2⟩ := innerMin_ok (dist i) (w i) n2 0 ⊤ (fun j _ hj => h i j hi (by omega))
      refine ⟨c, fun _ => ⟨h1, fun a => ?_⟩⟩
      rw [h2]
      exact ⟨fun h j hj => h.2 j (by omega) (by omega), fun h => ⟨le_top, fun j _ hj => h j (by omega)⟩⟩
    · exact ⟨0, fun h => absurd h hi⟩
  choose v hv using hv
  refine ⟨v, fun i hi => (hv i hi).2, fun i hi => (hv i hi).1, ?_⟩
  obtain ⟨c, h1, h2⟩ := serialLoop_ok n2 dist v n1 0 0 (fun i _ hi => (hv i (by omega)).1)
  refine ⟨c, h1, fun a => ?_⟩
  rw [h2]
  exact ⟨fun h => ⟨h.1, fun i hi => h.2 i (by omega) (by omega)⟩, fun h => ⟨h.1, fun i _ hi => h.2 i (by omega)⟩⟩

theorem par_eq_serial {b : Backend} {threads : Int} {n1 n2 : Nat} {dist : Nat → Nat → Res D} {w : Nat → Nat → D}
    (h : Table n1 n2 dist w) (hI : InI64 n1) (hth : InI64 threads) (h1 : 1 ≤ threads)
    (htid : ∀ t : Nat, (t : Int) < min threads n1 → (b.tid t : Int) < min threads n1) {r : Res D}
    (hr : ParRun b threads n1 n2 dist r) : r = serialLoop n2 dist n1 0 0 := by
  obtain ⟨v, _, hv, c, hc, hca⟩ := serial_spec h
  obtain ⟨ws, tr, hws, htr, rfl⟩ := hr
  obtain ⟨ws', hws', _, hcall, _⟩ := C05_static_index_loop b threads 0 n1 (by decide) hI hth (by simpa using hI) h1 (by omega)
    (by simpa using htid)
  rw [hws] at hws'
  cases hws'
  obtain ⟨hcount, hthr⟩ := hcall tr htr
  have hmem : ∀ i : Nat, i < n1 ↔ ∃ q ∈ tr, q.index = (i : Int) := by
    intro i
    have := hcount (i : Int)
    constructor
    · intro hi
      rw [if_pos (by omega)] at this
      have hm : (i : Int) ∈ tr.map (·.index) := List.count_pos_iff.mp (by omega)
      rw [List.mem_map] at hm
      exact hm
    · rintro ⟨q, hq, hqi⟩
      by_contra hn
      rw [if_neg (by omega)] at this
      exact List.count_eq_zero.mp this (List.mem_map.mpr ⟨q, hq, hqi⟩)
  have hidx : ∀ q ∈ tr, 0 ≤ q.index ∧ q.index < n1 := by
    intro q hq
    have := hcount q.index
    have hpos : 0 < (tr.map (·.index)).count q.index := List.count_pos_iff.mpr (List.mem_map.mpr ⟨q, hq, rfl⟩)
    by_contra hn
    rw [if_neg hn] at this
    omega
  obtain ⟨st, e, hst⟩ := parLoop_ok n2 dist v tr (List.replicate threads.toNat 0) (by
    intro q hq
    have h0 := hidx q hq
    have ht := hthr q hq
    refine ⟨hv _ (by omega), ht.1, ?_⟩
    rw [List.length_replicate]
    omega)
  rw [e, Res.ok_bind, Res.pure_eq, hc]
  congr 1
  have : ∀ a, maxOf st ≤ a ↔ c ≤ a := by
    intro a
    rw [maxOf_le, hst, hca]
    constructor
    · rintro ⟨a1, _, a3⟩
      refine ⟨a1, fun i hi => ?_⟩
      obtain ⟨q, hq, hqi⟩ := (hmem i).mp hi
      have := a3 q hq
      rwa [hqi, Int.toNat_natCast] at this
    · rintro ⟨a1, a2⟩
      refine ⟨a1, ?_, ?_⟩
      · intro x hx
        rw [List.mem_replicate] at hx
        rw [hx.2]; exact a1
      · intro q hq
        have := hidx q hq
        exact a2 _ (by omega)
  exact le_antisymm ((this c).mpr (le_refl _)) ((this (maxOf st)).mp (le_refl _))

theorem fn_table (xs : List A) (ys : List B) (d : A → B → D) : ∃ w, Table xs.length ys.length (fnDist xs ys d) w ∧
    ∀ i j (hi : i < xs.length) (hj : j < ys.length), w i j = d xs[i] ys[j] := by
  refine ⟨fun i j => if h : i < xs.length ∧ j < ys.length then d xs[i] ys[j] else 0, ?_, ?_⟩
  · intro i j hi hj
    unfold fnDist atRaw
    rw [List.getElem?_eq_getElem hi, List.getElem?_eq_getElem hj]
    dsimp only
    rw [Res.ok_bind, Res.ok_bind, dif_pos ⟨hi, hj⟩]
    rfl
  · intro i j hi hj
    dsimp only
    rw [dif_pos ⟨hi, hj⟩]

/-- The serial computation gives the directed Hausdorff distance. -/
theorem serial_hausdorff {n1 n2 : Nat} {dist : Nat → Nat → Res D} {w : Nat → Nat → D} (h : Table n1 n2 dist w) (h1 : 0 < n1)
    (h2 : 0 < n2) (hpos : ∀ i j, i < n1 → j < n2 → 0 ≤ w i j) :
    ∃ c, serialLoop n2 dist n1 0 0 = .ok c ∧ (∀ i, i < n1 → ∃ j, j < n2 ∧ w i j ≤ c) ∧ ∃ i, i < n1 ∧ ∀ j, j < n2 → c ≤ w i j := by
  obtain ⟨v, hv, _, c, hc, hca⟩ := serial_spec h
  refine ⟨c, hc, ?_, ?_⟩
  · intro i hi
    have hvc : v i ≤ c := ((hca c).mp (le_refl _)).2 i hi
    -- the minimum is attained
    by_contra hn
    push Not at hn
    have : ∃ a, c < a ∧ ∀ j, j < n2 → a ≤ w i j := by
      clear hv hca hvc hc
      have main : ∀ k, k ≤ n2 → 0 < k → ∃ a, c < a ∧ ∀ j, j < k → a ≤ w i j := by
        intro k
        induction k with
        | zero => intro _ hk; omega
        | succ k ih =>
          intro hk _
          by_cases hk0 : k = 0
          · subst hk0
            exact ⟨w i 0, hn 0 h2, fun j hj => by
              have h0 : j = 0 := by omega
              rw [h0]⟩
          · obtain ⟨a, ha, haj⟩ := ih (by omega) (by omega)
            refine ⟨min a (w i k), lt_min ha (hn k (by omega)), fun j hj => ?_⟩
            by_cases hjk : j = k
            · subst hjk; exact min_le_right _ _
            · exact (min_le_left _ _).trans (haj j (by omega))
      exact main n2 (le_refl _) h2
    obtain ⟨a, ha, haj⟩ := this
    exact absurd (((hv i hi a).mpr haj).trans hvc) (not_le.mpr ha)
  · -- the maximum is attained
    by_contra hn
    push Not at hn
    have hlt : ∀ i, i < n1 → v i < c := by
      intro i hi
      obtain ⟨j, hj, hjc⟩ := hn i hi
      exact lt_of_le_of_lt (((hv i hi (v i)).mp (le_refl _)) j hj) hjc
    have h0 : 0 ≤ v 0 := (hv 0 h1 0).mpr (fun j hj => hpos 0 j h1 hj)
    have main : ∀ k, k ≤ n1 → 0 < k → ∃ a, a < c ∧ 0 ≤ a ∧ ∀ i, i < k → v i ≤ a := by
      intro k
      induction k with
      | zero => intro _ hk; omega
      | succ k ih =>
        intro hk _
        by_cases hk0 : k = 0
        · subst hk0
          exact ⟨v 0, hlt 0 h1, h0, fun j hj => by
              have h0 : j = 0 := by omega
              rw [h0]⟩
        · obtain ⟨a, ha, ha0, haj⟩ := ih (by omega) (by omega)
          refine ⟨max a (v k), max_lt ha (hlt k (by omega)), ha0.trans (le_max_left _ _), fun j hj => ?_⟩
          by_cases hjk : j = k
          · subst hjk; exact le_max_right _ _
          · exact (haj j (by omega)).trans (le_max_left _ _)
    obtain ⟨a, ha, ha0, hai⟩ := main n1 (le_refl _) h1
    exact absurd ((hca a).mpr ⟨ha0, hai⟩) (not_le.mpr ha)

/-- C31: for non-empty sets and a non-negative distance function, `ComputeDistance` returns the largest distance from an
element of the first set to its closest element of the second, for every degree of parallelism, backend and schedule. -/
theorem C31_hausdorff (b : Backend) (threads : Int) (xs : List A) (ys : List B) (d : A → B → D) (hx : xs ≠ []) (hy : ys ≠ [])
    (hd : ∀ x ∈ xs, ∀ y ∈ ys, 0 ≤ d x y) (hI : InI64 xs.length) (hth : InI64 threads) (h1 : 1 ≤ threads)
    (htid : ∀ t : Nat, (t : Int) < min threads xs.length → (b.tid t : Int) < min threads xs.length) (r : Res D)
    (hr : Hausdorff b threads xs ys d r) : ∃ c, r = .ok c ∧ IsHausdorff d xs ys c := by
  obtain ⟨w, ht, hw⟩ := fn_table xs ys d
  have hs : r = serialLoop ys.length (fnDist xs ys d) xs.length 0 0 := by
    unfold Hausdorff at hr
    split at hr
    · unfold HausdorffParallel at hr
      rw [if_neg hx, if_neg hy] at hr
      exact par_eq_serial ht hI hth h1 htid hr
    · rw [hr]; unfold hausdorffSerial; rw [if_neg hx, if_neg hy]
  obtain ⟨c, hc, a1, a2⟩ := serial_hausdorff ht (List.length_pos_iff.mpr hx) (List.length_pos_iff.mpr hy)
    (fun i j hi hj => by rw [hw i j hi hj]; exact hd _ (List.getElem_mem _) _ (List.getElem_mem _))
  refine ⟨c, hs.trans hc, ?_, ?_⟩
  · intro x hxm
    obtain ⟨i, hi, rfl⟩ := List.getElem_of_mem hxm
    obtain ⟨j, hj, hle⟩ := a1 i hi
    exact ⟨ys[j], List.getElem_mem _, by rw [← hw i j hi hj]; exact hle⟩
  · obtain ⟨i, hi, hle⟩ := a2
    refine ⟨xs[i], List.getElem_mem _, fun y hym => ?_⟩
    obtain ⟨j, hj, rfl⟩ := List.getElem_of_mem hym
    rw [← hw i j hi hj]
    exact hle j hj

/-- The specification determines the value. -/
theorem IsHausdorff.unique {d : A → B → D} {xs : List A} {ys : List B} {c c' : D} (h : IsHausdorff d xs ys c)
    (h' : IsHausdorff d xs ys c') : c = c' := by
  have key : ∀ c c' : D, IsHausdorff d xs ys c → IsHausdorff d xs ys c' → c ≤ c' := by
    intro c c' h h'
    obtain ⟨x, hx, hxc⟩ := h.2
    obtain ⟨y, hy, hyc⟩ := h'.1 x hx
    exact (hxc y hy).trans hyc
  exact le_antisymm (key _ _ h h') (key _ _ h' h)

/-- C31: with a distance matrix of the right size, the matrix version gives the same outcome as the function version with that
distance, for every degree of parallelism, backend and schedule; every run of either is the serial outcome, also for distance
functions with negative values. -/
theorem C31_all_versions_agree (b b' : Backend) (threads threads' : Int) (xs : List A) (ys : List B) (d : A → B → D) (m : Mat D)
    (hm : m.rows = xs.length ∧ m.cols = ys.length)
    (hmv : ∀ i j (hi : i < xs.length) (hj : j < ys.length), m.val i j = d xs[i] ys[j])
    (hI : InI64 xs.length) (hth : InI64 threads) (h1 : 1 ≤ threads) (hth' : InI64 threads') (h1' : 1 ≤ threads')
    (htid : ∀ t : Nat, (t : Int) < min threads xs.length → (b.tid t : Int) < min threads xs.length)
    (htid' : ∀ t : Nat, (t : Int) < min threads' xs.length → (b'.tid t : Int) < min threads' xs.length) (r r' : Res D)
    (hr : Hausdorff b threads xs ys d r) (hr' : HausdorffM b' threads' xs ys m r') :
    r = hausdorffSerial xs ys d ∧ r' = hausdorffSerial xs ys d := by
  obtain ⟨w, ht, hw⟩ := fn_table xs ys d
  have htm : Table xs.length ys.length m.get w := by
    intro i j hi hj
    unfold Mat.get
    rw [if_pos (by omega), hmv i j hi hj, hw i j hi hj]
  have hser : ∀ (dist dist' : Nat → Nat → Res D), Table xs.length ys.length dist w → Table xs.length ys.length dist' w →
      serialLoop ys.length dist xs.length 0 0 = serialLoop ys.length dist' xs.length 0 0 := by
    intro dist dist' h h'
    obtain ⟨v, hv, _, c, hc, hca⟩ := serial_spec h
    obtain ⟨v', hv', _, c', hc', hca'⟩ := serial_spec h'
    rw [hc, hc']
    congr 1
    have hvv : ∀ i, i < xs.length → v i = v' i := by
      intro i hi
      exact le_antisymm ((hv' i hi _).mpr ((hv i hi _).mp (le_refl _))) ((hv i hi _).mpr ((hv' i hi _).mp (le_refl _)))
    refine le_antisymm ((hca c').mpr ?_) ((hca' c).mpr ?_)
    · obtain ⟨a1, a2⟩ := (hca' c').mp (le_refl _)
      exact ⟨a1, fun i hi => by rw [hvv i hi]; exact a2 i hi⟩
    · obtain ⟨a1, a2⟩ := (hca c).mp (le_refl _)
      exact ⟨a1, fun i hi => by rw [← hvv i hi]; exact a2 i hi⟩
  constructor
  · unfold Hausdorff at hr
    split at hr
    · unfold HausdorffParallel at hr
      unfold hausdorffSerial
      by_cases hx : xs = []
      · rw [if_pos hx] at hr ⊢; exact hr
      · rw [if_neg hx] at hr ⊢
        by_cases hy : ys = []
        · rw [if_pos hy] at hr ⊢; exact hr
        · rw [if_neg hy] at hr ⊢
          exact par_eq_serial ht hI hth h1 htid hr
    · exact hr
  · unfold HausdorffM at hr'
    have hne : ¬ (m.rows ≠ xs.length ∨ m.cols ≠ ys.length) := by omega
    split at hr'
    · unfold HausdorffParallelM at hr'
      unfold hausdorffSerial
      by_cases hx : xs = []
      · rw [if_pos hx] at hr' ⊢; exact hr'
      · rw [if_neg hx] at hr' ⊢
        by_cases hy : ys = []
        · rw [if_pos hy] at hr' ⊢; exact hr'
        · rw [if_neg hy] at hr' ⊢
          rw [if_neg hne] at hr'
          exact (par_eq_serial htm hI hth' h1' htid' hr').trans (hser _ _ htm ht)
    · rw [hr']
      unfold hausdorffSerialM hausdorffSerial
      rw [if_neg hne, hser _ _ htm ht]

/-- C31: empty sets and matrices of the wrong size are refused. -/
theorem C31_bad_arguments_throw (b : Backend) (threads : Int) (xs : List A) (ys : List B) (d : A → B → D) (m : Mat D) (r r' : Res D)
    (hr : Hausdorff b threads xs ys d r) (hr' : HausdorffM b threads xs ys m r') :
    ((xs = [] ∨ ys = []) → r = .throw .invalidArgument) ∧
    ((xs = [] ∨ ys = [] ∨ m.rows ≠ xs.length ∨ m.cols ≠ ys.length) → r' = .throw .invalidArgument) := by
  unfold Hausdorff HausdorffParallel hausdorffSerial at hr
  unfold HausdorffM HausdorffParallelM hausdorffSerialM at hr'
  by_cases hx : xs = []
  · simp only [hx, if_true, ite_self] at hr hr'
    exact ⟨fun _ => hr, fun _ => hr'⟩
  · by_cases hy : ys = []
    · simp only [hx, hy, if_true, if_false, ite_self] at hr hr'
      exact ⟨fun _ => hr, fun _ => hr'⟩
    · refine ⟨fun h => ?_, fun h => ?_⟩
      · rcases h with h | h
        · exact absurd h hx
        · exact absurd h hy
      · have hm : m.rows ≠ xs.length ∨ m.cols ≠ ys.length := by
          rcases h with h | h | h
          · exact absurd h hx
          · exact absurd h hy
          · exact h
        simp only [hx, hy, if_false] at hr'
        rw [if_pos hm, if_pos hm, ite_self] at hr'
        exact hr'

/-- Runs exist. -/
theorem C31_runs_exist (b : Backend) (threads : Int) (xs : List A) (ys : List B) (d : A → B → D) (hI : InI64 xs.length)
    (hth : InI64 threads) : ∃ r, Hausdorff b threads xs ys d r := by
  unfold Hausdorff
  split
  · unfold HausdorffParallel
    split
    · exact ⟨_, rfl⟩
    · split
      · exact ⟨_, rfl⟩
      · obtain ⟨_, ws, tr, hws, htr, _⟩ := IndexRun.exists b threads 0 xs.length (by decide) hI hth (by simpa using hI) (by omega)
        exact ⟨_, ws, tr, hws, htr, rfl⟩
  · exact ⟨_, rfl⟩

/-- Non-vacuity, and the documented definition is not what is computed: the distance is directed, so that swapping the sets
changes it. -/
theorem C31_not_symmetric : hausdorffSerial [0] [0, 5] (fun x y : Nat => (((max x y - min x y : Nat)) : ℕ∞)) = .ok 0 ∧
    hausdorffSerial [0, 5] [0] (fun x y : Nat => (((max x y - min x y : Nat)) : ℕ∞)) = .ok 5 := by
  constructor
  · simp [hausdorffSerial, serialLoop, innerMin, fnDist, atRaw]
  · have h : (5 : ℕ∞) < ⊤ := ENat.natCast_lt_top 5
    simp [hausdorffSerial, serialLoop, innerMin, fnDist, atRaw, h]

example : ∃ r, Hausdorff .async 3 [2, 9, 4, 7] [1, 8] (fun x y : Nat => (((max x y - min x y : Nat)) : ℕ∞)) r ∧
    ∃ c, r = .ok c ∧ IsHausdorff (fun x y : Nat => (((max x y - min x y : Nat)) : ℕ∞)) [2, 9, 4, 7] [1, 8] c := by
  obtain ⟨r, hr⟩ := C31_runs_exist .async 3 [2, 9, 4, 7] [1, 8] (fun x y : Nat => (((max x y - min x y : Nat)) : ℕ∞)) (by decide)
    (by decide)
  exact ⟨r, hr, C31_hausdorff _ _ _ _ _ (by simp) (by simp) (fun _ _ _ _ => bot_le) (by decide) (by decide) (by decide)
    (fun t h => h) r hr⟩

/-! ### Pairwise distance matrices -/

/-- Executing stores that all agree with `F`: the written entries hold `F`, the others are unchanged. -/
theorem applyStores_ok (F : Nat → Nat → D) : ∀ (tr : List (Store D)) (m : Mat D),
    (∀ s ∈ tr, s.row < m.rows ∧ s.col < m.cols ∧ s.val = F s.row s.col) →
    ∃ m', applyStores tr m = .ok m' ∧ m'.rows = m.rows ∧ m'.cols = m.cols ∧
      ∀ i j, m'.val i j = if (∃ s ∈ tr, s.row = i ∧ s.col = j) then F i j else m.val i j := by
  intro tr
  induction tr with
  | nil => intro m _; exact ⟨m, rfl, rfl, rfl, by simp⟩
  | cons s ss ih =>
    intro m h
    obtain ⟨h1, h2, h3⟩ := h s (by simp)
    obtain ⟨m', e, r, c, hv⟩ := ih { m with val := fun a b => if a = s.row ∧ b = s.col then s.val else m.val a b }
      (fun q hq => h q (by simp [hq]))
    refine ⟨m', ?_, r, c, fun i j => ?_⟩
    · unfold applyStores Mat.set
      rw [if_pos ⟨h1, h2⟩, Res.ok_bind, e]
    · rw [hv]
      by_cases hx : ∃ q ∈ ss, q.row = i ∧ q.col = j
      · obtain ⟨q, hq, hq2⟩ := hx
        rw [if_pos ⟨q, hq, hq2⟩, if_pos ⟨q, by simp [hq], hq2⟩]
      · rw [if_neg hx]
        by_cases hs : s.row = i ∧ s.col = j
        · obtain ⟨rfl, rfl⟩ := hs
          rw [if_pos ⟨s, by simp, rfl, rfl⟩]
          dsimp only
          rw [if_pos ⟨rfl, rfl⟩, h3]
        · dsimp only
          rw [if_neg (by rintro ⟨rfl, rfl⟩; exact hs ⟨rfl, rfl⟩), if_neg]
          rintro ⟨q, hq, hq2⟩
          rcases List.mem_cons.mp hq with rfl | hq
          · exact hs hq2
          · exact hx ⟨q, hq, hq2⟩

theorem workerStores_ok {f : Nat → Res (List (Store D))} {g : Nat → List (Store D)} {n : Nat} (hf : ∀ i, i < n → f i = .ok (g i)) :
    ∀ cs : List Call, (∀ c ∈ cs, c.index.toNat < n) → workerStores f cs = .ok (cs.flatMap fun c => g c.index.toNat) := by
  intro cs
  induction cs with
  | nil => intro _; rfl
  | cons c cs ih =>
    intro h
    unfold workerStores
    rw [hf _ (h c (by simp)), Res.ok_bind, ih (fun q hq => h q (by simp [hq])), Res.ok_bind]
    rfl

theorem allStores_ok {f : Nat → Res (List (Store D))} {g : Nat → List (Store D)} {n : Nat} (hf : ∀ i, i < n → f i = .ok (g i)) :
    ∀ ws : List (List Call), (∀ w ∈ ws, ∀ c ∈ w, c.index.toNat < n) →
      allStores f ws = .ok (ws.map fun w => w.flatMap fun c => g c.index.toNat) := by
  intro ws
  induction ws with
  | nil => intro _; rfl
  | cons w ws ih =>
    intro h
    unfold allStores
    rw [workerStores_ok hf w (h w (by simp)), Res.ok_bind, ih (fun q hq => h q (by simp [hq])), Res.ok_bind]
    rfl

/-- The indices of all workers together. -/
theorem static_indices {b : Backend} {threads : Int} {n : Nat} {ws : List (List Call)} (h : staticIndexLoop b threads 0 n = .ok ws)
    (hI : InI64 n) (hth : InI64 threads) : ((ws.flatten).map (·.index)).Perm (irange 0 n) := by
  obtain ⟨tr, htr⟩ := Interleaving.exists_run ws
  have hp := IndexRun.perm (b := b) (threads := threads) (s := 0) (e := n) (order := tr.map (·.index)) ⟨ws, tr, h, htr, rfl⟩
    (by decide) hI hth (by simpa using hI) (by omega)
  exact ((htr.perm.map _).symm).trans hp

/-- Every run of a matrix-filling loop, given the stores of each index. -/
theorem matrixRun_ok {b : Backend} {threads : Int} {n : Nat} {f : Nat → Res (List (Store D))} {g : Nat → List (Store D)}
    {F : Nat → Nat → D} {init : Mat D} (hf : ∀ i, i < n → f i = .ok (g i))
    (hg : ∀ i, i < n → ∀ s ∈ g i, s.row < init.rows ∧ s.col < init.cols ∧ s.val = F s.row s.col)
    (hI : InI64 n) (hth : InI64 threads) {r : Res (Mat D)} (hr : MatrixRun b threads n f init r) :
    ∃ m, r = .ok m ∧ m.rows = init.rows ∧ m.cols = init.cols ∧
      ∀ i j, (∃ k, k < n ∧ ∃ s ∈ g k, s.row = i ∧ s.col = j) → m.val i j = F i j := by
  obtain ⟨ws, hws, hr⟩ := hr
  have hp := static_indices hws hI hth
  have hin : ∀ w ∈ ws, ∀ c ∈ w, 0 ≤ c.index ∧ c.index < n := by
    intro w hw c hc
    have : c.index ∈ (ws.flatten).map (·.index) := List.mem_map.mpr ⟨c, List.mem_flatten.mpr ⟨w, hw, hc⟩, rfl⟩
    exact mem_irange.mp (hp.subset this)
  have hall := allStores_ok hf ws (fun w hw c hc => by have := hin w hw c hc; omega)
  rcases hr with ⟨st, tr, hst, htr, rfl⟩ | ⟨e, he, _⟩ | ⟨he, _⟩
  · rw [hall] at hst
    cases hst
    have hmem : ∀ s, s ∈ tr ↔ ∃ k, k < n ∧ s ∈ g k := by
      intro s
      rw [htr.perm.mem_iff, List.mem_flatten]
      constructor
      · rintro ⟨l, hl, hs⟩
        obtain ⟨w, hw, rfl⟩ := List.mem_map.mp hl
        obtain ⟨c, hc, hs⟩ := List.mem_flatMap.mp hs
        have := hin w hw c hc
        exact ⟨_, by omega, hs⟩
      · rintro ⟨k, hk, hs⟩
        have hkm : (k : Int) ∈ (ws.flatten).map (·.index) := hp.symm.subset (mem_irange.mpr (by omega))
        obtain ⟨c, hc, hck⟩ := List.mem_map.mp hkm
        obtain ⟨w, hw, hcw⟩ := List.mem_flatten.mp hc
        refine ⟨_, List.mem_map.mpr ⟨w, hw, rfl⟩, List.mem_flatMap.mpr ⟨c, hcw, ?_⟩⟩
        have : c.index.toNat = k := by omega
        rw [this]; exact hs
    obtain ⟨m, e, h1, h2, h3⟩ := applyStores_ok F tr init (fun s hs => by
      obtain ⟨k, hk, hs⟩ := (hmem s).mp hs
      exact hg k hk s hs)
    refine ⟨m, e, h1, h2, fun i j hij => ?_⟩
    rw [h3, if_pos]
    obtain ⟨k, hk, s, hs, hs2⟩ := hij
    exact ⟨s, (hmem s).mpr ⟨k, hk, hs⟩, hs2⟩
  · rw [hall] at he; cases he
  · rw [hall] at he; cases he

theorem matrixRun_exists (b : Backend) (threads : Int) {n : Nat} (f : Nat → Res (List (Store D))) (init : Mat D) (hI : InI64 n)
    (hth : InI64 threads) : ∃ r, MatrixRun b threads n f init r := by
  obtain ⟨_, ws, _, hws, _, _⟩ := IndexRun.exists b threads 0 n (by decide) hI hth (by simpa using hI) (by omega)
  cases h : allStores f ws with
  | ok st =>
    obtain ⟨tr, htr⟩ := Interleaving.exists_run st
    exact ⟨_, ws, hws, Or.inl ⟨st, tr, h, htr, rfl⟩⟩
  | throw e => exact ⟨_, ws, hws, Or.inr (Or.inl ⟨e, h, rfl⟩)⟩
  | ub => exact ⟨_, ws, hws, Or.inr (Or.inr ⟨h, rfl⟩)⟩

/-- The matrix entry that the one-set version is expected to produce. -/
def selfEntry (xs : List A) (d : A → A → D) (i j : Nat) : D :=
  match xs[min i j]?, xs[max i j]? with
  | some x, some y => if i = j then 0 else d x y
  | _, _ => 0

theorem selfStores_ok (xs : List A) (d : A → A → D) (i : Nat) (hi : i < xs.length) : ∀ k j, i ≤ j → j + k ≤ xs.length →
    ∃ g, selfStores xs d i k j = .ok g ∧
      (∀ s ∈ g, s.row < xs.length ∧ s.col < xs.length ∧ min s.row s.col = i ∧ s.val = selfEntry xs d s.row s.col) ∧
      (∀ c, j ≤ c → c < j + k → (∃ s ∈ g, s.row = i ∧ s.col = c) ∧ (∃ s ∈ g, s.row = c ∧ s.col = i)) := by
  intro k
  induction k with
  | zero => intro j _ _; exact ⟨[], rfl, by simp, fun c h1 h2 => by omega⟩
  | succ k ih =>
    intro j hij hjk
    obtain ⟨g, e, h1, h2⟩ := ih (j + 1) (by omega) (by omega)
    have hj : j < xs.length := by omega
    have hv : (if i ≠ j then do
        let x ← atRaw xs i
        let y ← atRaw xs j
        pure (d x y)
      else (pure 0 : Res D)) = .ok (selfEntry xs d i j) := by
      unfold selfEntry
      rw [Nat.min_eq_left hij, Nat.max_eq_right hij, List.getElem?_eq_getElem hi, List.getElem?_eq_getElem hj]
      dsimp only
      by_cases hne : i = j
      · rw [if_neg (by simpa using hne), if_pos hne]; rfl
      · rw [if_pos hne, if_neg hne]
        unfold atRaw
        rw [List.getElem?_eq_getElem hi, List.getElem?_eq_getElem hj]
        rfl
    have hsym : selfEntry xs d j i = selfEntry xs d i j := by
      unfold selfEntry
      rw [Nat.min_comm, Nat.max_comm]
      by_cases h : i = j
      · subst h; rfl
      · simp only [if_neg h, if_neg (Ne.symm h)]
    refine ⟨⟨i, j, selfEntry xs d i j⟩ :: ⟨j, i, selfEntry xs d i j⟩ :: g, ?_, ?_, ?_⟩
    · unfold selfStores
      rw [hv, Res.ok_bind, e, Res.ok_bind]
      rfl
    · intro s hs
      rcases List.mem_cons.mp hs with rfl | hs
      · exact ⟨hi, hj, by dsimp only; omega, rfl⟩
      · rcases List.mem_cons.mp hs with rfl | hs
        · exact ⟨hj, hi, by dsimp only; omega, hsym.symm⟩
        · exact h1 s hs
    · intro c hc1 hc2
      by_cases hcj : c = j
      · subst hcj
        exact ⟨⟨_, List.mem_cons_self, rfl, rfl⟩, ⟨_, List.mem_cons_of_mem _ List.mem_cons_self, rfl, rfl⟩⟩
      · obtain ⟨⟨s, hs, hs2⟩, ⟨t, ht, ht2⟩⟩ := h2 c (by omega) (by omega)
        exact ⟨⟨s, by simp [hs], hs2⟩, ⟨t, by simp [ht], ht2⟩⟩

/-- C52: for every schedule of its workers, at the level of single stores, `BuildPairwiseDistanceMatrix` of one data set returns
the square matrix that is zero on the diagonal and has at (i, j) and (j, i), i < j, the distance from item i to item j. -/
theorem C52_self_matrix (b : Backend) (threads : Int) (xs : List A) (d : A → A → D) (hI : InI64 xs.length) (hth : InI64 threads)
    (r : Res (Mat D)) (hr : SelfMatrix b threads xs d r) :
    ∃ m, r = .ok m ∧ m.rows = xs.length ∧ m.cols = xs.length ∧ (∀ i, i < xs.length → m.val i i = 0) ∧
      ∀ i j (_ : i < j) (hj : j < xs.length), m.val i j = d xs[i] xs[j] ∧ m.val j i = d xs[i] xs[j] := by
  obtain ⟨init, hr⟩ := hr
  have hg : ∀ i : Nat, ∃ g, i < xs.length → (selfStores xs d i (xs.length - i) i = .ok g ∧
      (∀ s ∈ g, s.row < xs.length ∧ s.col < xs.length ∧ min s.row s.col = i ∧ s.val = selfEntry xs d s.row s.col) ∧
      (∀ c, i ≤ c → c < i + (xs.length - i) → (∃ s ∈ g, s.row = i ∧ s.col = c) ∧ (∃ s ∈ g, s.row = c ∧ s.col = i))) := by
    intro i
    by_cases hi : i < xs.length
    · obtain ⟨g, h⟩ := selfStores_ok xs d i hi (xs.length - i) i (le_refl _) (by omega)
      exact ⟨g, fun _ => h⟩
    · exact ⟨[], fun h => absurd h hi⟩
  choose g hg using hg
  obtain ⟨m, h1, h2, h3, h4⟩ := matrixRun_ok (F := selfEntry xs d) (g := g) (fun i hi => (hg i hi).1)
    (fun i hi s hs => by obtain ⟨a, b, _, c⟩ := (hg i hi).2.1 s hs; exact ⟨a, b, c⟩) hI hth hr
  have hval : ∀ i j, i ≤ j → j < xs.length → m.val i j = selfEntry xs d i j ∧ m.val j i = selfEntry xs d j i := by
    intro i j hij hj
    obtain ⟨⟨s, hs, hs2⟩, ⟨t, ht, ht2⟩⟩ := (hg i (by omega)).2.2 j hij (by omega)
    exact ⟨h4 i j ⟨i, by omega, s, hs, hs2⟩, h4 j i ⟨i, by omega, t, ht, ht2⟩⟩
  refine ⟨m, h1, h2, h3, ?_, ?_⟩
  · intro i hi
    rw [(hval i i (le_refl _) hi).1]
    unfold selfEntry
    rw [Nat.min_self, Nat.max_self, List.getElem?_eq_getElem hi]
    dsimp only
    rw [if_pos rfl]
  · intro i j hij hj
    obtain ⟨e1, e2⟩ := hval i j hij.le hj
    rw [e1, e2]
    unfold selfEntry
    rw [Nat.min_eq_left hij.le, Nat.max_eq_right hij.le, Nat.min_eq_right hij.le, Nat.max_eq_left hij.le,
      List.getElem?_eq_getElem (by omega : i < xs.length), List.getElem?_eq_getElem hj]
    dsimp only
    rw [if_neg (by omega), if_neg (by omega)]
    exact ⟨rfl, rfl⟩

/-- C52: no entry of the matrix is stored by two different workers (so that the loop is free of data races): the stores of
different indices never hit the same entry, and every index is visited by one worker only. -/
theorem C52_self_matrix_race_free (b : Backend) (threads : Int) (xs : List A) (d : A → A → D) (hI : InI64 xs.length)
    (hth : InI64 threads) (ws : List (List Call)) (hws : staticIndexLoop b threads 0 xs.length = .ok ws) :
    ∃ st, allStores (selfWork xs d) ws = .ok st ∧
      st.Pairwise fun a b => ∀ s ∈ a, ∀ t ∈ b, ¬ (s.row = t.row ∧ s.col = t.col) := by
  have hp := static_indices hws hI hth
  have hin : ∀ w ∈ ws, ∀ c ∈ w, 0 ≤ c.index ∧ c.index < xs.length := by
    intro w hw c hc
    have : c.index ∈ (ws.flatten).map (·.index) := List.mem_map.mpr ⟨c, List.mem_flatten.mpr ⟨w, hw, hc⟩, rfl⟩
    exact mem_irange.mp (hp.subset this)
  have hg : ∀ i : Nat, ∃ g, i < xs.length → (selfStores xs d i (xs.length - i) i = .ok g ∧ ∀ s ∈ g, min s.row s.col = i) := by
    intro i
    by_cases hi : i < xs.length
    · obtain ⟨g, h, h', _⟩ := selfStores_ok xs d i hi (xs.length - i) i (le_refl _) (by omega)
      exact ⟨g, fun _ => ⟨h, fun s hs => (h' s hs).2.2.1⟩⟩
    · exact ⟨[], fun h => absurd h hi⟩
  choose g hg using hg
  refine ⟨_, allStores_ok (fun i hi => (hg i hi).1) ws (fun w hw c hc => by have := hin w hw c hc; omega), ?_⟩
  have hnd : ((ws.flatten).map (·.index)).Nodup := hp.nodup_iff.mpr (irange_nodup _ _)
  rw [List.pairwise_map]
  rw [List.map_flatten, List.nodup_flatten] at hnd
  have hdis := List.pairwise_map.mp hnd.2
  refine hdis.imp_of_mem ?_
  intro w w' hw hw' hdj s hs t ht hst
  obtain ⟨c, hc, hs⟩ := List.mem_flatMap.mp hs
  obtain ⟨c', hc', ht⟩ := List.mem_flatMap.mp ht
  have b1 := hin w hw c hc
  have b2 := hin w' hw' c' hc'
  have e1 := (hg _ (by omega)).2 s hs
  have e2 := (hg _ (by omega)).2 t ht
  rw [hst.1, hst.2, e2] at e1
  have : c.index = c'.index := by omega
  exact hdj (List.mem_map.mpr ⟨c, hc, rfl⟩) (List.mem_map.mpr ⟨c', hc', this.symm⟩)

theorem crossStores_ok (xs : List A) (ys : List B) (d : A → B → D) (F : Nat → Nat → D)
    (hF : ∀ i j (hi : i < xs.length) (hj : j < ys.length), F i j = d xs[i] ys[j]) (i : Nat) (hi : i < xs.length) :
    ∀ k j, j + k ≤ ys.length → ∃ g, crossStores xs ys d i k j = .ok g ∧
      (∀ s ∈ g, s.row < xs.length ∧ s.col < ys.length ∧ s.val = F s.row s.col) ∧
      (∀ c, j ≤ c → c < j + k → ∃ s ∈ g, s.row = i ∧ s.col = c) := by
  intro k
  induction k with
  | zero => intro j _; exact ⟨[], rfl, by simp, fun c h1 h2 => by omega⟩
  | succ k ih =>
    intro j hjk
    obtain ⟨g, e, h1, h2⟩ := ih (j + 1) (by omega)
    have hj : j < ys.length := by omega
    refine ⟨⟨i, j, d xs[i] ys[j]⟩ :: g, ?_, ?_, ?_⟩
    · unfold crossStores atRaw
      rw [List.getElem?_eq_getElem hi, List.getElem?_eq_getElem hj]
      dsimp only
      rw [Res.ok_bind, Res.ok_bind, e, Res.ok_bind]
      rfl
    · intro s hs
      rcases List.mem_cons.mp hs with rfl | hs
      · exact ⟨hi, hj, (hF i j hi hj).symm⟩
      · exact h1 s hs
    · intro c hc1 hc2
      by_cases hcj : c = j
      · subst hcj; exact ⟨_, List.mem_cons_self, rfl, rfl⟩
      · obtain ⟨s, hs, hs2⟩ := h2 c (by omega) (by omega)
        exact ⟨s, by simp [hs], hs2⟩

/-- C52: the two-set version returns, for every schedule, the matrix of the distances from the items of the first set (rows) to
the items of the second (columns). -/
theorem C52_cross_matrix (b : Backend) (threads : Int) (xs : List A) (ys : List B) (d : A → B → D) (hI : InI64 xs.length)
    (hth : InI64 threads) (r : Res (Mat D)) (hr : CrossMatrix b threads xs ys d r) :
    ∃ m, r = .ok m ∧ m.rows = xs.length ∧ m.cols = ys.length ∧
      ∀ i j (hi : i < xs.length) (hj : j < ys.length), m.val i j = d xs[i] ys[j] := by
  obtain ⟨init, hr⟩ := hr
  obtain ⟨F, _, hF⟩ := fn_table xs ys d
  have hg : ∀ i : Nat, ∃ g, i < xs.length → (crossStores xs ys d i ys.length 0 = .ok g ∧
      (∀ s ∈ g, s.row < xs.length ∧ s.col < ys.length ∧ s.val = F s.row s.col) ∧
      (∀ c, 0 ≤ c → c < 0 + ys.length → ∃ s ∈ g, s.row = i ∧ s.col = c)) := by
    intro i
    by_cases hi : i < xs.length
    · obtain ⟨g, h⟩ := crossStores_ok xs ys d F hF i hi ys.length 0 (by omega)
      exact ⟨g, fun _ => h⟩
    · exact ⟨[], fun h => absurd h hi⟩
  choose g hg using hg
  obtain ⟨m, h1, h2, h3, h4⟩ := matrixRun_ok (F := F) (g := g) (fun i hi => (hg i hi).1) (fun i hi => (hg i hi).2.1) hI hth hr
  refine ⟨m, h1, h2, h3, fun i j hi hj => ?_⟩
  obtain ⟨s, hs, hs2⟩ := (hg i hi).2.2 j (by omega) (by omega)
  rw [h4 i j ⟨i, hi, s, hs, hs2⟩, hF i j hi hj]

/-- Runs exist. -/
theorem C52_runs_exist (b : Backend) (threads : Int) (xs : List A) (ys : List B) (d : A → A → D) (d' : A → B → D)
    (hI : InI64 xs.length) (hth : InI64 threads) : (∃ r, SelfMatrix b threads xs d r) ∧ ∃ r, CrossMatrix b threads xs ys d' r := by
  obtain ⟨r, hr⟩ := matrixRun_exists b threads (n := xs.length) (fun i => selfStores xs d i (xs.length - i) i)
    ⟨xs.length, xs.length, fun _ _ => 0⟩ hI hth
  obtain ⟨r', hr'⟩ := matrixRun_exists b threads (n := xs.length) (fun i => crossStores xs ys d' i ys.length 0)
    ⟨xs.length, ys.length, fun _ _ => 0⟩ hI hth
  exact ⟨⟨r, _, hr⟩, ⟨r', _, hr'⟩⟩

example : ∃ r, SelfMatrix .async 2 [3, 1, 8] (fun x y : Nat => ((x + 2 * y : Nat) : ℕ∞)) r ∧
    ∃ m, r = .ok m ∧ m.val 2 1 = ((17 : Nat) : ℕ∞) := by
  obtain ⟨⟨r, hr⟩, _⟩ := C52_runs_exist .async 2 [3, 1, 8] ([] : List Nat) (fun x y : Nat => ((x + 2 * y : Nat) : ℕ∞))
    (fun _ _ => 0) (by decide) (by decide)
  obtain ⟨m, e, _, _, _, h⟩ := C52_self_matrix _ _ _ _ (by decide) (by decide) r hr
  exact ⟨r, hr, m, e, (h 1 2 (by decide) (by decide)).2⟩

end CRU.Distances
