import Verif.Distances.Props
import Verif.Parallel.ThrowLoop
/-
  C107: Hausdorff distances and pairwise distance matrices with a distance function that may throw. `ε` are the exceptions of the caller;
  `.ok (.error x)` means that the call throws `x`.
-/
namespace CRU.Distances.Throw
open CRU.Parallel
set_option linter.unusedSectionVars false

section Model
variable {A B D ε : Type} [LT D] [DecidableLT D] [Zero D] [Top D]

/-- simple_hausdorff_distance.hpp:57, 63-64: distance of elements. -/
def fnDist (xs : List A) (ys : List B) (d : A → B → Except ε D) (i j : Nat) : Res (Except ε D) := do
  let x ← atRaw xs i
  let y ← atRaw ys j
  pure (d x y)

/-- simple_hausdorff_distance.hpp:59-69, 121-131: the inner loop; the first exception ends it. -/
def innerMin (row : Nat → Res (Except ε D)) : Nat → Nat → D → Res (Except ε D)
  | 0, _, best => .ok (.ok best)
  | k + 1, j, best => do
    match ← row j with
    | .error x => pure (.error x)
    | .ok cur => innerMin row k (j + 1) (if cur < best then cur else best)

/-- simple_hausdorff_distance.hpp:117-137: the serial outer loop. -/
def serialLoop (n2 : Nat) (dist : Nat → Nat → Res (Except ε D)) : Nat → Nat → D → Res (Except ε D)
  | 0, _, best => .ok (.ok best)
  | k + 1, i, best => do
    match ← innerMin (dist i) n2 0 ⊤ with
    | .error x => pure (.error x)
    | .ok m => serialLoop n2 dist k (i + 1) (if m > best then m else best)

/-- simple_hausdorff_distance.hpp:97-140 `ComputeDistanceSerial` -/
def hausdorffSerial (xs : List A) (ys : List B) (d : A → B → Except ε D) : Res (Except ε D) :=
  if xs = [] then .throw .invalidArgument
  else if ys = [] then .throw .invalidArgument
  else serialLoop ys.length (fnDist xs ys d) xs.length 0 0

/-- simple_hausdorff_distance.hpp:55-70 `per_item_work`: the minimum for its thread, or an exception before anything is stored. -/
def hausdorffBody (n2 : Nat) (dist : Nat → Nat → Res (Except ε D)) (c : Call) : Res (Effects (Int × D) ε) := do
  match ← innerMin (dist c.index.toNat) n2 0 ⊤ with
  | .error x => pure ([], some x)
  | .ok m => pure ([(c.thread, m)], none)

/-- simple_hausdorff_distance.hpp:71-74: minima are kept in the storage of their threads, in the given order. -/
def keepMax : List (Int × D) → List D → Res (List D)
  | [], st => .ok st
  | (t, m) :: l, st => do
    let old ← atInt st t
    keepMax l (if m > old then st.set t.toNat m else st)

/-- simple_hausdorff_distance.hpp:32-91 `ComputeDistanceParallel` -/
def HausdorffParallel (b : Backend) (threads : Int) (xs : List A) (ys : List B) (d : A → B → Except ε D) (r : Res (Except ε D)) : Prop :=
  if xs = [] then r = .throw .invalidArgument
  else if ys = [] then r = .throw .invalidArgument
  else ∃ ws, staticIndexLoop b threads 0 xs.length = .ok ws ∧ BodyRun b.isOmp (hausdorffBody ys.length (fnDist xs ys d)) ws
    (fun tr => keepMax tr (List.replicate threads.toNat 0) >>= fun st => pure (maxOf st)) r

/-- simple_hausdorff_distance.hpp:273-296 `ComputeDistance` -/
def Hausdorff (b : Backend) (threads : Int) (xs : List A) (ys : List B) (d : A → B → Except ε D) (r : Res (Except ε D)) : Prop :=
  if threads > 1 then HausdorffParallel b threads xs ys d r else r = hausdorffSerial xs ys d

/-- math.hpp:543-563 `per_item_work`: the stores for one index, up to the first exception. -/
def selfStores (xs : List A) (d : A → A → Except ε D) (i : Nat) : Nat → Nat → Res (Effects (Store D) ε)
  | 0, _ => .ok ([], none)
  | k + 1, j => do
    let v ← (if i ≠ j then do
        let x ← atRaw xs i
        let y ← atRaw xs j
        pure (d x y)
      else pure (.ok 0))
    match v with
    | .error x => pure ([], some x)
    | .ok v =>
      let rest ← selfStores xs d i k (j + 1)
      pure (⟨i, j, v⟩ :: ⟨j, i, v⟩ :: rest.1, rest.2)

/-- math.hpp:583-594 `per_item_work` of the two-set version. -/
def crossStores (xs : List A) (ys : List B) (d : A → B → Except ε D) (i : Nat) : Nat → Nat → Res (Effects (Store D) ε)
  | 0, _ => .ok ([], none)
  | k + 1, j => do
    let x ← atRaw xs i
    let y ← atRaw ys j
    match d x y with
    | .error x => pure ([], some x)
    | .ok v =>
      let rest ← crossStores xs ys d i k (j + 1)
      pure (⟨i, j, v⟩ :: rest.1, rest.2)

/-- math.hpp:531-570 `BuildPairwiseDistanceMatrix`, one data set. -/
def SelfMatrix (b : Backend) (threads : Int) (xs : List A) (d : A → A → Except ε D) (r : Res (Except ε (Mat D))) : Prop :=
  ∃ (init : Nat → Nat → D) (ws : List (List Call)), staticIndexLoop b threads 0 xs.length = .ok ws ∧
    BodyRun b.isOmp (fun c : Call => selfStores xs d c.index.toNat (xs.length - c.index.toNat) c.index.toNat) ws
      (fun tr => applyStores tr ⟨xs.length, xs.length, init⟩) r

/-- math.hpp:572-601 `BuildPairwiseDistanceMatrix`, two data sets. -/
def CrossMatrix (b : Backend) (threads : Int) (xs : List A) (ys : List B) (d : A → B → Except ε D) (r : Res (Except ε (Mat D))) : Prop :=
  ∃ (init : Nat → Nat → D) (ws : List (List Call)), staticIndexLoop b threads 0 xs.length = .ok ws ∧
    BodyRun b.isOmp (fun c : Call => crossStores xs ys d c.index.toNat ys.length 0) ws
      (fun tr => applyStores tr ⟨xs.length, ys.length, init⟩) r

end Model

/-! ### Specification -/
section Spec
variable {D ε : Type}

/-- The function returned. -/
def Returns (x : Except ε D) : Prop := ∃ v, x = .ok v

/-- The total distance function with the same values, where there are values. -/
def total {A B : Type} [Zero D] (d : A → B → Except ε D) (x : A) (y : B) : D :=
  match d x y with
  | .ok v => v
  | .error _ => 0

end Spec

/-! ### Proofs -/
section Proofs
variable {A B D ε : Type} [LinearOrder D] [Zero D] [OrderTop D]

/-- The value, or 0. -/
def val (x : Except ε D) : D :=
  match x with
  | .ok v => v
  | .error _ => 0

omit [LinearOrder D] [OrderTop D] in
theorem returns_val {x : Except ε D} (h : Returns x) : x = .ok (val x) := by obtain ⟨v, rfl⟩ := h; rfl

theorem innerMin_spec (row : Nat → Res (Except ε D)) (w : Nat → Except ε D) (row' : Nat → Res D) : ∀ (k j : Nat) (best : D),
    (∀ i, j ≤ i → i < j + k → row i = .ok (w i) ∧ row' i = .ok (val (w i))) →
    (∃ c, (∀ i, j ≤ i → i < j + k → Returns (w i)) ∧ innerMin row k j best = .ok (.ok c) ∧ Distances.innerMin row' k j best = .ok c) ∨
    (∃ i x, j ≤ i ∧ i < j + k ∧ w i = .error x ∧ (∀ a, j ≤ a → a < i → Returns (w a)) ∧ innerMin row k j best = .ok (.error x)) := by
  intro k
  induction k with
  | zero => intro j best _; exact .inl ⟨best, fun i h1 h2 => by omega, rfl, rfl⟩
  | succ k ih =>
    intro j best h
    obtain ⟨h1, h2⟩ := h j (by omega) (by omega)
    unfold innerMin Distances.innerMin
    rw [h1, h2, Res.ok_bind, Res.ok_bind]
    cases hw : w j with
    | error x => exact .inr ⟨j, x, by omega, by omega, hw, fun a ha hb => by omega, rfl⟩
    | ok v =>
      have hv : val (.ok v : Except ε D) = v := rfl
      rw [hv]
      rcases ih (j + 1) (if v < best then v else best) (fun i hi hi' => h i (by omega) (by omega)) with ⟨c, k1, k2, k3⟩ | ⟨i, x, k1, k2, k3, k4, k5⟩
      · refine .inl ⟨c, fun i hi hi' => ?_, k2, k3⟩
        by_cases hij : i = j
        · subst hij; exact ⟨v, hw⟩
        · exact k1 i (by omega) (by omega)
      · refine .inr ⟨i, x, by omega, by omega, k3, fun a ha hb => ?_, k5⟩
        by_cases haj : a = j
        · subst haj; exact ⟨v, hw⟩
        · exact k4 a (by omega) hb

theorem fnDist_ok (xs : List A) (ys : List B) (d : A → B → Except ε D) (i j : Nat) (hi : i < xs.length) (hj : j < ys.length) :
    fnDist xs ys d i j = .ok (d xs[i] ys[j]) ∧ Distances.fnDist xs ys (total d) i j = .ok (val (d xs[i] ys[j])) := by
  unfold fnDist Distances.fnDist atRaw
  rw [List.getElem?_eq_getElem hi, List.getElem?_eq_getElem hj]
  exact ⟨rfl, rfl⟩

/-- One row. -/
theorem row_spec (xs : List A) (ys : List B) (d : A → B → Except ε D) (i : Nat) (hi : i < xs.length) :
    (∃ c, (∀ j (hj : j < ys.length), Returns (d xs[i] ys[j])) ∧ innerMin (fnDist xs ys d i) ys.length 0 ⊤ = .ok (.ok c) ∧
      Distances.innerMin (Distances.fnDist xs ys (total d) i) ys.length 0 ⊤ = .ok c) ∨
    (∃ j x, ∃ hj : j < ys.length, d xs[i] ys[j] = .error x ∧ (∀ a (ha : a < j), Returns (d xs[i] (ys[a]'(by omega)))) ∧
      innerMin (fnDist xs ys d i) ys.length 0 ⊤ = .ok (.error x)) := by
  rcases innerMin_spec (fnDist xs ys d i) (fun j => if h : j < ys.length then d xs[i] ys[j] else .ok 0) (Distances.fnDist xs ys (total d) i)
    ys.length 0 ⊤ (fun j _ hj => by
      have hj' : j < ys.length := by omega
      rw [dif_pos hj']
      exact fnDist_ok xs ys d i j hi hj') with ⟨c, h1, h2, h3⟩ | ⟨j, x, -, h1, h2, h3, h4⟩
  · refine .inl ⟨c, fun j hj => ?_, h2, h3⟩
    have := h1 j (by omega) (by omega)
    rwa [dif_pos hj] at this
  · have hj : j < ys.length := by omega
    rw [dif_pos hj] at h2
    refine .inr ⟨j, x, hj, h2, fun a ha => ?_, h4⟩
    have := h3 a (by omega) ha
    rwa [dif_pos (by omega : a < ys.length)] at this

theorem serialLoop_spec (xs : List A) (ys : List B) (d : A → B → Except ε D) : ∀ (k i : Nat) (best : D), i + k ≤ xs.length →
    (∃ c, (∀ a j (ha : a < xs.length) (hj : j < ys.length), i ≤ a → a < i + k → Returns (d xs[a] ys[j])) ∧
      serialLoop ys.length (fnDist xs ys d) k i best = .ok (.ok c) ∧
      Distances.serialLoop ys.length (Distances.fnDist xs ys (total d)) k i best = .ok c) ∨
    (∃ a j x, ∃ (ha : a < xs.length) (hj : j < ys.length), i ≤ a ∧ d xs[a] ys[j] = .error x ∧
      (∀ j' (h : j' < j), Returns (d xs[a] (ys[j']'(by omega)))) ∧
      (∀ a' j' (h : a' < a) (h' : j' < ys.length), i ≤ a' → Returns (d (xs[a']'(by omega)) ys[j'])) ∧
      serialLoop ys.length (fnDist xs ys d) k i best = .ok (.error x)) := by
  intro k
  induction k with
  | zero => intro i best _; exact .inl ⟨best, fun a j _ _ h1 h2 => by omega, rfl, rfl⟩
  | succ k ih =>
    intro i best hk
    have hi : i < xs.length := by omega
    unfold serialLoop Distances.serialLoop
    rcases row_spec xs ys d i hi with ⟨m, h1, h2, h3⟩ | ⟨j, x, hj, h1, h2, h3⟩
    · rw [h2, h3, Res.ok_bind, Res.ok_bind]
      dsimp only
      rcases ih (i + 1) (if m > best then m else best) (by omega) with ⟨c, k1, k2, k3⟩ | ⟨a, j, x, ha, hj, k1, k2, k3, k4, k5⟩
      · refine .inl ⟨c, fun a j ha hj h4 h5 => ?_, k2, k3⟩
        by_cases hai : a = i
        · subst hai; exact h1 j hj
        · exact k1 a j ha hj (by omega) (by omega)
      · refine .inr ⟨a, j, x, ha, hj, by omega, k2, k3, fun a' j' h h' hle => ?_, k5⟩
        by_cases hai : a' = i
        · subst hai; exact h1 j' h'
        · exact k4 a' j' h h' (by omega)
    · rw [h3, Res.ok_bind]
      exact .inr ⟨i, j, x, hi, hj, le_refl _, h1, h2, fun a' j' h h' hle => by omega, rfl⟩

theorem keepMax_ok : ∀ (l : List (Int × D)) (st : List D), (∀ a ∈ l, 0 ≤ a.1 ∧ a.1.toNat < st.length) → ∃ st', keepMax l st = .ok st'
  | [], st, _ => ⟨st, rfl⟩
  | (t, m) :: l, st, h => by
    obtain ⟨h1, h2⟩ := h (t, m) (by simp)
    unfold keepMax
    rw [atInt_ok st t h1 h2, Res.ok_bind]
    refine keepMax_ok l _ fun a ha => ?_
    obtain ⟨h3, h4⟩ := h a (by simp [ha])
    refine ⟨h3, ?_⟩
    split
    · simpa using h4
    · exact h4

theorem keepMax_parLoop (n2 : Nat) (dist : Nat → Nat → Res D) (v : Nat → D) : ∀ (tr : List Call) (st : List D),
    (∀ c ∈ tr, Distances.innerMin (dist c.index.toNat) n2 0 ⊤ = .ok (v c.index.toNat)) →
    keepMax (tr.map fun c => (c.thread, v c.index.toNat)) st = parLoop n2 dist tr st
  | [], st, _ => rfl
  | c :: cs, st, h => by
    rw [List.map_cons]
    unfold keepMax parLoop
    rw [h c (by simp), Res.ok_bind]
    cases atInt st c.thread with
    | ok old =>
      rw [Res.ok_bind, Res.ok_bind]
      exact keepMax_parLoop n2 dist v cs _ (fun q hq => h q (by simp [hq]))
    | throw e => rfl
    | ub => rfl

/-- The indices before `i` are those of the calls before that of `i`. -/
theorem before_index {cs pre post : List Call} {c : Call} {s e : Int} (hw : cs.map (·.index) = irange s e) (h : cs = pre ++ c :: post) (j : Int)
    (h1 : s ≤ j) (h2 : j < c.index) : ∃ d ∈ pre, d.index = j := by
  subst h
  rw [List.map_append, List.map_cons] at hw
  have hc : s ≤ c.index ∧ c.index < e := by rw [← mem_irange, ← hw]; simp
  have hpos : c.index = s + (pre.map (·.index)).length := by
    have hlen : (pre.map (·.index)).length < (irange s e).length := by rw [← hw]; simp
    have := irange_get s e _ hlen
    rw [← this]
    simp only [← hw]
    simp
  have hk : (j - s).toNat < (pre.map (·.index)).length := by omega
  have hlen : (j - s).toNat < (irange s e).length := by rw [← hw]; simp at hk ⊢; omega
  have h5 := irange_get s e _ hlen
  have h6 : (irange s e)[(j - s).toNat] = (pre.map (·.index))[(j - s).toNat] := by
    simp only [← hw]
    rw [List.getElem_append_left hk]
  rw [h5, show s + ((j - s).toNat : Int) = j by omega] at h6
  have hj : j ∈ pre.map (·.index) := by rw [h6]; exact List.getElem_mem hk
  obtain ⟨d, hd, rfl⟩ := List.mem_map.mp hj
  exact ⟨d, hd, rfl⟩

/-- A loop on one thread has at most one work range. -/
theorem single_range {b : Backend} {threads s e : Int} (ht : threads ≤ 1) {ws : List (List Call)} (h : staticIndexLoop b threads s e = .ok ws) :
    ws.length ≤ 1 := by
  unfold staticIndexLoop staticRangeLoop at h
  split at h
  · cases h
  · unfold chk64 at h
    split at h
    · rw [Res.ok_bind] at h
      split at h
      · cases h; simp
      · rw [if_pos (.inl (by omega))] at h
        unfold mkWorkRange at h
        split at h
        · cases h
        · split at h
          · cases h
          · cases h; simp
    · cases h

/-- What the calls of a static loop over `0, …, n - 1` are. -/
theorem calls_spec {b : Backend} {threads : Int} {n : Nat} {ws : List (List Call)} (hw : staticIndexLoop b threads 0 n = .ok ws) (hI : InI64 n)
    (hth : InI64 threads) (h1 : 1 ≤ threads) (htid : ∀ t : Nat, (t : Int) < min threads n → (b.tid t : Int) < min threads n) :
    ws.flatten.map (·.index) = irange 0 n ∧ (∀ c ∈ ws.flatten, 0 ≤ c.index ∧ c.index.toNat < n) ∧
      ∀ c ∈ ws.flatten, 0 ≤ c.thread ∧ c.thread.toNat < threads.toNat := by
  have hord := static_ordered b threads 0 n (by decide) hI hth (by simpa using hI) h1 (by omega) (by simpa using htid) hw
  refine ⟨hord, fun c hc => ?_, fun c hc => ?_⟩
  · have : c.index ∈ irange 0 n := by rw [← hord]; exact List.mem_map.mpr ⟨c, hc, rfl⟩
    have := mem_irange.mp this
    omega
  · obtain ⟨ws', hws', -, hcall, -⟩ := C05_static_index_loop b threads 0 n (by decide) hI hth (by simpa using hI) h1 (by omega) (by simpa using htid)
    rw [hw] at hws'
    cases hws'
    obtain ⟨tr, htr⟩ := Interleaving.exists_run ws
    have := (hcall tr htr).2 c (htr.perm.symm.subset hc)
    omega

/-! ### Theorems -/

/-- C107, Hausdorff distance: either the distance function returns on all pairs, and the call behaves as with the total function that has these
values (C31); or it throws on some pair, and the call throws what it has thrown on a pair (i, j) such that it returned on (i, j') for all j' < j. On
one thread, or with `std::async`, this is the first pair in lexicographic order on which the function throws. -/
theorem C107_hausdorff (b : Backend) (threads : Int) (xs : List A) (ys : List B) (d : A → B → Except ε D) (hx : xs ≠ []) (hy : ys ≠ [])
    (hI : InI64 xs.length) (hth : InI64 threads) (h1 : 1 ≤ threads)
    (htid : ∀ t : Nat, (t : Int) < min threads xs.length → (b.tid t : Int) < min threads xs.length) (r : Res (Except ε D))
    (hr : Hausdorff b threads xs ys d r) :
    ((∀ x ∈ xs, ∀ y ∈ ys, Returns (d x y)) ∧ ∃ v, r = .ok (.ok v) ∧ Distances.Hausdorff b threads xs ys (total d) (.ok v)) ∨
    ∃ i j x, ∃ (hi : i < xs.length) (hj : j < ys.length), d xs[i] ys[j] = .error x ∧ r = .ok (.error x) ∧
      (∀ j' (h : j' < j), Returns (d xs[i] (ys[j']'(by omega)))) ∧
      (threads = 1 ∨ b = .async → ∀ i' j' (h : i' < i) (h' : j' < ys.length), Returns (d (xs[i']'(by omega)) ys[j'])) := by
  unfold Hausdorff at hr
  split at hr
  · rename_i hgt
    unfold HausdorffParallel at hr
    rw [if_neg hx, if_neg hy] at hr
    obtain ⟨ws, hw, hrun⟩ := hr
    obtain ⟨hord, hidx, hthr⟩ := calls_spec hw hI hth h1 htid
    -- what a row does
    have hrow : ∀ i : Nat, ∃ o : Except ε D, i < xs.length → innerMin (fnDist xs ys d i) ys.length 0 ⊤ = .ok o := by
      intro i
      by_cases hi : i < xs.length
      · rcases row_spec xs ys d i hi with ⟨c, -, h2, -⟩ | ⟨j, x, -, -, -, h3⟩
        · exact ⟨_, fun _ => h2⟩
        · exact ⟨_, fun _ => h3⟩
      · exact ⟨.ok 0, fun h => absurd h hi⟩
    choose o ho using hrow
    let u : Call → Effects (Int × D) ε := fun c =>
      match o c.index.toNat with
      | .error x => ([], some x)
      | .ok m => ([(c.thread, m)], none)
    have hf : ∀ c ∈ ws.flatten, hausdorffBody ys.length (fnDist xs ys d) c = .ok (u c) := by
      intro c hc
      unfold hausdorffBody
      rw [ho _ (hidx c hc).2, Res.ok_bind]
      simp only [u]
      cases o c.index.toNat <;> rfl
    have hu1 : ∀ c a, a ∈ (u c).1 → a.1 = c.thread := by
      intro c a ha
      simp only [u] at ha
      cases h : o c.index.toNat with
      | error x => rw [h] at ha; simp at ha
      | ok m => rw [h] at ha; simp at ha; rw [ha]
    have hu2 : ∀ c x, (u c).2 = some x → o c.index.toNat = .error x := by
      intro c x hx
      simp only [u] at hx
      cases h : o c.index.toNat with
      | error y => rw [h] at hx; simp at hx; rw [hx]
      | ok m => rw [h] at hx; simp at hx
    have hu3 : ∀ c, (u c).2 = none → o c.index.toNat = .ok (val (o c.index.toNat)) ∧ (u c).1 = [(c.thread, val (o c.index.toNat))] := by
      intro c hx
      simp only [u] at hx ⊢
      cases h : o c.index.toNat with
      | error y => rw [h] at hx; simp at hx
      | ok m => exact ⟨rfl, rfl⟩
    rcases bodyRun_spec hf (fun tr htr => by
      obtain ⟨st, hst⟩ := keepMax_ok tr (List.replicate threads.toNat (0 : D)) (fun a ha => by
        obtain ⟨c, hc, hac⟩ := htr a ha
        rw [hu1 c a hac, List.length_replicate]
        exact hthr c hc)
      exact ⟨maxOf st, by rw [hst]; rfl⟩) hrun with ⟨hno, tr, v, htr, hv, rfl⟩ | ⟨pre, c, post, x, hsplit, hcx, rfl, hfirst⟩
    · left
      have hret : ∀ i (hi : i < xs.length), o i = .ok (val (o i)) := by
        intro i hi
        have hm : (i : Int) ∈ ws.flatten.map (·.index) := by rw [hord]; exact mem_irange.mpr (by omega)
        obtain ⟨c, hc, hci⟩ := List.mem_map.mp hm
        have := (hu3 c (hno c hc)).1
        rw [show c.index.toNat = i by omega] at this
        exact this
      have hall : ∀ i (hi : i < xs.length), (∀ j (hj : j < ys.length), Returns (d xs[i] ys[j])) ∧
          Distances.innerMin (Distances.fnDist xs ys (total d) i) ys.length 0 ⊤ = .ok (val (o i)) := by
        intro i hi
        rcases row_spec xs ys d i hi with ⟨m, h2, h3, h4⟩ | ⟨j, x, -, -, -, h3⟩
        · rw [ho i hi] at h3
          simp only [Res.ok.injEq] at h3
          rw [h3]
          exact ⟨h2, h4⟩
        · rw [ho i hi, hret i hi] at h3; cases h3
      refine ⟨fun x hx y hy => ?_, v, rfl, ?_⟩
      · obtain ⟨i, hi, rfl⟩ := List.getElem_of_mem hx
        obtain ⟨j, hj, rfl⟩ := List.getElem_of_mem hy
        exact (hall i hi).1 j hj
      · unfold Distances.Hausdorff
        rw [if_pos hgt]
        unfold Distances.HausdorffParallel
        rw [if_neg hx, if_neg hy]
        have hm : (ws.map fun w => w.flatMap fun c => (u c).1) = ws.map (List.map fun c => (c.thread, val (o c.index.toNat))) := by
          refine List.map_congr_left fun w hwm => ?_
          rw [← List.flatMap_singleton' (w.map _), List.flatMap_map]
          refine List.flatMap_congr fun c hc => ?_
          exact (hu3 c (hno c (List.mem_flatten.mpr ⟨w, hwm, hc⟩))).2
        rw [hm] at htr
        obtain ⟨tr', h2, rfl⟩ := interleaving_map_inv _ htr
        refine ⟨ws, tr', hw, h2, ?_⟩
        rw [← hv, ← keepMax_parLoop ys.length _ (fun i => val (o i)) tr' _ (fun c hc => ?_)]
        exact (hall _ (hidx c (h2.perm.subset hc)).2).2
    · right
      have hc : c ∈ ws.flatten := by rw [hsplit]; simp
      obtain ⟨h0, hi⟩ := hidx c hc
      have hox := hu2 c x hcx
      rcases row_spec xs ys d _ hi with ⟨m, -, h3, -⟩ | ⟨j, y, hj, h2, h3, h4⟩
      · rw [ho _ hi, hox] at h3; cases h3
      · rw [ho _ hi, hox] at h4
        cases h4
        refine ⟨c.index.toNat, j, x, hi, hj, h2, rfl, h3, fun hb i' j' hi' hj' => ?_⟩
        have hpre := hfirst (.inl (by
          rcases hb with h | rfl
          · omega
          · rfl))
        obtain ⟨c', hc', hci⟩ := before_index hord hsplit (i' : Int) (by omega) (by omega)
        have hok := (hu3 c' (hpre c' hc')).1
        rw [show c'.index.toNat = i' by omega] at hok
        rcases row_spec xs ys d i' (by omega) with ⟨m, h5, -, -⟩ | ⟨j', y, -, -, -, h6⟩
        · exact h5 j' hj'
        · rw [ho i' (by omega), hok] at h6; cases h6
  · rename_i hgt
    unfold hausdorffSerial at hr
    rw [if_neg hx, if_neg hy] at hr
    rcases serialLoop_spec xs ys d xs.length 0 0 (by omega) with ⟨c, k1, k2, k3⟩ | ⟨a, j, x, ha, hj, -, k2, k3, k4, k5⟩
    · left
      refine ⟨fun x hx y hy => ?_, c, by rw [hr, k2], ?_⟩
      · obtain ⟨i, hi, rfl⟩ := List.getElem_of_mem hx
        obtain ⟨j, hj, rfl⟩ := List.getElem_of_mem hy
        exact k1 i j hi hj (by omega) (by omega)
      · unfold Distances.Hausdorff Distances.hausdorffSerial
        rw [if_neg hgt, if_neg hx, if_neg hy, k3]
    · exact .inr ⟨a, j, x, ha, hj, k2, by rw [hr, k5], k3, fun _ i' j' h h' => k4 i' j' h h' (by omega)⟩

/-- C107: empty sets are refused before the distance function is called. -/
theorem C107_hausdorff_empty (b : Backend) (threads : Int) (xs : List A) (ys : List B) (d : A → B → Except ε D) (r : Res (Except ε D))
    (hr : Hausdorff b threads xs ys d r) (h : xs = [] ∨ ys = []) : r = .throw .invalidArgument := by
  unfold Hausdorff HausdorffParallel hausdorffSerial at hr
  by_cases hx : xs = []
  · simp only [hx, if_true, ite_self] at hr; exact hr
  · rcases h with h | h
    · exact absurd h hx
    · simp only [hx, h, if_true, if_false, ite_self] at hr; exact hr

/-! ### Matrices -/

theorem applyStores_total : ∀ (tr : List (Store D)) (m : Mat D), (∀ s ∈ tr, s.row < m.rows ∧ s.col < m.cols) → ∃ m', applyStores tr m = .ok m'
  | [], m, _ => ⟨m, rfl⟩
  | s :: ss, m, h => by
    unfold applyStores Mat.set
    rw [if_pos (h s (by simp)), Res.ok_bind]
    exact applyStores_total ss _ (fun q hq => h q (by simp [hq]))

theorem selfStores_spec (xs : List A) (d : A → A → Except ε D) (i : Nat) (hi : i < xs.length) : ∀ k j, i ≤ j → j + k ≤ xs.length →
    (∃ g, selfStores xs d i k j = .ok (g, none) ∧ Distances.selfStores xs (total d) i k j = .ok g ∧
      (∀ s ∈ g, s.row < xs.length ∧ s.col < xs.length) ∧
      ∀ a (ha : a < xs.length), i < a → j ≤ a → a < j + k → Returns (d xs[i] xs[a])) ∨
    ∃ g a x, ∃ ha : a < xs.length, selfStores xs d i k j = .ok (g, some x) ∧ (∀ s ∈ g, s.row < xs.length ∧ s.col < xs.length) ∧
      i < a ∧ j ≤ a ∧ d xs[i] xs[a] = .error x ∧ ∀ a' (h : a' < a), i < a' → j ≤ a' → Returns (d xs[i] (xs[a']'(by omega))) := by
  intro k
  induction k with
  | zero => intro j _ _; exact .inl ⟨[], rfl, rfl, by simp, fun a _ _ h1 h2 => by omega⟩
  | succ k ih =>
    intro j hij hjk
    have hj : j < xs.length := by omega
    have key : ∀ v : D, (i ≠ j → d xs[i] xs[j] = .ok v) → (i = j → v = 0) →
        selfStores xs d i (k + 1) j = (selfStores xs d i k (j + 1) >>= fun rest => pure (⟨i, j, v⟩ :: ⟨j, i, v⟩ :: rest.1, rest.2)) ∧
        Distances.selfStores xs (total d) i (k + 1) j =
          (Distances.selfStores xs (total d) i k (j + 1) >>= fun rest => pure (⟨i, j, v⟩ :: ⟨j, i, v⟩ :: rest)) := by
      intro v h1 h2
      rw [selfStores, Distances.selfStores]
      by_cases hne : i = j
      · rw [if_neg (by simpa using hne), if_neg (by simpa using hne), h2 hne]
        exact ⟨rfl, rfl⟩
      · rw [if_pos hne, if_pos hne]
        unfold atRaw
        rw [List.getElem?_eq_getElem hi, List.getElem?_eq_getElem hj]
        simp only [Res.ok_bind, Res.pure_eq, total, h1 hne]
        exact ⟨trivial, trivial⟩
    have hrest := ih (j + 1) (by omega) (by omega)
    by_cases hne : i = j
    · obtain ⟨e1, e2⟩ := key 0 (fun h => absurd hne h) (fun _ => rfl)
      rcases hrest with h | h
      · obtain ⟨g, k1, k2, k3, k4⟩ := h
        refine .inl ⟨⟨i, j, 0⟩ :: ⟨j, i, 0⟩ :: g, by rw [e1, k1]; rfl, by rw [e2, k2]; rfl, by simpa [hi, hj] using k3, fun a ha h1 h2 h3 => ?_⟩
        exact k4 a ha h1 (by omega) (by omega)
      · obtain ⟨g, a, x, ha, k1, k2, k3, k4, k5, k6⟩ := h
        refine .inr ⟨⟨i, j, 0⟩ :: ⟨j, i, 0⟩ :: g, a, x, ha, by rw [e1, k1]; rfl, by simpa [hi, hj] using k2, k3, by omega, k5, fun a' h h1 h2 => ?_⟩
        exact k6 a' h h1 (by omega)
    · cases hd : d xs[i] xs[j] with
      | error x =>
        refine .inr ⟨[], j, x, hj, ?_, by simp, by omega, le_refl _, hd, fun a' h h1 h2 => by omega⟩
        rw [selfStores, if_pos hne]
        unfold atRaw
        rw [List.getElem?_eq_getElem hi, List.getElem?_eq_getElem hj]
        simp only [Res.ok_bind, Res.pure_eq, hd]
      | ok v =>
        obtain ⟨e1, e2⟩ := key v (fun _ => hd) (fun h => absurd h hne)
        rcases hrest with h | h
        · obtain ⟨g, k1, k2, k3, k4⟩ := h
          refine .inl ⟨⟨i, j, v⟩ :: ⟨j, i, v⟩ :: g, by rw [e1, k1]; rfl, by rw [e2, k2]; rfl, by simpa [hi, hj] using k3, fun a ha h1 h2 h3 => ?_⟩
          by_cases haj : a = j
          · subst haj; exact ⟨v, hd⟩
          · exact k4 a ha h1 (by omega) (by omega)
        · obtain ⟨g, a, x, ha, k1, k2, k3, k4, k5, k6⟩ := h
          refine .inr ⟨⟨i, j, v⟩ :: ⟨j, i, v⟩ :: g, a, x, ha, by rw [e1, k1]; rfl, by simpa [hi, hj] using k2, k3, by omega, k5, fun a' h h1 h2 => ?_⟩
          by_cases haj : a' = j
          · subst haj; exact ⟨v, hd⟩
          · exact k6 a' h h1 (by omega)

theorem crossStores_spec (xs : List A) (ys : List B) (d : A → B → Except ε D) (i : Nat) (hi : i < xs.length) : ∀ k j, j + k ≤ ys.length →
    (∃ g, crossStores xs ys d i k j = .ok (g, none) ∧ Distances.crossStores xs ys (total d) i k j = .ok g ∧
      (∀ s ∈ g, s.row < xs.length ∧ s.col < ys.length) ∧
      ∀ a (ha : a < ys.length), j ≤ a → a < j + k → Returns (d xs[i] ys[a])) ∨
    ∃ g a x, ∃ ha : a < ys.length, crossStores xs ys d i k j = .ok (g, some x) ∧ (∀ s ∈ g, s.row < xs.length ∧ s.col < ys.length) ∧
      j ≤ a ∧ d xs[i] ys[a] = .error x ∧ ∀ a' (h : a' < a), j ≤ a' → Returns (d xs[i] (ys[a']'(by omega))) := by
  intro k
  induction k with
  | zero => intro j _; exact .inl ⟨[], rfl, rfl, by simp, fun a _ h1 h2 => by omega⟩
  | succ k ih =>
    intro j hjk
    have hj : j < ys.length := by omega
    rw [crossStores, Distances.crossStores]
    unfold atRaw
    rw [List.getElem?_eq_getElem hi, List.getElem?_eq_getElem hj]
    simp only [Res.ok_bind]
    cases hd : d xs[i] ys[j] with
    | error x => exact .inr ⟨[], j, x, hj, rfl, by simp, le_refl _, hd, fun a' h h1 => by omega⟩
    | ok v =>
      have ht : total d xs[i] ys[j] = v := by unfold total; rw [hd]
      rw [ht]
      dsimp only
      rcases ih (j + 1) (by omega) with ⟨g, k1, k2, k3, k4⟩ | ⟨g, a, x, ha, k1, k2, k3, k4, k5⟩
      · refine .inl ⟨⟨i, j, v⟩ :: g, by rw [k1]; rfl, by rw [k2]; rfl, by simpa [hi, hj] using k3, fun a ha h1 h2 => ?_⟩
        by_cases haj : a = j
        · subst haj; exact ⟨v, hd⟩
        · exact k4 a ha (by omega) (by omega)
      · refine .inr ⟨⟨i, j, v⟩ :: g, a, x, ha, by rw [k1]; rfl, by simpa [hi, hj] using k2, by omega, k4, fun a' h h1 => ?_⟩
        by_cases haj : a' = j
        · subst haj; exact ⟨v, hd⟩
        · exact k5 a' h (by omega)

/-- Matrix-filling loops in general: `w i j` is the outcome of the distance function at (i, j), called for `j < m` with `called i j`. -/
theorem matrix_spec {b : Backend} {threads : Int} {n m : Nat} {f : Nat → Res (Effects (Store D) ε)} {f' : Nat → Res (List (Store D))}
    {called : Nat → Nat → Prop} {w : Nat → Nat → Except ε D} {init : Mat D} (hI : InI64 n) (hth : InI64 threads) (h1 : 1 ≤ threads)
    (htid : ∀ t : Nat, (t : Int) < min threads n → (b.tid t : Int) < min threads n)
    (hf : ∀ i, i < n → (∃ g, f i = .ok (g, none) ∧ f' i = .ok g ∧ (∀ s ∈ g, s.row < init.rows ∧ s.col < init.cols) ∧
        ∀ j, j < m → called i j → Returns (w i j)) ∨
      ∃ g j x, f i = .ok (g, some x) ∧ (∀ s ∈ g, s.row < init.rows ∧ s.col < init.cols) ∧ j < m ∧ called i j ∧ w i j = .error x ∧
        ∀ j' < j, called i j' → Returns (w i j'))
    {ws : List (List Call)} (hw : staticIndexLoop b threads 0 n = .ok ws) {r : Res (Except ε (Mat D))}
    (hr : BodyRun b.isOmp (fun c : Call => f c.index.toNat) ws (fun tr => applyStores tr init) r) :
    ((∀ i j, i < n → j < m → called i j → Returns (w i j)) ∧ ∃ v, r = .ok (.ok v) ∧ MatrixRun b threads n f' init (.ok v)) ∨
    ∃ i j x, i < n ∧ j < m ∧ called i j ∧ w i j = .error x ∧ r = .ok (.error x) ∧ (∀ j' < j, called i j' → Returns (w i j')) ∧
      (threads = 1 ∨ b = .async → ∀ i' j', i' < i → j' < m → called i' j' → Returns (w i' j')) := by
  obtain ⟨hord, hidx, -⟩ := calls_spec hw hI hth h1 htid
  have hout : ∀ i : Nat, ∃ u : Effects (Store D) ε, i < n → f i = .ok u ∧ (∀ s ∈ u.1, s.row < init.rows ∧ s.col < init.cols) ∧
      (u.2 = none → f' i = .ok u.1 ∧ ∀ j, j < m → called i j → Returns (w i j)) ∧
      ∀ x, u.2 = some x → ∃ j, j < m ∧ called i j ∧ w i j = .error x ∧ ∀ j' < j, called i j' → Returns (w i j') := by
    intro i
    by_cases hi : i < n
    · rcases hf i hi with ⟨g, k1, k2, k3, k4⟩ | ⟨g, j, x, k1, k2, k3, k4, k5, k6⟩
      · exact ⟨(g, none), fun _ => ⟨k1, k3, fun _ => ⟨k2, k4⟩, fun x h => by cases h⟩⟩
      · refine ⟨(g, some x), fun _ => ⟨k1, k2, (fun h => by cases h), fun y h => ?_⟩⟩
        cases h
        exact ⟨j, k3, k4, k5, k6⟩
    · exact ⟨([], none), fun h => absurd h hi⟩
  choose u hu using hout
  rcases bodyRun_spec (u := fun c : Call => u c.index.toNat) (fun c hc => (hu _ (hidx c hc).2).1) (fun tr htr => by
    refine applyStores_total tr init fun s hs => ?_
    obtain ⟨c, hc, hsc⟩ := htr s hs
    exact (hu _ (hidx c hc).2).2.1 s hsc) hr with ⟨hno, tr, v, htr, hv, rfl⟩ | ⟨pre, c, post, x, hsplit, hcx, rfl, hfirst⟩
  · left
    have hnone : ∀ i, i < n → (u i).2 = none := by
      intro i hi
      have hm : (i : Int) ∈ ws.flatten.map (·.index) := by rw [hord]; exact mem_irange.mpr (by omega)
      obtain ⟨c, hc, hci⟩ := List.mem_map.mp hm
      have := hno c hc
      rwa [show c.index.toNat = i by omega] at this
    refine ⟨fun i j hi hj hc => ((hu i hi).2.2.1 (hnone i hi)).2 j hj hc, v, rfl, ws, hw, .inl ⟨_, tr, ?_, htr, hv.symm⟩⟩
    exact allStores_ok (g := fun i => (u i).1) (n := n) (fun i hi => ((hu i hi).2.2.1 (hnone i hi)).1) ws
      (fun w' hw' c hc => (hidx c (List.mem_flatten.mpr ⟨w', hw', hc⟩)).2)
  · right
    have hc : c ∈ ws.flatten := by rw [hsplit]; simp
    obtain ⟨h0, hi⟩ := hidx c hc
    obtain ⟨j, k1, k2, k3, k4⟩ := (hu _ hi).2.2.2 x hcx
    refine ⟨c.index.toNat, j, x, hi, k1, k2, k3, rfl, k4, fun hb i' j' hi' hj' hcd => ?_⟩
    have hpre := hfirst (by
      rcases hb with h | rfl
      · exact .inr (single_range (by omega) hw)
      · exact .inl rfl)
    obtain ⟨c', hc', hci⟩ := before_index hord hsplit (i' : Int) (by omega) (by omega)
    have hok := hpre c' hc'
    rw [show c'.index.toNat = i' by omega] at hok
    exact ((hu i' (by omega)).2.2.1 hok).2 j' hj' hcd

/-- C107, distance matrix of one data set: the function is called on the pairs i < j. Either it returns on all of them, and the matrix is that of
the total function with these values (C52); or it throws on some, and the call throws what it has thrown on a pair (i, j), having returned on (i, j')
for i < j' < j. On one thread, or with `std::async`, this is the first pair in lexicographic order on which the function throws. -/
theorem C107_self_matrix (b : Backend) (threads : Int) (xs : List A) (d : A → A → Except ε D) (hI : InI64 xs.length) (hth : InI64 threads)
    (h1 : 1 ≤ threads) (htid : ∀ t : Nat, (t : Int) < min threads xs.length → (b.tid t : Int) < min threads xs.length)
    (r : Res (Except ε (Mat D))) (hr : SelfMatrix b threads xs d r) :
    ((∀ i j (h : i < j) (hj : j < xs.length), Returns (d xs[i] xs[j])) ∧
      ∃ m, r = .ok (.ok m) ∧ Distances.SelfMatrix b threads xs (total d) (.ok m)) ∨
    ∃ i j x, ∃ (hij : i < j) (hj : j < xs.length), d xs[i] xs[j] = .error x ∧ r = .ok (.error x) ∧
      (∀ j' (_ : i < j') (h : j' < j), Returns (d xs[i] (xs[j']'(by omega)))) ∧
      (threads = 1 ∨ b = .async → ∀ i' j' (h : i' < i) (_ : i' < j') (h' : j' < xs.length), Returns (d (xs[i']'(by omega)) xs[j'])) := by
  obtain ⟨init, ws, hw, hrun⟩ := hr
  let w : Nat → Nat → Except ε D := fun i j => if h : i < xs.length ∧ j < xs.length then d xs[i] xs[j] else .ok 0
  have hwv : ∀ i j (hi : i < xs.length) (hj : j < xs.length), w i j = d xs[i] xs[j] := fun i j hi hj => dif_pos ⟨hi, hj⟩
  rcases matrix_spec (m := xs.length) (called := fun i j => i < j) (w := w) (f := fun i => selfStores xs d i (xs.length - i) i)
    (f' := selfWork xs (total d)) hI hth h1 htid (fun i hi => by
      rcases selfStores_spec xs d i hi (xs.length - i) i (le_refl _) (by omega) with ⟨g, k1, k2, k3, k4⟩ | ⟨g, a, x, ha, k1, k2, k3, k4, k5, k6⟩
      · exact .inl ⟨g, k1, k2, k3, fun j hj hc => by rw [hwv i j hi hj]; exact k4 j hj hc (by omega) (by omega)⟩
      · exact .inr ⟨g, a, x, k1, k2, ha, k3, by rw [hwv i a hi ha]; exact k5, fun j' hj' hc => by
          rw [hwv i j' hi (by omega)]; exact k6 j' hj' hc (by omega)⟩) hw hrun with ⟨k1, m, k2, k3⟩ | ⟨i, j, x, hi, hj, hc, k1, k2, k3, k4⟩
  · exact .inl ⟨fun i j h hj => by rw [← hwv i j (by omega) hj]; exact k1 i j (by omega) hj h, m, k2, init, k3⟩
  · refine .inr ⟨i, j, x, hc, hj, by rw [← hwv i j hi hj]; exact k1, k2, fun j' h h' => ?_, fun hb i' j' h h' h'' => ?_⟩
    · rw [← hwv i j' hi (by omega)]; exact k3 j' h' h
    · rw [← hwv i' j' (by omega) h'']; exact k4 hb i' j' h h'' h'

/-- C107, distance matrix of two data sets. -/
theorem C107_cross_matrix (b : Backend) (threads : Int) (xs : List A) (ys : List B) (d : A → B → Except ε D) (hI : InI64 xs.length)
    (hth : InI64 threads) (h1 : 1 ≤ threads) (htid : ∀ t : Nat, (t : Int) < min threads xs.length → (b.tid t : Int) < min threads xs.length)
    (r : Res (Except ε (Mat D))) (hr : CrossMatrix b threads xs ys d r) :
    ((∀ x ∈ xs, ∀ y ∈ ys, Returns (d x y)) ∧ ∃ m, r = .ok (.ok m) ∧ Distances.CrossMatrix b threads xs ys (total d) (.ok m)) ∨
    ∃ i j x, ∃ (hi : i < xs.length) (hj : j < ys.length), d xs[i] ys[j] = .error x ∧ r = .ok (.error x) ∧
      (∀ j' (h : j' < j), Returns (d xs[i] (ys[j']'(by omega)))) ∧
      (threads = 1 ∨ b = .async → ∀ i' j' (h : i' < i) (h' : j' < ys.length), Returns (d (xs[i']'(by omega)) ys[j'])) := by
  obtain ⟨init, ws, hw, hrun⟩ := hr
  let w : Nat → Nat → Except ε D := fun i j => if h : i < xs.length ∧ j < ys.length then d xs[i] ys[j] else .ok 0
  have hwv : ∀ i j (hi : i < xs.length) (hj : j < ys.length), w i j = d xs[i] ys[j] := fun i j hi hj => dif_pos ⟨hi, hj⟩
  rcases matrix_spec (m := ys.length) (called := fun _ _ => True) (w := w) (f := fun i => crossStores xs ys d i ys.length 0)
    (f' := fun i => Distances.crossStores xs ys (total d) i ys.length 0) hI hth h1 htid (fun i hi => by
      rcases crossStores_spec xs ys d i hi ys.length 0 (by omega) with ⟨g, k1, k2, k3, k4⟩ | ⟨g, a, x, ha, k1, k2, k3, k4, k5⟩
      · exact .inl ⟨g, k1, k2, k3, fun j hj _ => by rw [hwv i j hi hj]; exact k4 j hj (by omega) (by omega)⟩
      · exact .inr ⟨g, a, x, k1, k2, ha, trivial, by rw [hwv i a hi ha]; exact k4, fun j' hj' _ => by
          rw [hwv i j' hi (by omega)]; exact k5 j' hj' (by omega)⟩) hw hrun with ⟨k1, m, k2, k3⟩ | ⟨i, j, x, hi, hj, -, k1, k2, k3, k4⟩
  · refine .inl ⟨fun x hx y hy => ?_, m, k2, init, k3⟩
    obtain ⟨i, hi, rfl⟩ := List.getElem_of_mem hx
    obtain ⟨j, hj, rfl⟩ := List.getElem_of_mem hy
    rw [← hwv i j hi hj]; exact k1 i j hi hj trivial
  · refine .inr ⟨i, j, x, hi, hj, by rw [← hwv i j hi hj]; exact k1, k2, fun j' h' => ?_, fun hb i' j' h h'' => ?_⟩
    · rw [← hwv i j' hi (by omega)]; exact k3 j' h' trivial
    · rw [← hwv i' j' (by omega) h'']; exact k4 hb i' j' h h'' trivial

/-- Runs exist. -/
theorem C107_runs_exist (b : Backend) (threads : Int) (xs : List A) (ys : List B) (d : A → B → Except ε D) (d' : A → A → Except ε D)
    (hI : InI64 xs.length) (hth : InI64 threads) :
    (∃ r, Hausdorff b threads xs ys d r) ∧ (∃ r, SelfMatrix b threads xs d' r) ∧ ∃ r, CrossMatrix b threads xs ys d r := by
  obtain ⟨_, ws, _, hws, _, _⟩ := IndexRun.exists b threads 0 xs.length (by decide) hI hth (by simpa using hI) (by omega)
  refine ⟨?_, ?_, ?_⟩
  · unfold Hausdorff
    split
    · unfold HausdorffParallel
      split
      · exact ⟨_, rfl⟩
      · split
        · exact ⟨_, rfl⟩
        · obtain ⟨r, h⟩ := bodyRun_exists b.isOmp (hausdorffBody ys.length (fnDist xs ys d)) ws
            (fun tr => keepMax tr (List.replicate threads.toNat 0) >>= fun st => pure (maxOf st))
          exact ⟨r, ws, hws, h⟩
    · exact ⟨_, rfl⟩
  · obtain ⟨r, h⟩ := bodyRun_exists b.isOmp (fun c : Call => selfStores xs d' c.index.toNat (xs.length - c.index.toNat) c.index.toNat) ws
      (fun tr => applyStores tr ⟨xs.length, xs.length, fun _ _ => 0⟩)
    exact ⟨r, _, ws, hws, h⟩
  · obtain ⟨r, h⟩ := bodyRun_exists b.isOmp (fun c : Call => crossStores xs ys d c.index.toNat ys.length 0) ws
      (fun tr => applyStores tr ⟨xs.length, ys.length, fun _ _ => 0⟩)
    exact ⟨r, _, ws, hws, h⟩

/-! ### Non-vacuity -/

/-- |x - y|, throws `x` if `y` is 0. -/
def demo (x y : Nat) : Except Nat ℕ∞ := if y = 0 then .error x else .ok ((max x y - min x y : Nat) : ℕ∞)

/-- Three threads: all rows throw, the exception that comes out is the 2 thrown on the first pair. -/
example : ∃ r, Hausdorff .async 3 [2, 9, 4, 7] [1, 0, 8] demo r ∧ r = .ok (.error 2) := by
  obtain ⟨r, hr⟩ := (C107_runs_exist .async 3 [2, 9, 4, 7] [1, 0, 8] demo demo (by decide) (by decide)).1
  refine ⟨r, hr, ?_⟩
  rcases C107_hausdorff _ _ _ _ _ (by simp) (by simp) (by decide) (by decide) (by decide) (fun t h => h) r hr with
    ⟨h, -⟩ | ⟨i, j, x, hi, hj, h1, h2, -, h4⟩
  · obtain ⟨v, hv⟩ := h 2 (by simp) 0 (by simp); cases hv
  · have hi0 : i = 0 := by
      by_contra hne
      obtain ⟨v, hv⟩ := h4 (.inr rfl) 0 1 (by omega) (by simp)
      cases hv
    subst hi0
    rw [h2]
    have hx : x = 2 := by
      have : ∀ y, demo 2 y = .error x → x = 2 := by
        intro y h
        unfold demo at h
        split at h
        · cases h; rfl
        · cases h
      exact this _ h1
    rw [hx]

/-- No pair throws. -/
example : ∃ r v, Hausdorff .async 3 [2, 9, 4, 7] [1, 8] demo r ∧ r = .ok (.ok v) := by
  obtain ⟨r, hr⟩ := (C107_runs_exist .async 3 [2, 9, 4, 7] [1, 8] demo demo (by decide) (by decide)).1
  rcases C107_hausdorff _ _ _ _ _ (by simp) (by simp) (by decide) (by decide) (by decide) (fun t h => h) r hr with
    ⟨-, v, h, -⟩ | ⟨i, j, x, hi, hj, h1, -⟩
  · exact ⟨r, v, hr, h⟩
  · have : ∀ y ∈ [1, 8], ∀ z, demo z y ≠ .error x := by
      intro y hy z h
      unfold demo at h
      split at h
      · rename_i h0; subst h0; simp at hy
      · cases h
    exact absurd h1 (this _ (List.getElem_mem _) _)

/-- Matrices, with any backend. -/
example := C107_self_matrix (.omp fun t => t) 2 [3, 0, 5] demo (by decide) (by decide) (by decide) (fun t h => h)
example := C107_cross_matrix (.omp fun t => t) 2 [3, 0, 5] [0, 1] demo (by decide) (by decide) (by decide) (fun t h => h)
example := C107_hausdorff_empty .async 2 ([] : List Nat) [1] demo

end Proofs
end CRU.Distances.Throw
