import Verif.Knn.Props
import Verif.Distances.Throw
/-
  C107, K nearest neighbours with a distance function that may throw. `.ok (.error x)` means that the call throws the caller's exception `x`.
-/
namespace CRU.Knn.Throw
open CRU.Parallel CRU.Distances.Throw
set_option linter.unusedSectionVars false

variable {Item D ε : Type}

/-! ### Model -/

/-- simple_knearest_neighbors.hpp:95-101 / 107-113: index and distance of `items[idx], …` (`n` of them), up to the first exception. -/
def collect (items : List Item) (d : Item → Except ε D) : Nat → Nat → Res (Except ε (List (Entry D)))
  | 0, _ => .ok (.ok [])
  | n + 1, idx => do
    let x ← atRaw items idx
    match d x with
    | .error x => pure (.error x)
    | .ok v =>
      match ← collect items d n (idx + 1) with
      | .error x => pure (.error x)
      | .ok rest => pure (.ok (⟨(idx : Int), v⟩ :: rest))

/-- simple_knearest_neighbors.hpp:67-124 `GetKNearestNeighborsInRangeSerial`. -/
def knnSerial (ps : Nat → List (Entry D) → List (Entry D)) (items : List Item) (d : Item → Except ε D) (s e : Nat) (K : Int) :
    Res (Except ε (List (Entry D))) :=
  if e < s then .throw .invalidArgument
  else if e > items.length then .throw .invalidArgument
  else if K < 0 then .throw .invalidArgument
  else if K = 0 ∨ e - s = 0 then .ok (.ok [])
  else if e - s ≤ K.toNat then collect items d (e - s) s
  else do
    match ← collect items d (e - s) s with
    | .error x => pure (.error x)
    | .ok all =>
      let sorted ← partialSort ps K.toNat all
      pure (.ok (sorted.take K.toNat))

/-- simple_knearest_neighbors.hpp:171-178, `per_item_work`: one entry for its place, or an exception. -/
def itemBody (items : List Item) (d : Item → Except ε D) (s : Nat) (c : Call) : Res (Effects (Int × Entry D) ε) := do
  let x ← atRaw items c.index.toNat
  match d x with
  | .error x => pure ([], some x)
  | .ok v => pure ([(c.index - s, ⟨c.index, v⟩)], none)

/-- simple_knearest_neighbors.hpp:195-204, the work for one range: its neighbours for the slot of its thread, or an exception. -/
def rangeBody (ps : Nat → List (Entry D) → List (Entry D)) (items : List Item) (d : Item → Except ε D) (K : Int) (w : WorkRange) :
    Res (Effects (Int × List (Entry D)) ε) := do
  match ← knnSerial ps items d w.start.toNat w.stop.toNat K with
  | .error x => pure ([], some x)
  | .ok r => pure ([(w.thread, r)], none)

/-- simple_knearest_neighbors.hpp:177, 202: the assignments, in the given order. -/
def assignAll {α : Type} : List (Int × α) → List α → Res (List α)
  | [], v => .ok v
  | (i, x) :: l, v => do
    let v' ← setRaw v i x
    assignAll l v'

/-- simple_knearest_neighbors.hpp:126-231 `GetKNearestNeighborsInRangeParallel`: `r` is the outcome of one run. -/
def KnnParallelRun (ps : Nat → List (Entry D) → List (Entry D)) (b : Backend) (threads : Int) (items : List Item) (d : Item → Except ε D)
    (s e : Nat) (K : Int) (r : Res (Except ε (List (Entry D)))) : Prop :=
  if e < s then r = .throw .invalidArgument
  else if e > items.length then r = .throw .invalidArgument
  else if K < 0 then r = .throw .invalidArgument
  else if K = 0 ∨ e - s = 0 then r = .ok (.ok [])
  else if e - s ≤ K.toNat then
    ∃ ws init, staticIndexLoop b threads s e = .ok ws ∧ init.length = e - s ∧
      BodyRun b.isOmp (itemBody items d s) ws (fun tr => assignAll tr init) r
  else
    ∃ ws o, staticRangeLoop b threads s e = .ok ws ∧
      BodyRun b.isOmp (rangeBody ps items d K) (ws.map fun w => [w]) (fun tr => assignAll tr (List.replicate threads.toNat [])) o ∧
      r = (o >>= fun
        | .error x => pure (.error x)
        | .ok slots => do
          let m ← merge ps K slots
          pure (.ok m))

/-- simple_knearest_neighbors.hpp:258-280 `GetKNearestNeighborsInRange`. -/
def KnnRun (ps : Nat → List (Entry D) → List (Entry D)) (b : Backend) (threads : Int) (items : List Item) (d : Item → Except ε D) (s e : Nat)
    (K : Int) (r : Res (Except ε (List (Entry D)))) : Prop :=
  if threads > 1 then KnnParallelRun ps b threads items d s e K r else r = knnSerial ps items d s e K

/-! ### Specification -/

/-- `d'` has the values of `d` on the range, where `d` returns. -/
def Agrees (items : List Item) (d : Item → Except ε D) (s e : Nat) (d' : Item → D) : Prop :=
  ∀ i (h : i < items.length), s ≤ i → i < e → d items[i] = .ok (d' items[i])

/-! ### Proofs -/

theorem collect_spec (items : List Item) (d : Item → Except ε D) : ∀ n idx, idx + n ≤ items.length →
    (∃ l, (∀ i (h : i < items.length), idx ≤ i → i < idx + n → Returns (d items[i])) ∧ collect items d n idx = .ok (.ok l) ∧ l.length = n ∧
      ∀ d', Agrees items d idx (idx + n) d' → Knn.collect items d' n idx = .ok l) ∨
    ∃ i x, ∃ hi : i < items.length, idx ≤ i ∧ i < idx + n ∧ d items[i] = .error x ∧
      (∀ j (h : j < i), idx ≤ j → Returns (d (items[j]'(by omega)))) ∧ collect items d n idx = .ok (.error x) := by
  intro n
  induction n with
  | zero => intro idx _; exact .inl ⟨[], fun i h h1 h2 => by omega, rfl, rfl, fun _ _ => rfl⟩
  | succ n ih =>
    intro idx hn
    have hi : idx < items.length := by omega
    have hx : atRaw items idx = .ok items[idx] := by unfold atRaw; rw [List.getElem?_eq_getElem hi]
    rw [collect, hx, Res.ok_bind]
    cases hd : d items[idx] with
    | error x => exact .inr ⟨idx, x, hi, le_refl _, by omega, hd, fun j h h1 => by omega, rfl⟩
    | ok v =>
      dsimp only
      rcases ih (idx + 1) (by omega) with ⟨l, k1, k2, k3, k4⟩ | ⟨i, x, hi', k1, k2, k3, k4, k5⟩
      · refine .inl ⟨⟨(idx : Int), v⟩ :: l, fun i h h1 h2 => ?_, by rw [k2]; rfl, by simp [k3], fun d' ha => ?_⟩
        · by_cases hii : i = idx
          · subst hii; exact ⟨v, hd⟩
          · exact k1 i h (by omega) (by omega)
        · rw [Knn.collect, hx, Res.ok_bind, k4 d' (fun i h h1 h2 => ha i h (by omega) (by omega))]
          have := ha idx hi (le_refl _) (by omega)
          rw [hd] at this
          cases this
          rfl
      · refine .inr ⟨i, x, hi', by omega, by omega, k3, fun j h h1 => ?_, by rw [k5]; rfl⟩
        by_cases hij : j = idx
        · subst hij; exact ⟨v, hd⟩
        · exact k4 j h (by omega)

/-- The serial search on a non-trivial query. -/
theorem serial_spec (ps : Nat → List (Entry D) → List (Entry D)) (items : List Item) (d : Item → Except ε D) (s e : Nat) (K : Int)
    (hse : s < e) (he : e ≤ items.length) (hK : 0 < K) :
    (∃ l, (∀ i (h : i < items.length), s ≤ i → i < e → Returns (d items[i])) ∧ knnSerial ps items d s e K = .ok (.ok l) ∧
      ∀ d', Agrees items d s e d' → Knn.knnSerial ps items d' s e K = .ok l) ∨
    ∃ i x, ∃ hi : i < items.length, s ≤ i ∧ i < e ∧ d items[i] = .error x ∧ (∀ j (h : j < i), s ≤ j → Returns (d (items[j]'(by omega)))) ∧
      knnSerial ps items d s e K = .ok (.error x) := by
  have h0 : ¬ (K = 0 ∨ e - s = 0) := by omega
  unfold knnSerial Knn.knnSerial
  simp only [if_neg (show ¬ e < s by omega), if_neg (show ¬ e > items.length by omega), if_neg (show ¬ K < 0 by omega), if_neg h0]
  have hc := collect_spec items d (e - s) s (by omega)
  rw [show s + (e - s) = e by omega] at hc
  rcases hc with ⟨l, k1, k2, k3, k4⟩ | ⟨i, x, hi, k1, k2, k3, k4, k5⟩
  · left
    split
    · exact ⟨l, k1, k2, k4⟩
    · rename_i hgt
      have hps : partialSort ps K.toNat l = .ok (ps K.toNat l) := by unfold partialSort; rw [if_pos (by omega)]
      refine ⟨(ps K.toNat l).take K.toNat, k1, by rw [k2]; simp only [Res.ok_bind, hps, Res.pure_eq], fun d' hd' => ?_⟩
      rw [k4 d' hd']
      simp only [Res.ok_bind, hps, Res.pure_eq]
  · right
    refine ⟨i, x, hi, k1, k2, k3, k4, ?_⟩
    split
    · exact k5
    · rw [k5]; rfl

theorem assignAll_ok {α : Type} : ∀ (l : List (Int × α)) (v : List α), (∀ a ∈ l, 0 ≤ a.1 ∧ a.1.toNat < v.length) → ∃ v', assignAll l v = .ok v'
  | [], v, _ => ⟨v, rfl⟩
  | (i, x) :: l, v, h => by
    obtain ⟨h1, h2⟩ := h (i, x) (by simp)
    unfold assignAll setRaw
    rw [if_pos ⟨h1, h2⟩, Res.ok_bind]
    exact assignAll_ok l _ fun a ha => by simpa using h a (by simp [ha])

theorem assignAll_fill {α : Type} (g : Int → α) (s : Int) : ∀ (is : List Int) (v : List α),
    assignAll (is.map fun i => (i - s, g i)) v = fillAll (fun i => .ok (g i)) s is v
  | [], v => rfl
  | i :: is, v => by
    rw [List.map_cons]
    unfold assignAll fillAll
    rw [Res.ok_bind]
    cases setRaw v (i - s) (g i) with
    | ok v' => rw [Res.ok_bind, Res.ok_bind]; exact assignAll_fill g s is v'
    | throw e => rfl
    | ub => rfl

theorem assignAll_ranges (ps : Nat → List (Entry D) → List (Entry D)) (items : List Item) (d : Item → D) (K : Int)
    (g : WorkRange → List (Entry D)) : ∀ (ws : List WorkRange) (slots : List (List (Entry D))),
    (∀ w ∈ ws, Knn.knnSerial ps items d w.start.toNat w.stop.toNat K = .ok (g w)) →
    assignAll (ws.map fun w => (w.thread, g w)) slots = runRanges ps items d K ws slots
  | [], slots, _ => rfl
  | w :: ws, slots, h => by
    rw [List.map_cons]
    unfold assignAll runRanges
    rw [h w (by simp), Res.ok_bind]
    cases setRaw slots w.thread (g w) with
    | ok v' => rw [Res.ok_bind, Res.ok_bind]; exact assignAll_ranges ps items d K g ws v' (fun q hq => h q (by simp [hq]))
    | throw e => rfl
    | ub => rfl

/-- The work ranges of a non-empty range. -/
theorem ranges_spec {b : Backend} {threads : Int} {s e : Nat} (hs : InI64 s) (he : InI64 e) (hth : InI64 threads) (hsz : InI64 ((e : Int) - s))
    (h1 : 1 ≤ threads) (hse : s < e) (htid : ∀ t : Nat, (t : Int) < min threads ((e : Int) - s) → (b.tid t : Int) < min threads ((e : Int) - s)) {ws : List WorkRange}
    (h : staticRangeLoop b threads s e = .ok ws) :
    (ws.map fun w => irange w.start w.stop).flatten = irange s e ∧
    (∀ w ∈ ws, (s : Int) ≤ w.start ∧ w.start < w.stop ∧ w.stop ≤ e ∧ 0 ≤ w.thread ∧ w.thread < threads) ∧
    (threads = 1 → ws.length ≤ 1) := by
  rw [staticRangeLoop_eq b threads s e hs he hth hsz (by omega)] at h
  cases h
  split
  · rename_i hc
    refine ⟨by simp, by simp; omega, by simp⟩
  · rename_i hc
    refine ⟨?_, ?_, fun ht => by omega⟩
    · rw [flatten_rangesFrom b s e _ (by omega) (by omega)]
      rw [show (((0 + (min threads ((e : Int) - s)).toNat : Nat)) : Int) = min threads (e - s) by omega]
      rw [bnd_last _ _ _ (by omega) (by omega)]
      rw [show ((0 : Nat) : Int) = 0 from rfl, bnd_zero _ _ _ (by omega) (by omega)]
    · intro w hw
      simp only [rangesFrom, List.mem_map, List.mem_range] at hw
      obtain ⟨j, hj, rfl⟩ := hw
      have := htid (0 + j) (by omega)
      have b1 := bnd_range s e (min threads ((e : Int) - s)) ((0 + j : Nat) : Int) (by omega) (by omega) (by omega) (by omega)
      have b2 := bnd_range s e (min threads ((e : Int) - s)) (((0 + j : Nat) : Int) + 1) (by omega) (by omega) (by omega) (by omega)
      refine ⟨b1.1, ?_, b2.2, by simp, by simp only [Nat.zero_add] at this ⊢; omega⟩
      have hb := bnd_succ s e (min threads ((e : Int) - s)) ((0 + j : Nat) : Int)
      have hdiv : 1 ≤ ((e : Int) - s) / min threads ((e : Int) - s) := by
        rw [Int.le_ediv_iff_mul_le (by omega)]; omega
      dsimp only
      rw [hb]
      split <;> omega

theorem irange_pairwise (s e : Int) : (irange s e).Pairwise (· < ·) := by
  rw [List.pairwise_iff_getElem]
  intro i j hi hj hij
  rw [irange_get, irange_get]
  omega

/-! ### Theorems -/

/-- C107, K nearest neighbours, on a query that has something to search: either the distance function returns on all items in the range, and the
call behaves as with any total function that has these values there (C08, C09); or it throws on some item in the range, and the call throws what it
has thrown on one of them. On one thread, or with `std::async`, this is the first item in the range on which the function throws. -/
theorem C107_knn (ps : Nat → List (Entry D) → List (Entry D)) (b : Backend) (threads : Int) (items : List Item) (d : Item → Except ε D)
    (s e : Nat) (K : Int) (hse : s < e) (he : e ≤ items.length) (hK : 0 < K) (hI : InI64 items.length) (hth : InI64 threads) (h1 : 1 ≤ threads)
    (htid : ∀ t : Nat, (t : Int) < min threads ((e : Int) - s) → (b.tid t : Int) < min threads ((e : Int) - s)) (r : Res (Except ε (List (Entry D))))
    (hr : KnnRun ps b threads items d s e K r) :
    ((∀ i (h : i < items.length), s ≤ i → i < e → Returns (d items[i])) ∧
      ∃ r', r = (r' >>= fun l => .ok (.ok l)) ∧ ∀ d', Agrees items d s e d' → Knn.KnnRun ps b threads items d' s e K r') ∨
    ∃ i x, ∃ hi : i < items.length, s ≤ i ∧ i < e ∧ d items[i] = .error x ∧ r = .ok (.error x) ∧
      (threads = 1 ∨ b = .async → ∀ j (h : j < i), s ≤ j → Returns (d (items[j]'(by omega)))) := by
  have hsI : InI64 s := by unfold InI64 at *; omega
  have heI : InI64 e := by unfold InI64 at *; omega
  have hdI : InI64 ((e : Int) - s) := by unfold InI64 at *; omega
  unfold KnnRun at hr
  split at hr
  · rename_i hgt
    have h0 : ¬ (K = 0 ∨ e - s = 0) := by omega
    unfold KnnParallelRun at hr
    simp only [if_neg (show ¬ e < s by omega), if_neg (show ¬ e > items.length by omega), if_neg (show ¬ K < 0 by omega), if_neg h0] at hr
    have hasync : threads = 1 ∨ b = .async → b.isOmp = false := by
      rintro (h | h)
      · omega
      · subst h; rfl
    split at hr
    · rename_i hle
      obtain ⟨ws, init, hw, hil, hrun⟩ := hr
      have hord := static_ordered b threads s e hsI heI hth hdI h1 (by omega) htid hw
      have hidx : ∀ c ∈ ws.flatten, (s : Int) ≤ c.index ∧ c.index < e := by
        intro c hc
        rw [← mem_irange, ← hord]
        exact List.mem_map.mpr ⟨c, hc, rfl⟩
      let u : Call → Effects (Int × Entry D) ε := fun c =>
        match items[c.index.toNat]? with
        | none => ([], none)
        | some x =>
          match d x with
          | .error x => ([], some x)
          | .ok v => ([(c.index - s, ⟨c.index, v⟩)], none)
      have hu : ∀ c, (hc : c ∈ ws.flatten) → ∃ hlt : c.index.toNat < items.length, u c = (match d items[c.index.toNat] with
          | .error x => ([], some x)
          | .ok v => ([(c.index - s, ⟨c.index, v⟩)], none)) := by
        intro c hc
        have := hidx c hc
        have hlt : c.index.toNat < items.length := by omega
        refine ⟨hlt, ?_⟩
        simp only [u]
        rw [List.getElem?_eq_getElem hlt]
      have hf : ∀ c ∈ ws.flatten, itemBody items d s c = .ok (u c) := by
        intro c hc
        obtain ⟨hlt, hu'⟩ := hu c hc
        unfold itemBody atRaw
        rw [List.getElem?_eq_getElem hlt, Res.ok_bind, hu']
        cases d items[c.index.toNat] <;> rfl
      rcases bodyRun_spec hf (fun tr htr => assignAll_ok tr init (fun a ha => by
        obtain ⟨c, hc, hac⟩ := htr a ha
        obtain ⟨hlt, hu'⟩ := hu c hc
        rw [hu'] at hac
        have := hidx c hc
        cases hd : d items[c.index.toNat] with
        | error x => rw [hd] at hac; simp at hac
        | ok v => rw [hd] at hac; simp at hac; rw [hac]; simp only; omega)) hrun with
        ⟨hno, tr, v, htr, hv, rfl⟩ | ⟨pre, c, post, x, hsplit, hcx, rfl, hfirst⟩
      · left
        have hret : ∀ i (h : i < items.length), s ≤ i → i < e → Returns (d items[i]) := by
          intro i hi hi1 hi2
          have hm : (i : Int) ∈ ws.flatten.map (·.index) := by rw [hord]; exact mem_irange.mpr (by omega)
          obtain ⟨c, hc, hci⟩ := List.mem_map.mp hm
          have hci' : c.index.toNat = i := by omega
          subst hci'
          obtain ⟨hlt, hu'⟩ := hu c hc
          cases hd : d items[c.index.toNat] with
          | error x =>
            have := hno c hc
            rw [hu', hd] at this
            simp at this
          | ok v => exact ⟨v, rfl⟩
        refine ⟨hret, .ok v, rfl, fun d' hd' => ?_⟩
        unfold Knn.KnnRun
        rw [if_pos hgt]
        unfold Knn.KnnParallelRun
        simp only [if_neg (show ¬ e < s by omega), if_neg (show ¬ e > items.length by omega), if_neg (show ¬ K < 0 by omega), if_neg h0, if_pos hle]
        let x0 : Item := items[s]'(by omega)
        let g : Int → Entry D := fun i => ⟨i, d' ((items[i.toNat]?).getD x0)⟩
        have hm : (ws.map fun w => w.flatMap fun c => (u c).1) = ws.map (List.map fun c => (c.index - (s : Int), g c.index)) := by
          refine List.map_congr_left fun w hwm => ?_
          rw [← List.flatMap_singleton' (w.map _), List.flatMap_map]
          refine List.flatMap_congr fun c hc => ?_
          have hcm : c ∈ ws.flatten := List.mem_flatten.mpr ⟨w, hwm, hc⟩
          obtain ⟨hlt, hu'⟩ := hu c hcm
          have := hidx c hcm
          rw [hu', hd' _ hlt (by omega) (by omega)]
          simp only [g, List.getElem?_eq_getElem hlt, Option.getD_some]
        rw [hm] at htr
        obtain ⟨tr', h2, rfl⟩ := interleaving_map_inv _ htr
        refine ⟨ws, tr', init, hw, h2, hil, ?_⟩
        have hcomp : (tr'.map fun c => (c.index - (s : Int), g c.index)) = (tr'.map (·.index)).map fun i => (i - (s : Int), g i) := by
          rw [List.map_map]; rfl
        rw [← hv, hcomp, assignAll_fill]
        refine fillAll_congr _ _ _ _ _ fun i hi => ?_
        obtain ⟨c, hc, rfl⟩ := List.mem_map.mp hi
        have hcm := h2.perm.subset hc
        obtain ⟨hlt, -⟩ := hu c hcm
        simp only [g, atRaw, List.getElem?_eq_getElem hlt, Option.getD_some, Res.ok_bind, Res.pure_eq]
      · right
        have hc : c ∈ ws.flatten := by rw [hsplit]; simp
        obtain ⟨hlt, hu'⟩ := hu c hc
        have hci := hidx c hc
        refine ⟨c.index.toNat, x, hlt, by omega, by omega, ?_, rfl, fun ho j hj hsj => ?_⟩
        · cases hd : d items[c.index.toNat] with
          | error y => rw [hu', hd] at hcx; simp at hcx; rw [hcx]
          | ok v => rw [hu', hd] at hcx; simp at hcx
        · obtain ⟨q, hq, hqj⟩ := before_index hord hsplit (j : Int) (by omega) (by omega)
          have hqn := hfirst (.inl (hasync ho)) q hq
          obtain ⟨hlt', hu''⟩ := hu q (by rw [hsplit]; simp [hq])
          rw [hu''] at hqn
          have hqj' : q.index.toNat = j := by omega
          subst hqj'
          cases hd : d items[q.index.toNat] with
          | error y => rw [hd] at hqn; simp at hqn
          | ok v => exact ⟨v, rfl⟩
    · rename_i hgtK
      obtain ⟨ws, o, hw, hrun, rfl⟩ := hr
      obtain ⟨hflat, hrng, -⟩ := ranges_spec hsI heI hth hdI h1 hse htid hw
      let out : WorkRange → Except ε (List (Entry D)) := fun w =>
        match knnSerial ps items d w.start.toNat w.stop.toNat K with
        | .ok o => o
        | _ => .ok []
      have hser : ∀ w ∈ ws, ((∃ l, (∀ i (h : i < items.length), w.start.toNat ≤ i → i < w.stop.toNat → Returns (d items[i])) ∧ out w = .ok l ∧
          ∀ d', Agrees items d w.start.toNat w.stop.toNat d' → Knn.knnSerial ps items d' w.start.toNat w.stop.toNat K = .ok l) ∨
        ∃ i x, ∃ hi : i < items.length, w.start.toNat ≤ i ∧ i < w.stop.toNat ∧ d items[i] = .error x ∧
          (∀ j (h : j < i), w.start.toNat ≤ j → Returns (d (items[j]'(by omega)))) ∧ out w = .error x) ∧
        knnSerial ps items d w.start.toNat w.stop.toNat K = .ok (out w) := by
        intro w hwm
        have := hrng w hwm
        simp only [out]
        rcases serial_spec ps items d w.start.toNat w.stop.toNat K (by omega) (by omega) hK with ⟨l, k1, k2, k3⟩ | ⟨i, x, hi, k1, k2, k3, k4, k5⟩
        · rw [k2]; exact ⟨.inl ⟨l, k1, rfl, k3⟩, rfl⟩
        · rw [k5]; exact ⟨.inr ⟨i, x, hi, k1, k2, k3, k4, rfl⟩, rfl⟩
      let u : WorkRange → Effects (Int × List (Entry D)) ε := fun w =>
        match out w with
        | .error x => ([], some x)
        | .ok r => ([(w.thread, r)], none)
      have hfl : (ws.map fun w => [w]).flatten = ws := by
        rw [← List.flatMap_def]; exact List.flatMap_singleton' ws
      have hf : ∀ w ∈ (ws.map fun w => [w]).flatten, rangeBody ps items d K w = .ok (u w) := by
        rw [hfl]
        intro w hwm
        unfold rangeBody
        rw [(hser w hwm).2, Res.ok_bind]
        simp only [u]
        cases out w <;> rfl
      rcases bodyRun_spec hf (fun tr htr => assignAll_ok tr _ (fun a ha => by
        obtain ⟨w, hwm, haw⟩ := htr a ha
        rw [hfl] at hwm
        have := hrng w hwm
        rw [List.length_replicate]
        simp only [u] at haw
        cases ho : out w with
        | error x => rw [ho] at haw; simp at haw
        | ok v => rw [ho] at haw; simp at haw; rw [haw]; simp only; omega)) hrun with
        ⟨hno, tr, v, htr, hv, rfl⟩ | ⟨pre, w, post, x, hsplit, hcx, rfl, hfirst⟩
      · left
        rw [hfl] at hno
        have hok : ∀ w ∈ ws, ∃ l, out w = .ok l := by
          intro w hwm
          have := hno w hwm
          simp only [u] at this
          cases ho : out w with
          | error x => rw [ho] at this; simp at this
          | ok l => exact ⟨l, rfl⟩
        refine ⟨fun i hi hi1 hi2 => ?_, merge ps K v, rfl, fun d' hd' => ?_⟩
        · have hm : (i : Int) ∈ (ws.map fun w => irange w.start w.stop).flatten := by rw [hflat]; exact mem_irange.mpr (by omega)
          obtain ⟨_, hl, hil⟩ := List.mem_flatten.mp hm
          obtain ⟨w, hwm, rfl⟩ := List.mem_map.mp hl
          have hiw := mem_irange.mp hil
          obtain ⟨l, hl⟩ := hok w hwm
          rcases (hser w hwm).1 with ⟨_, k1, -⟩ | ⟨_, _, _, _, _, _, _, k⟩
          · exact k1 i hi (by omega) (by omega)
          · rw [hl] at k; cases k
        · unfold Knn.KnnRun
          rw [if_pos hgt]
          unfold Knn.KnnParallelRun
          simp only [if_neg (show ¬ e < s by omega), if_neg (show ¬ e > items.length by omega), if_neg (show ¬ K < 0 by omega), if_neg h0,
            if_neg hgtK]
          let g : WorkRange → List (Entry D) := fun w => match out w with | .ok l => l | .error _ => []
          have hm : ((ws.map fun w => [w]).map fun w => w.flatMap fun c => (u c).1) =
              (ws.map fun w => [w]).map (List.map fun w : WorkRange => (w.thread, g w)) := by
            rw [List.map_map, List.map_map]
            refine List.map_congr_left fun w hwm => ?_
            obtain ⟨l, hl⟩ := hok w hwm
            simp [u, g, hl]
          rw [hm] at htr
          obtain ⟨order, h2, rfl⟩ := interleaving_map_inv _ htr
          have hperm : order.Perm ws := by have := h2.perm; rwa [hfl] at this
          refine ⟨ws, order, hw, hperm, ?_⟩
          rw [← assignAll_ranges ps items d' K g order _ (fun w hwo => ?_), hv, Res.ok_bind]
          have hwm := hperm.subset hwo
          have hwr := hrng w hwm
          obtain ⟨l, hl⟩ := hok w hwm
          rcases (hser w hwm).1 with ⟨l', _, k2, k3⟩ | ⟨_, _, _, _, _, _, _, k⟩
          · rw [k3 d' (fun i hi hi1 hi2 => hd' i hi (by omega) (by omega))]
            simp [g, k2]
          · rw [hl] at k; cases k
      · right
        rw [hfl] at hsplit
        have hwm : w ∈ ws := by rw [hsplit]; simp
        have hwr := hrng w hwm
        have hox : out w = .error x := by
          simp only [u] at hcx
          cases ho : out w with
          | error y => rw [ho] at hcx; simp at hcx; rw [hcx]
          | ok v => rw [ho] at hcx; simp at hcx
        rcases (hser w hwm).1 with ⟨l', _, k2, _⟩ | ⟨i, y, hi, k1, k2, k3, k4, k5⟩
        · rw [hox] at k2; cases k2
        · rw [hox] at k5
          cases k5
          refine ⟨i, x, hi, by omega, by omega, k3, rfl, fun ho j hj hsj => ?_⟩
          by_cases hjw : w.start.toNat ≤ j
          · exact k4 j hj hjw
          · have hjm : (j : Int) ∈ (pre.map fun w => irange w.start w.stop).flatten := by
              have hall : (j : Int) ∈ (ws.map fun w => irange w.start w.stop).flatten := by rw [hflat]; exact mem_irange.mpr (by omega)
              have hpw : ((ws.map fun w => irange w.start w.stop).flatten).Pairwise (· < ·) := by rw [hflat]; exact irange_pairwise _ _
              rw [hsplit, List.map_append, List.map_cons, List.flatten_append, List.flatten_cons] at hall hpw
              rcases List.mem_append.mp hall with h | h
              · exact h
              · exfalso
                rcases List.mem_append.mp h with h | h
                · have := mem_irange.mp h; omega
                · have hp2 := (List.pairwise_append.mp (List.pairwise_append.mp hpw).2.1).2.2 w.start (mem_irange.mpr ⟨le_refl _, hwr.2.1⟩) _ h
                  omega
            obtain ⟨_, hl, hil⟩ := List.mem_flatten.mp hjm
            obtain ⟨q, hq, rfl⟩ := List.mem_map.mp hl
            have hiq := mem_irange.mp hil
            have hqm : q ∈ ws := by rw [hsplit]; simp [hq]
            have hqn := hfirst (.inl (hasync ho)) q hq
            rcases (hser q hqm).1 with ⟨_, k1, -⟩ | ⟨_, _, _, _, _, _, _, k⟩
            · have := hrng q hqm
              exact k1 j (by omega) (by omega) (by omega)
            · simp only [u, k] at hqn
              cases hqn
  · rename_i hgt
    rcases serial_spec ps items d s e K hse he hK with ⟨l, k1, k2, k3⟩ | ⟨i, x, hi, k1, k2, k3, k4, k5⟩
    · refine .inl ⟨k1, .ok l, by rw [hr, k2]; rfl, fun d' hd' => ?_⟩
      unfold Knn.KnnRun
      rw [if_neg hgt, k3 d' hd']
    · exact .inr ⟨i, x, hi, k1, k2, k3, by rw [hr, k5], fun _ => k4⟩

/-- C107: a bad range or a negative K is rejected, and a query for nothing answered, without a call of the distance function: the same outcome for
every distance function. -/
theorem C107_knn_no_calls (ps : Nat → List (Entry D) → List (Entry D)) (b : Backend) (threads : Int) (items : List Item) (d : Item → Except ε D)
    (s e : Nat) (K : Int) (r : Res (Except ε (List (Entry D)))) (hr : KnnRun ps b threads items d s e K r) :
    (e < s ∨ items.length < e ∨ K < 0 → r = .throw .invalidArgument) ∧
    (s ≤ e → e ≤ items.length → 0 ≤ K → K = 0 ∨ s = e → r = .ok (.ok [])) := by
  have hser : (e < s ∨ items.length < e ∨ K < 0 → knnSerial ps items d s e K = .throw .invalidArgument) ∧
      (s ≤ e → e ≤ items.length → 0 ≤ K → K = 0 ∨ s = e → knnSerial ps items d s e K = .ok (.ok [])) := by
    unfold knnSerial
    refine ⟨fun h => ?_, fun h1 h2 h3 h4 => ?_⟩
    · split
      · rfl
      · split
        · rfl
        · rw [if_pos (by omega)]
    · rw [if_neg (by omega), if_neg (by omega), if_neg (by omega), if_pos (by omega)]
  unfold KnnRun at hr
  split at hr
  · unfold KnnParallelRun at hr
    refine ⟨fun h => ?_, fun h1 h2 h3 h4 => ?_⟩
    · split at hr
      · exact hr
      · split at hr
        · exact hr
        · rw [if_pos (by omega)] at hr
          exact hr
    · rw [if_neg (by omega), if_neg (by omega), if_neg (by omega), if_pos (by omega)] at hr
      exact hr
  · rw [hr]; exact hser

/-- Runs exist. -/
theorem C107_knn_runs_exist (ps : Nat → List (Entry D) → List (Entry D)) (b : Backend) (threads : Int) (items : List Item) (d : Item → Except ε D)
    (s e : Nat) (K : Int) (hI : InI64 items.length) (hth : InI64 threads) (h1 : 1 ≤ threads) [Nonempty D]
    (htid : ∀ t : Nat, (t : Int) < min threads ((e : Int) - s) → (b.tid t : Int) < min threads ((e : Int) - s)) :
    ∃ r, KnnRun ps b threads items d s e K r := by
  unfold KnnRun
  split
  · unfold KnnParallelRun
    split
    · exact ⟨_, rfl⟩
    · split
      · exact ⟨_, rfl⟩
      · split
        · exact ⟨_, rfl⟩
        · split
          · exact ⟨_, rfl⟩
          · have hsI : InI64 s := by unfold InI64 at *; omega
            have heI : InI64 e := by unfold InI64 at *; omega
            have hdI : InI64 ((e : Int) - s) := by unfold InI64 at *; omega
            split
            · obtain ⟨ws, hws, -⟩ := C05_static_index_loop b threads s e hsI heI hth hdI h1 (by omega) htid
              obtain ⟨r, hr⟩ := bodyRun_exists b.isOmp (itemBody items d s) ws
                (fun tr => assignAll tr (List.replicate (e - s) (⟨0, Classical.choice ‹_›⟩ : Entry D)))
              exact ⟨r, ws, _, hws, by simp, hr⟩
            · have hws := staticRangeLoop_eq b threads s e hsI heI hth hdI (by omega)
              obtain ⟨o, ho⟩ := bodyRun_exists b.isOmp (rangeBody ps items d K) (List.map (fun w => [w]) _)
                (fun tr => assignAll tr (List.replicate threads.toNat []))
              exact ⟨_, _, o, hws, ho, rfl⟩
  · exact ⟨_, rfl⟩

namespace Demo

/-- A distance function that throws its argument if that is 7 or larger. -/
def d7 (x : Nat) : Except Nat Nat := if x < 7 then .ok x else .error x

/-- On one thread, 9 is thrown, as the first. -/
example (b : Backend) : KnnRun (ε := Nat) (fun _ l => l) b 1 [3, 9, 1, 8] d7 0 4 2 (.ok (.error 9)) := by
  unfold KnnRun; rw [if_neg (by decide)]; rfl

/-- The items beyond the range are never looked at. -/
example (b : Backend) : KnnRun (ε := Nat) (fun _ l => l) b 1 [9, 3, 1, 8] d7 1 3 2 (.ok (.ok [⟨1, 3⟩, ⟨2, 1⟩])) := by
  unfold KnnRun; rw [if_neg (by decide)]; rfl

/-- The hypotheses of the theorem hold on four threads with `std::async`, and the first item on which the function throws is thrown. -/
example : ∃ r, KnnRun (ε := Nat) (fun _ l => l) .async 4 [3, 9, 1, 8, 2] d7 0 5 2 r ∧ r = .ok (.error 9) := by
  obtain ⟨r, hr⟩ := C107_knn_runs_exist (ε := Nat) (fun _ l => l) .async 4 [3, 9, 1, 8, 2] d7 0 5 2 (by decide) (by decide) (by decide)
    (fun t ht => ht)
  refine ⟨r, hr, ?_⟩
  rcases C107_knn _ .async 4 [3, 9, 1, 8, 2] d7 0 5 2 (by decide) (by decide) (by decide) (by decide) (by decide) (by decide)
    (fun t ht => ht) r hr with ⟨h, -⟩ | ⟨i, x, hi, h1, h2, h3, rfl, h4⟩
  · obtain ⟨v, hv⟩ := h 1 (by decide) (by decide) (by decide)
    simp [d7] at hv
  · have h5 := h4 (.inr rfl)
    have hi1 : i ≤ 1 := by
      by_contra hc
      obtain ⟨v, hv⟩ := h5 1 (by omega) (by omega)
      simp [d7] at hv
    interval_cases i
    · simp [d7] at h3
    · simp [d7] at h3
      rw [h3]

end Demo

end CRU.Knn.Throw
