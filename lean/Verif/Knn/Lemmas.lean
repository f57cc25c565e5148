import Verif.Knn.Model
import Mathlib.Data.List.Sort
import Mathlib.Data.List.Perm.Subperm
namespace CRU.Knn
open CRU.Parallel

variable {Item D : Type}

/-- All entries of the range (proof device). -/
def entries (dist : Int → D) (s e : Int) : List (Entry D) := (irange s e).map fun i => ⟨i, dist i⟩

/-- Distance of item `i`, for `i` in range. -/
def distOf (items : List Item) (d : Item → D) (dflt : D) (i : Int) : D :=
  match items[i.toNat]? with
  | some x => d x
  | none => dflt

theorem collect_eq (items : List Item) (d : Item → D) (dflt : D) (n idx : Nat) (h : idx + n ≤ items.length) :
    collect items d n idx = .ok (entries (distOf items d dflt) idx ((idx + n : Nat) : Int)) := by
  induction n generalizing idx with
  | zero => simp [collect, entries, irange]
  | succ n ih =>
    unfold collect
    have hx : atRaw items idx = .ok items[idx] := by
      unfold atRaw; simp [show idx < items.length by omega]
    rw [hx]
    simp only [Res.ok_bind]
    rw [ih (idx + 1) (by omega)]
    simp only [Res.ok_bind, Res.pure_eq, entries]
    rw [irange_succ (s := (idx : Int)) (by push_cast; omega)]
    simp only [List.map_cons, distOf]
    push_cast
    simp only [Int.toNat_natCast]
    rw [show ((idx : Int) + 1 + n) = idx + (n + 1) by omega]
    have : items[idx]? = some items[idx] := by simp
    rw [this]

variable [LinearOrder D]

/-- `r` consists of `min K |l|` smallest elements of `l`. -/
def KSmall (K : Nat) (l r : List (Entry D)) : Prop :=
  r.length = min K l.length ∧ ∃ rest, (r ++ rest).Perm l ∧ ∀ a ∈ r, ∀ b ∈ rest, a.dist ≤ b.dist

theorem KSmall.of_partialSorted {K : Nat} {l l' : List (Entry D)} (h : PartialSorted K l l') : KSmall K l (l'.take K) := by
  refine ⟨by rw [List.length_take, h.1.length_eq], l'.drop K, ?_, h.2.2⟩
  rw [List.take_append_drop]; exact h.1

theorem KSmall.self {K : Nat} {l : List (Entry D)} (h : l.length ≤ K) : KSmall K l l :=
  ⟨by omega, [], by simp, by simp⟩

theorem KSmall.perm {K : Nat} {l l2 r : List (Entry D)} (h : KSmall K l r) (hp : l.Perm l2) : KSmall K l2 r := by
  obtain ⟨h1, rest, h2, h3⟩ := h
  exact ⟨by rw [h1, hp.length_eq], rest, h2.trans hp, h3⟩

theorem KSmall.spec {K : Nat} {dist : Int → D} {s e : Int} {r : List (Entry D)} (hse : s ≤ e)
    (h : KSmall K (entries dist s e) r) : IsKNearest dist s e K r := by
  obtain ⟨h1, rest, h2, h3⟩ := h
  have hlen : (entries dist s e).length = (e - s).toNat := by simp [entries, length_irange]
  have hidx : ((entries dist s e).map (·.index)) = irange s e := by
    simp [entries, List.map_map, Function.comp_def]
  have hmem : ∀ x ∈ r, x ∈ entries dist s e := fun x hx => h2.subset (by simp [hx])
  have hent : ∀ x ∈ entries dist s e, s ≤ x.index ∧ x.index < e ∧ x.dist = dist x.index := by
    intro x hx
    simp only [entries, List.mem_map] at hx
    obtain ⟨i, hi, rfl⟩ := hx
    have := mem_irange.mp hi
    exact ⟨this.1, this.2, rfl⟩
  refine ⟨by rw [h1, hlen]; omega, ?_, fun x hx => ⟨(hent x (hmem x hx)).1, (hent x (hmem x hx)).2.1⟩,
    fun x hx => (hent x (hmem x hx)).2.2, ?_⟩
  · have := (h2.map (·.index)).nodup_iff.mpr (by rw [hidx]; exact irange_nodup s e)
    rw [List.map_append] at this
    exact (List.nodup_append.mp this).1
  · intro x hx j hj1 hj2 hj3
    have hjm : (⟨j, dist j⟩ : Entry D) ∈ r ++ rest := by
      apply h2.symm.subset
      simp only [entries, List.mem_map]
      exact ⟨j, mem_irange.mpr ⟨hj1, hj2⟩, rfl⟩
    rcases List.mem_append.mp hjm with h | h
    · exact absurd (List.mem_map.mpr ⟨_, h, rfl⟩) hj3
    · exact h3 x hx _ h

/-- The distances of a K-nearest answer are determined. -/
theorem KSmall.dist_unique {K : Nat} {l r1 r2 : List (Entry D)} (h1 : KSmall K l r1) (h2 : KSmall K l r2) :
    (r1.map (·.dist)).Perm (r2.map (·.dist)) := by
  have key : ∀ r : List (Entry D), KSmall K l r →
      (r.map (·.dist)).mergeSort = ((l.map (·.dist)).mergeSort).take (min K l.length) := by
    intro r ⟨hlen, rest, hp, hle⟩
    have hs1 := List.pairwise_mergeSort' (· ≤ ·) (r.map (·.dist))
    have hs2 := List.pairwise_mergeSort' (· ≤ ·) (rest.map (·.dist))
    have hs3 := List.pairwise_mergeSort' (· ≤ ·) (l.map (·.dist))
    have hperm : ((r.map (·.dist)).mergeSort ++ (rest.map (·.dist)).mergeSort).Perm ((l.map (·.dist)).mergeSort) := by
      refine (List.Perm.append (List.mergeSort_perm _ _) (List.mergeSort_perm _ _)).trans ?_
      rw [← List.map_append]
      exact (hp.map _).trans (List.mergeSort_perm _ _).symm
    have hsorted : ((r.map (·.dist)).mergeSort ++ (rest.map (·.dist)).mergeSort).Pairwise (· ≤ ·) := by
      rw [List.pairwise_append]
      refine ⟨hs1, hs2, ?_⟩
      intro a ha b hb
      rw [List.mem_mergeSort, List.mem_map] at ha hb
      obtain ⟨a', ha', rfl⟩ := ha
      obtain ⟨b', hb', rfl⟩ := hb
      exact hle a' ha' b' hb'
    have heq := hperm.eq_of_pairwise' hsorted hs3
    rw [← heq, List.take_append_of_le_length (by simp [hlen]), List.take_of_length_le (by simp [hlen])]
  have e := (key r1 h1).trans (key r2 h2).symm
  have p1 := (List.mergeSort_perm (r1.map (·.dist)) (· ≤ ·)).symm
  have p2 := (List.mergeSort_perm (r2.map (·.dist)) (· ≤ ·))
  rw [e] at p1
  exact p1.trans p2

/-- Merging per-block answers. -/
theorem KSmall.merge {K : Nat} {blocks answers : List (List (Entry D))} {r : List (Entry D)}
    (hb : List.Forall₂ (KSmall K) blocks answers) (hr : KSmall K answers.flatten r) : KSmall K blocks.flatten r := by
  -- gather the rests
  have hall : ∃ rests : List (Entry D), (answers.flatten ++ rests).Perm blocks.flatten ∧
      (∀ b ∈ rests, ∃ A ∈ answers, A.length = K ∧ ∀ a ∈ A, a.dist ≤ b.dist) ∧
      min K answers.flatten.length = min K blocks.flatten.length := by
    clear hr
    induction hb with
    | nil => exact ⟨[], by simp, by simp, rfl⟩
    | cons hab _ ih =>
      rename_i b a bs as _
      obtain ⟨rests, hp, hrs, hlen⟩ := ih
      obtain ⟨hl, rest, hp1, hle⟩ := hab
      refine ⟨rest ++ rests, ?_, ?_, ?_⟩
      · simp only [List.flatten_cons]
        refine List.Perm.trans ?_ (List.Perm.append hp1 hp)
        simp only [List.append_assoc]
        apply List.Perm.append_left
        rw [← List.append_assoc, ← List.append_assoc]
        exact List.Perm.append_right _ List.perm_append_comm
      · intro x hx
        rcases List.mem_append.mp hx with h | h
        · refine ⟨a, by simp, ?_, fun y hy => hle y hy x h⟩
          have hl1 := hp1.length_eq
          rw [List.length_append] at hl1
          have : 0 < rest.length := List.length_pos_of_mem h
          omega
        · obtain ⟨A, hA, q⟩ := hrs x h
          exact ⟨A, by simp [hA], q⟩
      · simp only [List.flatten_cons, List.length_append] at hlen ⊢
        omega
  obtain ⟨rests, hp, hrs, hlen⟩ := hall
  obtain ⟨hrl, rest', hp', hle'⟩ := hr
  refine ⟨by omega, rest' ++ rests, ?_, ?_⟩
  · rw [← List.append_assoc]
    exact (List.Perm.append_right _ hp').trans hp
  · intro a ha b hb'
    rcases List.mem_append.mp hb' with h | h
    · exact hle' a ha b h
    · by_contra hlt
      push Not at hlt
      obtain ⟨A, hA, hAl, hAle⟩ := hrs b h
      -- all of A is strictly below a
      let p : Entry D → Bool := fun x => decide (x.dist < a.dist)
      have h1 : A.countP p = K := by
        rw [← hAl, List.countP_eq_length]
        intro x hx; simpa [p] using lt_of_le_of_lt (hAle x hx) hlt
      have h2 : A.countP p ≤ answers.flatten.countP p :=
        List.Sublist.countP_le (List.sublist_flatten_of_mem hA)
      have h3 : answers.flatten.countP p = r.countP p + rest'.countP p := by
        rw [← hp'.countP_eq, List.countP_append]
      have h4 : rest'.countP p = 0 := by
        rw [List.countP_eq_zero]
        intro x hx; simpa [p] using hle' a ha x hx
      have h5 : r.countP p < r.length := by
        refine lt_of_le_of_ne List.countP_le_length ?_
        intro heq
        have := List.countP_eq_length.mp heq a ha
        simp [p] at this
      omega

theorem partialSort_ok {ps : Nat → List (Entry D) → List (Entry D)} (hps : LawfulPartialSort ps) {K : Nat}
    {l : List (Entry D)} (h : K ≤ l.length) :
    ∃ l', partialSort ps K l = .ok l' ∧ PartialSorted K l l' :=
  ⟨ps K l, by simp [partialSort, h], hps K l h⟩

theorem knnSerial_ok {ps : Nat → List (Entry D) → List (Entry D)} (hps : LawfulPartialSort ps) (items : List Item)
    (d : Item → D) (dflt : D) (s e : Nat) (K : Int) (hse : s ≤ e) (he : e ≤ items.length) (hK : 0 ≤ K) :
    ∃ r, knnSerial ps items d s e K = .ok r ∧ KSmall K.toNat (entries (distOf items d dflt) s e) r ∧
      (K.toNat < e - s → r.Pairwise fun a b => a.dist ≤ b.dist) := by
  have hlen : (entries (distOf items d dflt) s e).length = e - s := by
    simp [entries, length_irange]
  have hcol := collect_eq items d dflt (e - s) s (by omega)
  rw [show s + (e - s) = e by omega] at hcol
  unfold knnSerial
  rw [if_neg (by omega), if_neg (by omega), if_neg (by omega)]
  split
  · rename_i h0
    refine ⟨[], rfl, ?_, by simp⟩
    rcases h0 with h | h
    · subst h
      exact ⟨by simp, entries (distOf items d dflt) s e, by simp, by simp⟩
    · refine ⟨by simp [hlen, h], [], ?_, by simp⟩
      rw [List.append_nil, List.length_eq_zero_iff.mp (hlen.trans h)]
  · split
    · rename_i h1 h2
      exact ⟨_, hcol, KSmall.self (by omega), fun h => by omega⟩
    · rename_i h1 h2
      rw [hcol]
      simp only [Res.ok_bind]
      obtain ⟨l', hl', hsorted⟩ := partialSort_ok hps (K := K.toNat) (l := entries (distOf items d dflt) s e) (by omega)
      rw [hl']
      simp only [Res.ok_bind, Res.pure_eq]
      exact ⟨_, rfl, .of_partialSorted hsorted, fun _ => hsorted.2.1⟩

theorem flatten_set_perm {α} (slots : List (List α)) (k : Nat) (v : List α) (hk : k < slots.length)
    (h0 : slots[k]? = some []) : (slots.set k v).flatten.Perm (v ++ slots.flatten) := by
  obtain ⟨hk', hv⟩ := List.getElem?_eq_some_iff.mp h0
  have h1 : slots = slots.take k ++ [] :: slots.drop (k + 1) := by rw [← hv]; simp
  have h2 : slots.set k v = slots.take k ++ v :: slots.drop (k + 1) := by
    rw [List.set_eq_take_append_cons_drop, if_pos hk']
  rw [h2]
  conv_rhs => rw [h1]
  simp only [List.flatten_append, List.flatten_cons, List.nil_append]
  rw [← List.append_assoc, ← List.append_assoc]
  exact List.Perm.append_right _ List.perm_append_comm

/-- Storing the per-range answers, in any order, when the ranges have distinct thread numbers. -/
theorem runRanges_ok {ps : Nat → List (Entry D) → List (Entry D)} (hps : LawfulPartialSort ps) (items : List Item)
    (d : Item → D) (dflt : D) (K : Int) (hK : 0 ≤ K) (order : List WorkRange) (slots : List (List (Entry D)))
    (hr : ∀ w ∈ order, 0 ≤ w.start ∧ w.start ≤ w.stop ∧ w.stop.toNat ≤ items.length)
    (ht : ∀ w ∈ order, 0 ≤ w.thread ∧ slots[w.thread.toNat]? = some [])
    (hnd : (order.map (·.thread)).Nodup) :
    ∃ slots' answers, runRanges ps items d K order slots = .ok slots' ∧
      slots'.flatten.Perm (answers.flatten ++ slots.flatten) ∧
      List.Forall₂ (KSmall K.toNat) (order.map fun w => entries (distOf items d dflt) w.start w.stop) answers := by
  induction order generalizing slots with
  | nil => exact ⟨slots, [], rfl, by simp, .nil⟩
  | cons w ws ih =>
    obtain ⟨r, hr1, hr2, _⟩ := knnSerial_ok hps items d dflt w.start.toNat w.stop.toNat K
      (by have := hr w (by simp); omega) (hr w (by simp)).2.2 hK
    have hw := hr w (by simp)
    rw [show ((w.start.toNat : Nat) : Int) = w.start by omega, show ((w.stop.toNat : Nat) : Int) = w.stop by omega] at hr2
    have hwt := ht w (by simp)
    obtain ⟨hk', _⟩ := List.getElem?_eq_some_iff.mp hwt.2
    simp only [List.map_cons, List.nodup_cons] at hnd
    obtain ⟨slots', answers, h1, h2, h3⟩ := ih (slots.set w.thread.toNat r) (fun w' hw' => hr w' (by simp [hw']))
      (fun w' hw' => by
        refine ⟨(ht w' (by simp [hw'])).1, ?_⟩
        rw [List.getElem?_set_ne]
        · exact (ht w' (by simp [hw'])).2
        · intro heq
          apply hnd.1
          refine List.mem_map.mpr ⟨w', hw', ?_⟩
          have := (ht w' (by simp [hw'])).1
          omega) hnd.2
    refine ⟨slots', r :: answers, ?_, ?_, ?_⟩
    · simp only [runRanges, hr1, Res.ok_bind, setRaw]
      rw [if_pos ⟨hwt.1, hk'⟩]
      simpa using h1
    · refine h2.trans ?_
      refine (List.Perm.append_left _ (flatten_set_perm slots _ r hk' hwt.2)).trans ?_
      simp only [List.flatten_cons, List.append_assoc]
      rw [← List.append_assoc, ← List.append_assoc r]
      exact List.Perm.append_right _ List.perm_append_comm
    · exact .cons hr2 h3

omit [LinearOrder D] in
theorem flatten_entries (dist : Int → D) (ws : List WorkRange) (s e : Int)
    (h : (ws.map fun w => irange w.start w.stop).flatten = irange s e) :
    (ws.map fun w => entries dist w.start w.stop).flatten = entries dist s e := by
  unfold entries
  rw [← h, List.map_flatten, List.map_map]
  rfl

end CRU.Knn
