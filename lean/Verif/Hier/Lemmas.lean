import Verif.Hier.Model
import Verif.Distances.Props
import Mathlib.Data.List.Basic
/-
  Searching for the closest pair.
-/
namespace CRU.Hier
open CRU.Parallel CRU.Distances
set_option linter.unusedSectionVars false

variable {D : Type} [LinearOrder D] [OrderTop D] [Zero D]

/-! ### The distance of two clusters -/

/-- `linkRow` without bounds checks. -/
def rowVal (m : Nat → Nat → D) (x : Nat) (ys : List Nat) (acc : D × D) : D × D :=
  ys.foldl (fun acc y => (min acc.1 (m x y), max acc.2 (m x y))) acc

/-- `linkAll` without bounds checks. -/
def allVal (m : Nat → Nat → D) (ys xs : List Nat) (acc : D × D) : D × D := xs.foldl (fun acc x => rowVal m x ys acc) acc

/-- `linkDist` without bounds checks. -/
def linkVal (s : Strategy) (m : Nat → Nat → D) (xs ys : List Nat) : D :=
  if s = .completeLink then (allVal m ys xs (⊤, 0)).2 else (allVal m ys xs (⊤, 0)).1

theorem linkRow_ok (m : Mat D) (x : Nat) (hx : x < m.rows) : ∀ (ys : List Nat) (acc : D × D), (∀ y ∈ ys, y < m.cols) →
    linkRow m x ys acc = .ok (rowVal m.val x ys acc) := by
  intro ys
  induction ys with
  | nil => intro acc _; rfl
  | cons y ys ih =>
    intro acc h
    rw [linkRow, Mat.get, if_pos ⟨hx, h y (by simp)⟩, Res.ok_bind, ih _ fun q hq => h q (by simp [hq])]
    rfl

theorem linkAll_ok (m : Mat D) (ys : List Nat) (hy : ∀ y ∈ ys, y < m.cols) : ∀ (xs : List Nat) (acc : D × D), (∀ x ∈ xs, x < m.rows) →
    linkAll m ys xs acc = .ok (allVal m.val ys xs acc) := by
  intro xs
  induction xs with
  | nil => intro acc _; rfl
  | cons x xs ih =>
    intro acc h
    rw [linkAll, linkRow_ok m x (h x (by simp)) ys acc hy, Res.ok_bind, ih _ fun q hq => h q (by simp [hq])]
    rfl

theorem linkDist_ok (s : Strategy) (m : Mat D) (xs ys : List Nat) (hx : ∀ x ∈ xs, x < m.rows) (hy : ∀ y ∈ ys, y < m.cols) :
    linkDist s m xs ys = .ok (linkVal s m.val xs ys) := by
  rw [linkDist, linkAll_ok m ys hy xs _ hx, Res.ok_bind, Res.pure_eq, linkVal]

theorem rowVal_max (m : Nat → Nat → D) (x : Nat) (b : D) : ∀ (ys : List Nat) (acc : D × D),
    ((rowVal m x ys acc).2 ≤ b ↔ acc.2 ≤ b ∧ ∀ y ∈ ys, m x y ≤ b) ∧
    ((rowVal m x ys acc).2 < ⊤ ↔ acc.2 < ⊤ ∧ ∀ y ∈ ys, m x y < ⊤) := by
  intro ys
  induction ys with
  | nil => intro acc; simp [rowVal]
  | cons y ys ih =>
    intro acc
    have := ih (min acc.1 (m x y), max acc.2 (m x y))
    rw [show rowVal m x (y :: ys) acc = rowVal m x ys (min acc.1 (m x y), max acc.2 (m x y)) from rfl]
    rw [this.1, this.2]
    simp [and_assoc]

theorem rowVal_min (m : Nat → Nat → D) (x : Nat) (b : D) : ∀ (ys : List Nat) (acc : D × D),
    ((rowVal m x ys acc).1 ≤ b ↔ acc.1 ≤ b ∨ ∃ y ∈ ys, m x y ≤ b) := by
  intro ys
  induction ys with
  | nil => intro acc; simp [rowVal]
  | cons y ys ih =>
    intro acc
    have := ih (min acc.1 (m x y), max acc.2 (m x y))
    rw [show rowVal m x (y :: ys) acc = rowVal m x ys (min acc.1 (m x y), max acc.2 (m x y)) from rfl]
    rw [this]
    simp [or_assoc]

theorem allVal_max (m : Nat → Nat → D) (ys : List Nat) (b : D) : ∀ (xs : List Nat) (acc : D × D),
    ((allVal m ys xs acc).2 ≤ b ↔ acc.2 ≤ b ∧ ∀ x ∈ xs, ∀ y ∈ ys, m x y ≤ b) ∧
    ((allVal m ys xs acc).2 < ⊤ ↔ acc.2 < ⊤ ∧ ∀ x ∈ xs, ∀ y ∈ ys, m x y < ⊤) := by
  intro xs
  induction xs with
  | nil => intro acc; simp [allVal]
  | cons x xs ih =>
    intro acc
    have := ih (rowVal m x ys acc)
    rw [show allVal m ys (x :: xs) acc = allVal m ys xs (rowVal m x ys acc) from rfl]
    rw [this.1, this.2, (rowVal_max m x b ys acc).1, (rowVal_max m x b ys acc).2]
    simp [and_assoc]

theorem allVal_min (m : Nat → Nat → D) (ys : List Nat) (b : D) : ∀ (xs : List Nat) (acc : D × D),
    ((allVal m ys xs acc).1 ≤ b ↔ acc.1 ≤ b ∨ ∃ x ∈ xs, ∃ y ∈ ys, m x y ≤ b) := by
  intro xs
  induction xs with
  | nil => intro acc; simp [allVal]
  | cons x xs ih =>
    intro acc
    have := ih (rowVal m x ys acc)
    rw [show allVal m ys (x :: xs) acc = allVal m ys xs (rowVal m x ys acc) from rfl]
    rw [this, rowVal_min m x b ys acc]
    simp [or_assoc]

/-- Facts about the distance of two non-empty clusters whose elements have distances at least zero. -/
theorem linkVal_spec (s : Strategy) (m : Nat → Nat → D) (xs ys : List Nat) (hx : xs ≠ []) (hy : ys ≠ [])
    (h0 : ∀ x ∈ xs, ∀ y ∈ ys, 0 ≤ m x y) :
    0 ≤ linkVal s m xs ys ∧ ∀ b, (linkVal s m xs ys ≤ b ∧ linkVal s m xs ys < ⊤) ↔ CouldMerge s m b xs ys := by
  obtain ⟨x0, xs', rfl⟩ := List.exists_cons_of_ne_nil hx
  obtain ⟨y0, ys', rfl⟩ := List.exists_cons_of_ne_nil hy
  generalize hxs : x0 :: xs' = xs at *
  generalize hys : y0 :: ys' = ys at *
  have mx : x0 ∈ xs := by rw [← hxs]; simp
  have my : y0 ∈ ys := by rw [← hys]; simp
  have htop : (0 : D) ≤ ⊤ := le_top
  cases s with
  | completeLink =>
    have hv : linkVal .completeLink m xs ys = (allVal m ys xs (⊤, 0)).2 := by simp [linkVal]
    rw [hv]
    constructor
    · exact ((allVal_max m ys _ xs (⊤, 0)).1.mp (le_refl _)).1
    · intro b
      rw [(allVal_max m ys b xs (⊤, 0)).1, (allVal_max m ys b xs (⊤, 0)).2]
      constructor
      · rintro ⟨⟨_, h1⟩, ⟨_, h2⟩⟩
        exact fun i hi j hj => ⟨h1 i hi j hj, h2 i hi j hj⟩
      · intro h
        refine ⟨⟨le_trans (h0 _ mx _ my) (h _ mx _ my).1, fun i hi j hj => (h i hi j hj).1⟩,
          lt_of_le_of_lt (h0 _ mx _ my) (h _ mx _ my).2, fun i hi j hj => (h i hi j hj).2⟩
  | singleLink =>
    have hv : linkVal .singleLink m xs ys = (allVal m ys xs (⊤, 0)).1 := by simp [linkVal]
    rw [hv]
    have key : ∀ b, (allVal m ys xs (⊤, 0)).1 ≤ b ↔ ⊤ ≤ b ∨ ∃ x ∈ xs, ∃ y ∈ ys, m x y ≤ b := fun b => allVal_min m ys b xs (⊤, 0)
    constructor
    · rcases (key _).mp (le_refl _) with h | ⟨x, hx, y, hy, h⟩
      · exact le_trans htop h
      · exact le_trans (h0 x hx y hy) h
    · intro b
      constructor
      · rintro ⟨h1, h2⟩
        rcases (key _).mp (le_refl _) with h | ⟨x, hx, y, hy, h⟩
        · exact absurd h2 (not_lt.mpr h)
        · exact ⟨x, hx, y, hy, le_trans h h1, lt_of_le_of_lt h h2⟩
      · rintro ⟨x, hx, y, hy, h1, h2⟩
        exact ⟨(key b).mpr (.inr ⟨x, hx, y, hy, h1⟩), lt_of_le_of_lt ((key _).mpr (.inr ⟨x, hx, y, hy, le_refl _⟩)) h2⟩

theorem linkVal_single (s : Strategy) (m : Nat → Nat → D) (i j : Nat) (h : 0 ≤ m i j) : linkVal s m [i] [j] = m i j := by
  cases s <;> simp [linkVal, allVal, rowVal, h]

/-! ### Scanning candidate pairs -/

/-- Keep the closer of the best pair so far and a new one. -/
def better (cur p : Option (Pair D)) : Option (Pair D) := if distOf p < distOf cur then p else cur

/-- The best of `cur` and the candidates. -/
def scan (cur : Option (Pair D)) (l : List (Pair D)) : Option (Pair D) := l.foldl (fun c p => better c (some p)) cur

/-- `cur` is a closest pair among the `S` (none when all are infinitely far). -/
def Best (S : Pair D → Prop) (cur : Option (Pair D)) : Prop :=
  match cur with
  | none => ∀ p, S p → p.dist = ⊤
  | some p => S p ∧ p.dist < ⊤ ∧ ∀ q, S q → p.dist ≤ q.dist

theorem Best.dist_le {S : Pair D → Prop} {cur : Option (Pair D)} (h : Best S cur) {q : Pair D} (hq : S q) : distOf cur ≤ q.dist := by
  cases cur with
  | none => rw [h q hq]; exact le_top
  | some p => exact h.2.2 q hq

theorem Best.better {S T : Pair D → Prop} {a b : Option (Pair D)} (ha : Best S a) (hb : Best T b) :
    Best (fun p => S p ∨ T p) (better a b) := by
  unfold Hier.better
  cases a with
  | none =>
    cases b with
    | none => rw [if_neg (lt_irrefl _)]; rintro p (h | h); exacts [ha p h, hb p h]
    | some b =>
      rw [if_pos (show distOf (some b) < distOf none from hb.2.1)]
      refine ⟨.inr hb.1, hb.2.1, ?_⟩
      rintro q (h | h)
      · rw [ha q h]; exact le_top
      · exact hb.2.2 q h
  | some a =>
    cases b with
    | none =>
      rw [if_neg (by simp [distOf])]
      refine ⟨.inl ha.1, ha.2.1, ?_⟩
      rintro q (h | h)
      · exact ha.2.2 q h
      · rw [hb q h]; exact le_top
    | some b =>
      split
      · rename_i hlt
        refine ⟨.inr hb.1, hb.2.1, ?_⟩
        rintro q (h | h)
        · exact le_trans (le_of_lt hlt) (ha.2.2 q h)
        · exact hb.2.2 q h
      · rename_i hlt
        refine ⟨.inl ha.1, ha.2.1, ?_⟩
        rintro q (h | h)
        · exact ha.2.2 q h
        · exact le_trans (not_lt.mp hlt) (hb.2.2 q h)

theorem Best.congr {S T : Pair D → Prop} {a : Option (Pair D)} (h : Best S a) (hST : ∀ p, S p ↔ T p) : Best T a := by
  have : S = T := funext fun p => propext (hST p)
  rwa [← this]

theorem better_none_left (p : Pair D) (h : p.dist < ⊤) : better none (some p) = some p := if_pos h

theorem better_none_top (p : Pair D) (h : ¬ p.dist < ⊤) : better (none : Option (Pair D)) (some p) = none := if_neg h

theorem scan_best (l : List (Pair D)) : ∀ (S : Pair D → Prop) (cur : Option (Pair D)), Best S cur →
    Best (fun p => S p ∨ p ∈ l) (scan cur l) := by
  induction l with
  | nil => intro S cur h; exact h.congr (by simp)
  | cons q l ih =>
    intro S cur h
    have h2 : Best (fun p => S p ∨ p = q) (Hier.better cur (some q)) := by
      by_cases hq : q.dist < ⊤
      · exact h.better (T := fun p => p = q) (b := some q) ⟨rfl, hq, by rintro x rfl; exact le_refl _⟩
      · have hq' : q.dist = ⊤ := by by_contra hc; exact hq (lt_top_iff_ne_top.mpr hc)
        have h3 : Hier.better cur (some q) = cur := by
          unfold Hier.better
          rw [if_neg]
          show ¬ q.dist < distOf cur
          rw [hq']; exact not_top_lt
        rw [h3]
        have := h.better (T := fun p => p = q) (b := none) (by rintro p rfl; exact hq')
        have h4 : Hier.better cur none = cur := by
          unfold Hier.better
          rw [if_neg]
          show ¬ ⊤ < distOf cur
          exact not_top_lt
        rwa [h4] at this
    refine (ih _ _ h2).congr fun p => ?_
    simp [or_assoc]

theorem better_assoc (a b c : Option (Pair D)) : better (better a b) c = better a (better b c) := by
  unfold better
  by_cases h1 : distOf b < distOf a <;> by_cases h2 : distOf c < distOf b
  · rw [if_pos h1, if_pos h2, if_pos (h2.trans h1)]
  · rw [if_pos h1, if_neg h2, if_pos h1]
  · rw [if_neg h1, if_pos h2]
  · rw [if_neg h1, if_neg h2, if_neg h1, if_neg (not_lt.mpr (le_trans (not_lt.mp h1) (not_lt.mp h2)))]

theorem better_none_right (a : Option (Pair D)) : better a none = a := by
  unfold better
  rw [if_neg]
  exact not_top_lt

theorem better_none_scan (l : List (Pair D)) : better none (scan none l) = scan none l := by
  have h := scan_best l (fun _ => False) none (by rintro p ⟨⟩)
  generalize scan none l = r at *
  cases r with
  | none => exact better_none_right _
  | some p => exact better_none_left p h.2.1

theorem scan_split (l : List (Pair D)) (cur : Option (Pair D)) : better cur (scan none l) = scan cur l := by
  induction l using List.reverseRecOn generalizing cur with
  | nil => exact better_none_right cur
  | append_singleton l p ih =>
    have e : ∀ c, scan c (l ++ [p]) = better (scan c l) (some p) := by intro c; simp [scan, List.foldl_append]
    rw [e, e, ← better_assoc, ih]

theorem scan_append (a b : List (Pair D)) (cur : Option (Pair D)) : scan cur (a ++ b) = scan (scan cur a) b := by
  simp [scan, List.foldl_append]

theorem consider_ok (f s : Item) (d : D) (cur : Option (Pair D)) (h0 : 0 ≤ d) (hne : f ≠ s) :
    consider f s d cur = .ok (better cur (some ⟨f, s, d⟩)) := by
  unfold consider better mkPair
  show (if d < distOf cur then _ else _) = Res.ok (if d < distOf cur then _ else _)
  by_cases h : d < distOf cur
  · rw [if_pos h, if_pos h, if_neg (not_lt.mpr h0), if_neg hne]
  · rw [if_neg h, if_neg h]

/-! ### The bodies are scans -/

/-- Every iteration scans a fixed list of candidates. -/
def Scans (n : Nat) (body : Nat → Option (Pair D) → Res (Option (Pair D))) (cands : Nat → List (Pair D)) : Prop :=
  ∀ i, i < n → ∀ cur, body i cur = .ok (scan cur (cands i))

theorem serialSearch_ok {n : Nat} {body : Nat → Option (Pair D) → Res (Option (Pair D))} {cands : Nat → List (Pair D)}
    (h : Scans n body cands) : ∀ (is : List Nat) (cur : Option (Pair D)), (∀ i ∈ is, i < n) →
    serialSearch body is cur = .ok (scan cur (is.flatMap cands)) := by
  intro is
  induction is with
  | nil => intro cur _; rfl
  | cons i is ih =>
    intro cur hi
    rw [serialSearch, h i (hi i (by simp)), Res.ok_bind, ih _ fun q hq => hi q (by simp [hq]), List.flatMap_cons, scan_append]

/-- The slots of the threads together hold a best pair. -/
def PBest (S : Pair D → Prop) (st : List (Option (Pair D))) : Prop :=
  (∀ p, some p ∈ st → S p ∧ p.dist < ⊤) ∧ ∀ q, S q → q.dist < ⊤ → ∃ p, some p ∈ st ∧ p.dist ≤ q.dist

theorem parSearch_ok {n : Nat} {body : Nat → Option (Pair D) → Res (Option (Pair D))} {cands : Nat → List (Pair D)}
    (h : Scans n body cands) : ∀ (tr : List Call) (S : Pair D → Prop) (st : List (Option (Pair D))),
    (∀ c ∈ tr, c.index.toNat < n ∧ 0 ≤ c.thread ∧ c.thread.toNat < st.length) → PBest S st →
    ∃ st', parSearch body tr st = .ok st' ∧ PBest (fun p => S p ∨ ∃ c ∈ tr, p ∈ cands c.index.toNat) st' := by
  intro tr
  induction tr with
  | nil => intro S st _ hS; exact ⟨st, rfl, by simpa using hS⟩
  | cons c tr ih =>
    intro S st hc hS
    obtain ⟨h1, h2, h3⟩ := hc c (by simp)
    have hstep : parSearch body (c :: tr) st = parSearch body tr (st.set c.thread.toNat (scan st[c.thread.toNat] (cands c.index.toNat))) := by
      rw [parSearch, atInt_ok st c.thread h2 h3, Res.ok_bind, h _ h1, Res.ok_bind]
    have hold : Best (fun p => st[c.thread.toNat] = some p) st[c.thread.toNat] := by
      have hm := List.getElem_mem h3
      generalize st[c.thread.toNat] = o at *
      cases o with
      | none => rintro p ⟨⟩
      | some p => exact ⟨rfl, (hS.1 p hm).2, by rintro q hq; cases hq; exact le_refl _⟩
    have hnew := scan_best (cands c.index.toNat) _ _ hold
    have hP : PBest (fun p => S p ∨ p ∈ cands c.index.toNat) (st.set c.thread.toNat (scan st[c.thread.toNat] (cands c.index.toNat))) := by
      have hmem : scan st[c.thread.toNat] (cands c.index.toNat) ∈ st.set c.thread.toNat (scan st[c.thread.toNat] (cands c.index.toNat)) :=
        List.mem_set h3 _
      have hdom : ∀ q : Pair D, (st[c.thread.toNat] = some q ∨ q ∈ cands c.index.toNat) → q.dist < ⊤ →
          ∃ p, some p ∈ st.set c.thread.toNat (scan st[c.thread.toNat] (cands c.index.toNat)) ∧ p.dist ≤ q.dist := by
        intro q hq hlt
        have hd := hnew.dist_le hq
        generalize scan st[c.thread.toNat] (cands c.index.toNat) = r at *
        cases r with
        | none => exact absurd hlt (not_lt.mpr hd)
        | some p => exact ⟨p, hmem, hd⟩
      constructor
      · intro p hp
        rcases List.mem_or_eq_of_mem_set hp with hp | hp
        · exact ⟨.inl (hS.1 p hp).1, (hS.1 p hp).2⟩
        · rw [← hp] at hnew
          refine ⟨?_, hnew.2.1⟩
          rcases hnew.1 with h | h
          · exact .inl (hS.1 p (h ▸ List.getElem_mem h3)).1
          · exact .inr h
      · intro q hq hlt
        rcases hq with hq | hq
        · obtain ⟨p, hp, hle⟩ := hS.2 q hq hlt
          obtain ⟨k, hk, hkp⟩ := List.getElem_of_mem hp
          by_cases hkt : k = c.thread.toNat
          · subst hkt
            obtain ⟨p', hp', hle'⟩ := hdom p (.inl hkp) (lt_of_le_of_lt hle hlt)
            exact ⟨p', hp', le_trans hle' hle⟩
          · refine ⟨p, ?_, hle⟩
            rw [List.mem_iff_getElem]
            exact ⟨k, by simpa using hk, by rw [List.getElem_set_ne (Ne.symm hkt)]; exact hkp⟩
        · exact hdom q (.inr hq) hlt
    obtain ⟨st', e, hst'⟩ := ih _ _ (by
      intro q hq
      have := hc q (by simp [hq])
      simpa using this) hP
    refine ⟨st', by rw [hstep, e], ?_⟩
    have : (fun p : Pair D => S p ∨ ∃ c' ∈ c :: tr, p ∈ cands c'.index.toNat)
        = fun p => (S p ∨ p ∈ cands c.index.toNat) ∨ ∃ c' ∈ tr, p ∈ cands c'.index.toNat := by
      funext p; simp [or_assoc]
    rwa [this]

theorem reduce_best {S : Pair D → Prop} {st : List (Option (Pair D))} (h : PBest S st) : Best S (reduce st) := by
  have gen : ∀ (st : List (Option (Pair D))) (T : Pair D → Prop) (cur : Option (Pair D)), Best T cur → (∀ p, some p ∈ st → p.dist < ⊤) →
      Best (fun p => T p ∨ some p ∈ st) (st.foldl (fun cur p => if distOf p < distOf cur then p else cur) cur) := by
    intro st
    induction st with
    | nil => intro T cur h _; exact h.congr (by simp)
    | cons o st ih =>
      intro T cur hT hlt
      have h2 := hT.better (T := fun p => some p = o) (b := o) (by
        cases o with
        | none => rintro p ⟨⟩
        | some p => exact ⟨rfl, hlt p (by simp), by rintro q hq; cases hq; exact le_refl _⟩)
      exact (ih _ _ h2 fun p hp => hlt p (by simp [hp])).congr fun p => by simp [or_assoc]
  have h2 := gen st (fun _ => False) none (by rintro p ⟨⟩) fun p hp => (h.1 p hp).2
  change Best _ (reduce st) at h2
  generalize reduce st = r at *
  cases r with
  | none =>
    intro p hp
    by_contra hne
    obtain ⟨q, hq, hle⟩ := h.2 p hp (lt_top_iff_ne_top.mpr hne)
    exact (lt_top_iff_ne_top.mp (h.1 q hq).2) (h2 q (.inr hq))
  | some p =>
    obtain ⟨h3, h4, h5⟩ := h2
    simp only [false_or] at h3 h5
    refine ⟨(h.1 p h3).1, h4, ?_⟩
    intro q hq
    by_cases hlt : q.dist < ⊤
    · obtain ⟨p', hp', hle⟩ := h.2 q hq hlt
      exact le_trans (h5 p' hp') hle
    · exact le_trans le_top (not_lt.mp hlt)


/-! ### Whole searches -/

/-- Thread numbers are below the number of ranges (what OpenMP and the async backend guarantee). -/
def GoodTid (b : Backend) (threads : Int) : Prop := ∀ (n : Int) (t : Nat), (t : Int) < min threads n → (b.tid t : Int) < min threads n

theorem search_best {b : Backend} {threads : Int} {n : Nat} {body : Nat → Option (Pair D) → Res (Option (Pair D))}
    {cands : Nat → List (Pair D)} (hs : Scans n body cands) (hI : InI64 n) (hth : InI64 threads) (htid : GoodTid b threads)
    {r : Res (Option (Pair D))} (hr : SearchRun b threads n body r) : ∃ c, r = .ok c ∧ Best (fun p => ∃ i, i < n ∧ p ∈ cands i) c := by
  unfold SearchRun at hr
  split at hr
  · rename_i h1
    obtain ⟨ws, tr, hws, htr, rfl⟩ := hr
    obtain ⟨ws', hws', _, hcall, _⟩ := C05_static_index_loop b threads 0 n (by decide) hI hth (by simpa using hI) (by omega) (by omega)
      (by simpa using htid (n : Int))
    rw [hws] at hws'
    cases hws'
    obtain ⟨_, hthr⟩ := hcall tr htr
    have hp := (htr.perm.map (·.index)).trans (static_indices hws hI hth)
    have hmem : ∀ i : Int, (∃ c ∈ tr, c.index = i) ↔ 0 ≤ i ∧ i < n := by
      intro i
      rw [← mem_irange, ← hp.mem_iff, List.mem_map]
    obtain ⟨st, e, hst⟩ := parSearch_ok hs tr (fun _ => False) (List.replicate threads.toNat none) (by
      intro c hc
      have h2 := (hmem c.index).mp ⟨c, hc, rfl⟩
      have h3 := hthr c hc
      rw [List.length_replicate]
      omega) (by
      constructor
      · intro p hp; rw [List.mem_replicate] at hp; exact absurd hp.2 (by simp)
      · rintro q ⟨⟩)
    refine ⟨reduce st, by rw [e, Res.ok_bind, Res.pure_eq], (reduce_best hst).congr ?_⟩
    intro p
    simp only [false_or]
    constructor
    · rintro ⟨c, hc, hpc⟩
      have := (hmem c.index).mp ⟨c, hc, rfl⟩
      exact ⟨c.index.toNat, by omega, hpc⟩
    · rintro ⟨i, hi, hpi⟩
      obtain ⟨c, hc, hci⟩ := (hmem (i : Int)).mpr (by omega)
      exact ⟨c, hc, by rw [hci]; simpa using hpi⟩
  · subst hr
    rw [serialSearch_ok hs _ _ (by simp)]
    refine ⟨_, rfl, (scan_best _ (fun _ => False) none (by rintro p ⟨⟩)).congr ?_⟩
    intro p
    simp [List.mem_flatMap]

theorem search_exists (b : Backend) (threads : Int) {n : Nat} (body : Nat → Option (Pair D) → Res (Option (Pair D)))
    (hI : InI64 n) (hth : InI64 threads) (htid : GoodTid b threads) : ∃ r, SearchRun b threads n body r := by
  unfold SearchRun
  split
  · rename_i h1
    obtain ⟨ws, hws, _⟩ := C05_static_index_loop b threads 0 n (by decide) hI hth (by simpa using hI) (by omega) (by omega)
      (by simpa using htid (n : Int))
    obtain ⟨tr, htr⟩ := Interleaving.exists_run ws
    exact ⟨_, ws, tr, hws, htr, rfl⟩
  · exact ⟨_, rfl⟩

/-- With one slot per worker, a slot ends up with the scan of the indices of that worker. -/
theorem parSearch_slots {n : Nat} {body : Nat → Option (Pair D) → Res (Option (Pair D))} {cands : Nat → List (Pair D)}
    (h : Scans n body cands) {ws : List (List Call)} {tr : List Call} (hi : Interleaving ws tr) : ∀ (st : List (Option (Pair D))),
    (∀ (t : Nat) (w : List Call), ws[t]? = some w → ∀ c ∈ w, c.thread = (t : Int) ∧ c.index.toNat < n) → ws.length ≤ st.length →
    ∃ st', parSearch body tr st = .ok st' ∧ st'.length = st.length ∧ ∀ (t : Nat) (o : Option (Pair D)), st[t]? = some o →
      st'[t]? = some (scan o ((ws.getD t []).flatMap fun c => cands c.index.toNat)) := by
  induction hi with
  | done hall =>
    rename_i ls
    intro st hw hlen
    refine ⟨st, rfl, rfl, ?_⟩
    intro t o ho
    have : ls.getD t [] = [] := by
      rw [List.getD_eq_getElem?_getD]
      cases hl : ls[t]? with
      | none => rfl
      | some w => exact hall w (List.mem_of_getElem? hl)
    rw [this, ho]
    rfl
  | @step ls i x t tr hx hrest ih =>
    intro st hw hlen
    obtain ⟨hxt, hxn⟩ := hw i _ hx x (by simp)
    have hil : i < ls.length := by
      by_contra hc
      rw [List.getElem?_eq_none (by omega)] at hx
      cases hx
    have hth : x.thread.toNat = i := by omega
    have hi' : x.thread.toNat < st.length := by omega
    obtain ⟨st', e, hl', hst'⟩ := ih (st.set i (scan (st[x.thread.toNat]) (cands x.index.toNat))) (by
      intro k w hk c hc
      rw [List.getElem?_set] at hk
      by_cases hik : i = k
      · subst hik
        rw [if_pos rfl, if_pos hil] at hk
        cases hk
        exact hw i _ hx c (by simp [hc])
      · rw [if_neg hik] at hk
        exact hw k w hk c hc) (by simpa using hlen)
    refine ⟨st', ?_, by simpa using hl', ?_⟩
    · rw [parSearch, atInt_ok st x.thread (by omega) hi', Res.ok_bind, h _ hxn, Res.ok_bind]
      simpa only [hth] using e
    · intro k o ho
      by_cases hik : i = k
      · subst hik
        have hso : st[x.thread.toNat] = o := by
          have : st[i]? = some st[x.thread.toNat] := by
            rw [List.getElem?_eq_getElem (by omega)]; congr 1; simp only [hth]
          rw [this] at ho
          exact Option.some.inj ho
        have := hst' i (scan (st[x.thread.toNat]) (cands x.index.toNat)) (by
          rw [List.getElem?_set, if_pos rfl, if_pos (by omega)])
        rw [this, hso, ← scan_append]
        congr 2
        rw [List.getD_eq_getElem?_getD, List.getD_eq_getElem?_getD, hx, List.getElem?_set, if_pos rfl, if_pos hil]
        simp
      · have := hst' k o (by rw [List.getElem?_set, if_neg hik]; exact ho)
        rw [this]
        congr 3
        rw [List.getD_eq_getElem?_getD, List.getD_eq_getElem?_getD, List.getElem?_set, if_neg hik]

theorem reduce_scans (L : Nat → List (Pair D)) (k : Nat) :
    reduce ((List.range k).map fun t => scan none (L t)) = scan none ((List.range k).flatMap L) := by
  unfold reduce
  change List.foldl better none _ = _
  induction k with
  | zero => rfl
  | succ k ih =>
    rw [List.range_succ, List.map_append, List.foldl_append, ih, List.flatMap_append, scan_append, List.map_cons, List.map_nil,
      List.foldl_cons, List.foldl_nil, scan_split]
    simp

/-- With worker `t` running as thread `t`, the parallel search gives exactly the serial answer. -/
theorem search_eq {b : Backend} {threads : Int} {n : Nat} {body : Nat → Option (Pair D) → Res (Option (Pair D))}
    {cands : Nat → List (Pair D)} (hs : Scans n body cands) (hI : InI64 n) (hth : InI64 threads) (hid : ∀ t, b.tid t = t)
    {r : Res (Option (Pair D))} (hr : SearchRun b threads n body r) : r = .ok (scan none ((List.range n).flatMap cands)) := by
  unfold SearchRun at hr
  split at hr
  · rename_i h1
    obtain ⟨ws, tr, hws, htr, rfl⟩ := hr
    have hw : ∀ (t : Nat) (w : List Call), ws[t]? = some w → ∀ c ∈ w, c.thread = (t : Int) ∧ c.index.toNat < n := by
      intro t w hw c hc
      have hidx : c.index ∈ irange 0 n := (static_indices hws hI hth).subset
        (List.mem_map.mpr ⟨c, List.mem_flatten.mpr ⟨w, List.mem_of_getElem? hw, hc⟩, rfl⟩)
      rw [mem_irange] at hidx
      refine ⟨?_, by omega⟩
      have heq := staticRangeLoop_eq b threads 0 n (by decide) hI hth (by simpa using hI) (by omega)
      unfold staticIndexLoop at hws
      rw [heq, Res.ok_bind, Res.pure_eq] at hws
      simp only [Res.ok.injEq] at hws
      subst hws
      rw [List.getElem?_map] at hw
      split at hw
      · cases t with
        | zero =>
          simp only [List.getElem?_cons_zero, Option.map_some, Option.some.injEq] at hw
          subst hw
          exact expand_thread _ c hc
        | succ t => simp at hw
      · unfold rangesFrom at hw
        rw [List.getElem?_map] at hw
        cases hk : (List.range (min threads ((n : Int) - 0)).toNat)[t]? with
        | none => rw [hk] at hw; simp at hw
        | some j =>
          rw [hk] at hw
          simp only [Option.map_some, Option.some.injEq] at hw
          subst hw
          rw [List.getElem?_eq_some_iff] at hk
          obtain ⟨hk1, hk2⟩ := hk
          rw [List.getElem_range] at hk2
          subst hk2
          rw [expand_thread _ c hc]
          simp [hid]
    obtain ⟨ws', hws', hlen, hX, hY⟩ := C05_static_index_loop b threads 0 n (by decide) hI hth (by simpa using hI) (by omega) (by omega)
      (by intro t ht; rw [hid]; exact ht)
    rw [hws] at hws'
    cases hws'
    obtain ⟨st', e, hl', hst'⟩ := parSearch_slots hs htr (List.replicate threads.toNat none) hw (by rw [List.length_replicate]; omega)
    rw [e, Res.ok_bind, Res.pure_eq]
    congr 1
    have hst : st' = (List.range threads.toNat).map fun t => scan none ((ws.getD t []).flatMap fun c => cands c.index.toNat) := by
      apply List.ext_getElem?
      intro t
      rw [List.getElem?_map]
      by_cases ht : t < threads.toNat
      · rw [hst' t none (by rw [List.getElem?_replicate, if_pos ht]), List.getElem?_range ht]
        rfl
      · rw [List.getElem?_eq_none (by rw [hl', List.length_replicate]; omega), List.getElem?_eq_none (by rw [List.length_range]; omega)]
        rfl
    rw [hst, reduce_scans]
    congr 1
    have hfl : ws.flatten.map (·.index) = irange 0 n := by
      by_cases hn : n = 0
      · subst hn
        have := static_indices hws hI hth
        rw [show irange 0 ((0 : Nat) : Int) = [] from rfl] at this ⊢
        exact this.eq_nil
      · have heq := staticRangeLoop_eq b threads 0 n (by decide) hI hth (by simpa using hI) (by omega)
        unfold staticIndexLoop at hws
        rw [heq, Res.ok_bind, Res.pure_eq] at hws
        simp only [Res.ok.injEq] at hws
        subst hws
        rw [List.map_flatten, List.map_map]
        have : (List.map (fun c => c.index) ∘ expand) = fun w => irange w.start w.stop := by
          funext w; exact expand_index w
        rw [this]
        split
        · simp
        · rw [flatten_rangesFrom b 0 n _ (by omega) (by omega)]
          rw [show (((0 + (min threads ((n : Int) - 0)).toNat : Nat)) : Int) = min threads ((n : Int) - 0) by omega]
          rw [bnd_last _ _ _ (by omega) (by omega)]
          rw [show ((0 : Nat) : Int) = 0 from rfl, bnd_zero _ _ _ (by omega) (by omega)]
    have hflat : ∀ k, ws.length ≤ k → (List.range k).flatMap (fun t => (ws.getD t []).flatMap fun c => cands c.index.toNat)
        = ws.flatten.flatMap fun c => cands c.index.toNat := by
      intro k
      clear hws hl' hst hst' e hw hlen htr hfl hX hY
      induction ws generalizing k with
      | nil =>
        intro _
        simp [List.flatMap_eq_nil_iff]
      | cons w ws ih =>
        intro hk
        obtain ⟨k', rfl⟩ : ∃ k', k = k' + 1 := ⟨k - 1, by simp at hk; omega⟩
        rw [List.range_succ_eq_map, List.flatMap_cons, List.flatMap_map, List.flatten_cons, List.flatMap_append]
        congr 1
        exact ih k' (by simpa using hk)
    rw [hflat _ (by omega)]
    have : ws.flatten.flatMap (fun c => cands c.index.toNat) = (ws.flatten.map (·.index)).flatMap fun i => cands i.toNat := by
      rw [List.flatMap_map]
    rw [this, hfl]
    simp [irange, List.flatMap_map]
  · subst hr
    exact serialSearch_ok hs _ _ (by simp)

end CRU.Hier
