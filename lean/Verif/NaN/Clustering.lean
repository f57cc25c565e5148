import Verif.NaN.Hausdorff
import Verif.Hier.Props
/-
  C102: single-link clustering when the distance matrix holds NaNs.
-/
namespace CRU.NaN
open CRU.Parallel CRU.Distances CRU.Hier
set_option linter.unusedSectionVars false

variable {D : Type} [LinearOrder D] [OrderTop D] [Zero D]

theorem lift_bind₂ {X Y X' Y' Z Z' : Type} {f : X → Z} {g : Y → Z} {f' : X' → Z'} {g' : Y' → Z'} {r : Res X} {r' : Res Y}
    {k : X → Res X'} {k' : Y → Res Y'} (h : lift f r = lift g r') (hk : ∀ x y, f x = g y → lift f' (k x) = lift g' (k' y)) :
    lift f' (r >>= k) = lift g' (r' >>= k') := by
  cases r with
  | ok x =>
    cases r' with
    | ok y => exact hk x y (by simpa [lift] using h)
    | throw e => simp [lift] at h
    | ub => simp [lift] at h
  | throw e =>
    cases r' with
    | ok y => simp [lift] at h
    | throw e' => simp only [lift, Res.throw.injEq] at h; subst h; rfl
    | ub => simp [lift] at h
  | ub =>
    cases r' with
    | ok y => simp [lift] at h
    | throw e => simp [lift] at h
    | ub => rfl

/-- A pair with a number for a distance. -/
def pairNum (p : Pair D) : Pair (Dbl D) := ⟨p.first, p.second, .num p.dist⟩

theorem distOf_nan (cur : Option (Pair D)) : distOf (cur.map pairNum) = Dbl.num (distOf cur) := by
  cases cur <;> rfl

theorem mkPair_nan (f s : Item) (d : D) : mkPair f s (Dbl.num d) = lift (Option.map pairNum) (mkPair f s d) := by
  unfold mkPair
  rw [Dbl.zero_def, Dbl.ite_num_lt]
  split <;> [rfl; skip]
  split <;> rfl

theorem consider_nan (f s : Item) (d : Dbl D) (cur : Option (Pair D)) :
    consider f s d (cur.map pairNum) = lift (Option.map pairNum) (consider f s d.orTop cur) := by
  unfold consider
  rw [distOf_nan]
  by_cases h : d.orTop < distOf cur
  · rw [if_pos h, if_pos ((Dbl.lt_num _ _).mpr h)]
    cases d with
    | nan => simp at h
    | num d => exact mkPair_nan f s d
  · rw [if_neg h, if_neg (fun h' => h ((Dbl.lt_num _ _).mp h'))]; rfl

theorem min_nan (a : D) (d : Dbl D) : min (Dbl.num a) d = Dbl.num (min a d.orTop) := by
  rw [Dbl.min_def]
  by_cases h : d.orTop < a
  · rw [if_pos ((Dbl.lt_num _ _).mpr h), min_eq_right h.le]
    cases d with
    | nan => simp at h
    | num d => rfl
  · rw [if_neg (fun h' => h ((Dbl.lt_num _ _).mp h')), min_eq_left (not_lt.mp h)]

/-- The smallest distance found so far is a number. -/
def fstNum (a : D × D) : Dbl D := .num a.1

theorem linkRow_nan (m : Mat (Dbl D)) (x : Nat) : ∀ ys (acc : Dbl D × Dbl D) (acc' : D × D), acc.1 = fstNum acc' →
    lift Prod.fst (linkRow m x ys acc) = lift fstNum (linkRow (matOrTop m) x ys acc') := by
  intro ys
  induction ys with
  | nil => intro acc acc' h; simp only [linkRow, lift, h]
  | cons y ys ih =>
    intro acc acc' h
    unfold linkRow
    rw [mat_nan m x y]
    cases m.get x y with
    | throw e => rfl
    | ub => rfl
    | ok d =>
      refine ih _ _ ?_
      show min acc.1 d = Dbl.num (min acc'.1 d.orTop)
      rw [h]; exact min_nan _ _

theorem linkAll_nan (m : Mat (Dbl D)) (ys : List Nat) : ∀ xs (acc : Dbl D × Dbl D) (acc' : D × D), acc.1 = fstNum acc' →
    lift Prod.fst (linkAll m ys xs acc) = lift fstNum (linkAll (matOrTop m) ys xs acc') := by
  intro xs
  induction xs with
  | nil => intro acc acc' h; simp only [linkAll, lift, h]
  | cons x xs ih =>
    intro acc acc' h
    unfold linkAll
    exact lift_bind₂ (linkRow_nan m x ys _ _ h) fun a b hab => ih a b hab

theorem linkDist_nan (m : Mat (Dbl D)) (xs ys : List Nat) :
    linkDist .singleLink m xs ys = lift Dbl.num (linkDist .singleLink (matOrTop m) xs ys) := by
  have h := linkAll_nan m ys xs (⊤, 0) (⊤, 0) rfl
  unfold linkDist
  have := lift_bind₂ (f' := id) (g' := Dbl.num) (k := fun r : Dbl D × Dbl D => Res.ok r.1) (k' := fun r : D × D => Res.ok r.1) h
    (fun a b hab => by simp only [lift, id]; rw [hab]; rfl)
  have hid : ∀ r : Res (Dbl D), lift id r = r := fun r => by cases r <;> rfl
  rw [hid] at this
  exact this

theorem valueLoop_nan (mask : List Bool) (m : Mat (Dbl D)) (v : Nat) : ∀ us cur,
    valueLoop mask m v us (cur.map pairNum) = lift (Option.map pairNum) (valueLoop mask (matOrTop m) v us cur) := by
  intro us
  induction us with
  | nil => intro cur; rfl
  | cons u us ih =>
    intro cur
    unfold valueLoop
    cases atChecked mask u with
    | throw e => rfl
    | ub => rfl
    | ok masked =>
      cases masked with
      | true => exact ih cur
      | false =>
        rw [mat_nan m v u]
        cases m.get v u with
        | throw e => rfl
        | ub => rfl
        | ok d =>
          show (consider ⟨false, v⟩ ⟨false, u⟩ d (cur.map pairNum) >>= fun cur' => valueLoop mask m v us cur') = _
          rw [consider_nan]
          exact lift_bind _ _ _ _ _ fun x _ => ih x

theorem clusterLoop_nan (m : Mat (Dbl D)) (item : Item) (xs : List Nat) : ∀ cs cur,
    clusterLoop .singleLink m item xs cs (cur.map pairNum) =
      lift (Option.map pairNum) (clusterLoop .singleLink (matOrTop m) item xs cs cur) := by
  intro cs
  induction cs with
  | nil => intro cur; rfl
  | cons c cs ih =>
    intro cur
    unfold clusterLoop
    by_cases hc : c.1 ≠ []
    · rw [if_pos hc, if_pos hc, linkDist_nan]
      cases linkDist .singleLink (matOrTop m) xs c.1 with
      | throw e => rfl
      | ub => rfl
      | ok d =>
        show (consider item ⟨true, c.2⟩ (Dbl.num d) (cur.map pairNum) >>= fun cur' => clusterLoop .singleLink m item xs cs cur') = _
        rw [consider_nan]
        exact lift_bind _ _ _ _ _ fun x _ => ih x
    · rw [if_neg hc, if_neg hc]; exact ih cur

theorem valueBody_nan (mask : List Bool) (m : Mat (Dbl D)) (clusters : List (List Nat)) (v : Nat) (cur : Option (Pair D)) :
    valueBody .singleLink mask m clusters v (cur.map pairNum) =
      lift (Option.map pairNum) (valueBody .singleLink mask (matOrTop m) clusters v cur) := by
  unfold valueBody
  cases atChecked mask v with
  | throw e => rfl
  | ub => rfl
  | ok masked =>
    cases masked with
    | true => rfl
    | false =>
      show (valueLoop mask m v _ (cur.map pairNum) >>= fun cur' => clusterLoop .singleLink m _ _ _ cur') = _
      rw [valueLoop_nan]
      exact lift_bind _ _ _ _ _ fun x _ => clusterLoop_nan _ _ _ _ x

theorem clusterBody_nan (m : Mat (Dbl D)) (clusters : List (List Nat)) (i : Nat) (cur : Option (Pair D)) :
    clusterBody .singleLink m clusters i (cur.map pairNum) =
      lift (Option.map pairNum) (clusterBody .singleLink (matOrTop m) clusters i cur) := by
  unfold clusterBody
  cases atChecked clusters i with
  | throw e => rfl
  | ub => rfl
  | ok first =>
    by_cases h : first = []
    · subst h; rfl
    · simp only [Res.ok_bind, h, ne_eq, not_false_iff, if_true]
      exact clusterLoop_nan _ _ _ _ cur

/-- The two searches do the same. -/
def Bodies (body : Nat → Option (Pair (Dbl D)) → Res (Option (Pair (Dbl D)))) (body' : Nat → Option (Pair D) → Res (Option (Pair D))) : Prop :=
  ∀ i cur, body i (cur.map pairNum) = lift (Option.map pairNum) (body' i cur)

section Search
variable {body : Nat → Option (Pair (Dbl D)) → Res (Option (Pair (Dbl D)))} {body' : Nat → Option (Pair D) → Res (Option (Pair D))}

theorem serialSearch_nan (h : Bodies body body') : ∀ is cur,
    serialSearch body is (cur.map pairNum) = lift (Option.map pairNum) (serialSearch body' is cur) := by
  intro is
  induction is with
  | nil => intro cur; rfl
  | cons i is ih =>
    intro cur
    unfold serialSearch
    rw [h i cur]
    exact lift_bind _ _ _ _ _ fun x _ => ih x

theorem parSearch_nan (h : Bodies body body') : ∀ cs st,
    parSearch body cs (st.map (Option.map pairNum)) = lift (List.map (Option.map pairNum)) (parSearch body' cs st) := by
  intro cs
  induction cs with
  | nil => intro st; rfl
  | cons c cs ih =>
    intro st
    unfold parSearch
    rw [atInt_map]
    refine lift_bind _ _ _ _ _ fun old _ => ?_
    rw [h _ old]
    refine lift_bind _ _ _ _ _ fun new _ => ?_
    rw [← List.map_set]
    exact ih _

theorem reduce_nan (st : List (Option (Pair D))) : reduce (st.map (Option.map pairNum)) = (reduce st).map pairNum := by
  unfold reduce
  have : ∀ (l : List (Option (Pair D))) (cur : Option (Pair D)),
      (l.map (Option.map pairNum)).foldl (fun cur p => if distOf p < distOf cur then p else cur) (cur.map pairNum)
        = (l.foldl (fun cur p => if distOf p < distOf cur then p else cur) cur).map pairNum := by
    intro l
    induction l with
    | nil => intro cur; rfl
    | cons p l ih =>
      intro cur
      simp only [List.map_cons, List.foldl_cons]
      rw [distOf_nan, distOf_nan, Dbl.ite_num_lt]
      by_cases h : distOf p < distOf cur
      · rw [if_pos h, if_pos h]; exact ih p
      · rw [if_neg h, if_neg h]; exact ih cur
  exact this st none

theorem searchRun_nan (h : Bodies body body') (b : Backend) (threads : Int) (n : Nat) (r : Res (Option (Pair (Dbl D)))) :
    SearchRun b threads n body r ↔ ∃ r', SearchRun b threads n body' r' ∧ r = lift (Option.map pairNum) r' := by
  have key : ∀ tr, (parSearch body tr (List.replicate threads.toNat none) >>= fun st => pure (reduce st))
      = lift (Option.map pairNum) (parSearch body' tr (List.replicate threads.toNat none) >>= fun st => pure (reduce st)) := by
    intro tr
    rw [show List.replicate threads.toNat (none : Option (Pair (Dbl D))) =
      (List.replicate threads.toNat (none : Option (Pair D))).map (Option.map pairNum) by rw [List.map_replicate]; rfl, parSearch_nan h]
    refine lift_bind _ _ _ _ _ fun st _ => ?_
    rw [reduce_nan]; rfl
  unfold SearchRun
  by_cases ht : threads > 1
  · simp only [ht, if_true]
    constructor
    · rintro ⟨ws, tr, h1, h2, rfl⟩
      exact ⟨_, ⟨ws, tr, h1, h2, rfl⟩, key tr⟩
    · rintro ⟨r', ⟨ws, tr, h1, h2, rfl⟩, rfl⟩
      exact ⟨ws, tr, h1, h2, (key tr).symm⟩
  · simp only [ht, if_false, exists_eq_left]
    have := serialSearch_nan h (List.range n) none
    rw [← this]; rfl

end Search

theorem choose_nan (v c : Option (Pair D)) : choose (v.map pairNum) (c.map pairNum) = (choose v c).map pairNum := by
  cases v with
  | none => cases c <;> rfl
  | some a =>
    cases c with
    | none => rfl
    | some b =>
      show (if Dbl.num a.dist < Dbl.num b.dist then some (pairNum a) else some (pairNum b)) = (if a.dist < b.dist then some a else some b).map pairNum
      rw [Dbl.ite_num_lt]
      split <;> rfl

/-- The state of the loop with a number for a distance. -/
def clNum (st : St D) : St (Dbl D) := ⟨st.mask, st.clusters, .num st.closest⟩

/-- A single-link clustering call on a matrix of `double`s with a bound that is a number. -/
def dblArgs (b : Backend) (threads : Int) (m : Mat (Dbl D)) (bound : D) : Args (Dbl D) := ⟨b, threads, .singleLink, m, .num bound⟩

/-- The same call with the NaNs read as infinity. -/
def numArgs (b : Backend) (threads : Int) (m : Mat (Dbl D)) (bound : D) : Args D := ⟨b, threads, .singleLink, matOrTop m, bound⟩

variable (b : Backend) (threads : Int) (m : Mat (Dbl D)) (bound : D)

theorem pairRun_nan (st : St D) (r : Res (Option (Pair (Dbl D)))) :
    PairRun (dblArgs b threads m bound) (clNum st) r ↔
      ∃ r', PairRun (numArgs b threads m bound) st r' ∧ r = lift (Option.map pairNum) r' := by
  have hv : Bodies (valueBody .singleLink st.mask m st.clusters) (valueBody .singleLink st.mask (matOrTop m) st.clusters) :=
    fun i cur => valueBody_nan _ _ _ i cur
  have hc : Bodies (clusterBody .singleLink m st.clusters) (clusterBody .singleLink (matOrTop m) st.clusters) :=
    fun i cur => clusterBody_nan _ _ i cur
  have key : ∀ rv rc : Res (Option (Pair D)), (do
      let v ← lift (Option.map pairNum) rv
      let c ← lift (Option.map pairNum) rc
      pure (choose v c)) = lift (Option.map pairNum) (do
      let v ← rv
      let c ← rc
      pure (choose v c)) := by
    intro rv rc
    refine lift_bind _ _ _ _ _ fun v _ => lift_bind _ _ _ _ _ fun c _ => ?_
    rw [choose_nan]; rfl
  constructor
  · rintro ⟨rv, rc, h1, h2, rfl⟩
    obtain ⟨rv', h1', rfl⟩ := (searchRun_nan hv b threads _ _).mp h1
    obtain ⟨rc', h2', rfl⟩ := (searchRun_nan hc b threads _ _).mp h2
    exact ⟨_, ⟨rv', rc', h1', h2', rfl⟩, key _ _⟩
  · rintro ⟨r', ⟨rv, rc, h1, h2, rfl⟩, rfl⟩
    exact ⟨_, _, (searchRun_nan hv b threads _ _).mpr ⟨rv, h1, rfl⟩, (searchRun_nan hc b threads _ _).mpr ⟨rc, h2, rfl⟩, (key _ _).symm⟩

theorem mergePair_nan (st : St D) (p : Pair D) : mergePair (clNum st) (pairNum p) = lift clNum (mergePair st p) := by
  obtain ⟨⟨f, i⟩, ⟨g, j⟩, d⟩ := p
  have mixed : ∀ ci vi, (atChecked st.clusters ci >>= fun c => setChecked st.mask vi true >>= fun mask =>
      (pure ⟨mask, st.clusters.set ci (c ++ [vi]), Dbl.num d⟩ : Res (St (Dbl D)))) =
      lift clNum (atChecked st.clusters ci >>= fun c => setChecked st.mask vi true >>= fun mask =>
        pure ⟨mask, st.clusters.set ci (c ++ [vi]), d⟩) := by
    intro ci vi
    cases atChecked st.clusters ci with
    | throw e => rfl
    | ub => rfl
    | ok c =>
      simp only [Res.ok_bind]
      cases setChecked st.mask vi true <;> rfl
  cases f <;> cases g
  · show (setChecked st.mask i true >>= fun mask => setChecked mask j true >>= fun mask' =>
      (pure ⟨mask', st.clusters ++ [[i, j]], Dbl.num d⟩ : Res (St (Dbl D)))) =
      lift clNum (setChecked st.mask i true >>= fun mask => setChecked mask j true >>= fun mask' => pure ⟨mask', st.clusters ++ [[i, j]], d⟩)
    cases setChecked st.mask i true with
    | throw e => rfl
    | ub => rfl
    | ok mask =>
      simp only [Res.ok_bind]
      cases setChecked mask j true <;> rfl
  · exact mixed j i
  · exact mixed i j
  · show (atChecked st.clusters i >>= fun a => atChecked st.clusters j >>= fun b =>
      (pure ⟨st.mask, (st.clusters.set i (a ++ b)).set j [], Dbl.num d⟩ : Res (St (Dbl D)))) =
      lift clNum (atChecked st.clusters i >>= fun a => atChecked st.clusters j >>= fun b =>
        pure ⟨st.mask, (st.clusters.set i (a ++ b)).set j [], d⟩)
    cases atChecked st.clusters i with
    | throw e => rfl
    | ub => rfl
    | ok a =>
      simp only [Res.ok_bind]
      cases atChecked st.clusters j <;> rfl

theorem some_pairNum {x : Option (Pair D)} {p : Pair (Dbl D)} (h : some p = x.map pairNum) : ∃ q, x = some q ∧ p = pairNum q := by
  cases x with
  | none => cases h
  | some q => exact ⟨q, rfl, Option.some.inj h⟩

theorem loopRun_to {s : St (Dbl D)} {r : Res (St (Dbl D))} (h : LoopRun (dblArgs b threads m bound) s r) :
    ∀ st, s = clNum st → ∃ r', LoopRun (numArgs b threads m bound) st r' ∧ r = lift clNum r' := by
  have ok : ∀ {x : Option (Pair (Dbl D))} {r' : Res (Option (Pair D))}, Res.ok x = lift (Option.map pairNum) r' →
      ∃ y, r' = .ok y ∧ x = y.map pairNum := by
    intro x r' h
    cases r' with
    | ok y => exact ⟨y, rfl, Res.ok.inj h⟩
    | throw e => cases h
    | ub => cases h
  induction h with
  | none hp =>
    rintro st rfl
    obtain ⟨r', hp', e⟩ := (pairRun_nan b threads m bound st _).mp hp
    obtain ⟨y, rfl, e1⟩ := ok e
    cases y with
    | none => exact ⟨_, .none hp', rfl⟩
    | some y => cases e1
  | far hp hd =>
    rintro st rfl
    obtain ⟨r', hp', e⟩ := (pairRun_nan b threads m bound st _).mp hp
    obtain ⟨y, rfl, e1⟩ := ok e
    obtain ⟨q, rfl, rfl⟩ := some_pairNum e1
    exact ⟨_, .far hp' hd, rfl⟩
  | step hp hd hm hr ih =>
    rintro st rfl
    obtain ⟨r', hp', e⟩ := (pairRun_nan b threads m bound st _).mp hp
    obtain ⟨y, rfl, e1⟩ := ok e
    obtain ⟨q, rfl, rfl⟩ := some_pairNum e1
    rw [mergePair_nan] at hm
    cases hq : mergePair st q with
    | throw e => rw [hq] at hm; cases hm
    | ub => rw [hq] at hm; cases hm
    | ok st' =>
      rw [hq] at hm
      obtain ⟨r'', h1, h2⟩ := ih st' (Res.ok.inj hm).symm
      exact ⟨r'', .step hp' hd hq h1, h2⟩
  | mergeThrow hp hd hm =>
    rintro st rfl
    obtain ⟨r', hp', e⟩ := (pairRun_nan b threads m bound st _).mp hp
    obtain ⟨y, rfl, e1⟩ := ok e
    obtain ⟨q, rfl, rfl⟩ := some_pairNum e1
    rw [mergePair_nan] at hm
    cases hq : mergePair st q with
    | ok st' => rw [hq] at hm; cases hm
    | ub => rw [hq] at hm; cases hm
    | throw e => rw [hq] at hm; cases hm; exact ⟨_, .mergeThrow hp' hd hq, rfl⟩
  | mergeUb hp hd hm =>
    rintro st rfl
    obtain ⟨r', hp', e⟩ := (pairRun_nan b threads m bound st _).mp hp
    obtain ⟨y, rfl, e1⟩ := ok e
    obtain ⟨q, rfl, rfl⟩ := some_pairNum e1
    rw [mergePair_nan] at hm
    cases hq : mergePair st q with
    | ok st' => rw [hq] at hm; cases hm
    | throw e => rw [hq] at hm; cases hm
    | ub => exact ⟨_, .mergeUb hp' hd hq, rfl⟩
  | pairThrow hp =>
    rintro st rfl
    obtain ⟨r', hp', e⟩ := (pairRun_nan b threads m bound st _).mp hp
    cases r' with
    | ok y => cases e
    | throw e' => cases e; exact ⟨_, .pairThrow hp', rfl⟩
    | ub => cases e
  | pairUb hp =>
    rintro st rfl
    obtain ⟨r', hp', e⟩ := (pairRun_nan b threads m bound st _).mp hp
    cases r' with
    | ok y => cases e
    | throw e' => cases e
    | ub => exact ⟨_, .pairUb hp', rfl⟩

theorem loopRun_of {st : St D} {r : Res (St D)} (h : LoopRun (numArgs b threads m bound) st r) :
    LoopRun (dblArgs b threads m bound) (clNum st) (lift clNum r) := by
  have pr : ∀ {st : St D} {r' : Res (Option (Pair D))}, PairRun (numArgs b threads m bound) st r' →
      PairRun (dblArgs b threads m bound) (clNum st) (lift (Option.map pairNum) r') :=
    fun h => (pairRun_nan b threads m bound _ _).mpr ⟨_, h, rfl⟩
  induction h with
  | none hp => exact .none (pr hp)
  | far hp hd => exact .far (pr hp) hd
  | @step st st' p r hp hd hm hr ih => exact .step (pr hp) hd (by rw [mergePair_nan, hm]; rfl) ih
  | @mergeThrow st p e hp hd hm => exact .mergeThrow (pr hp) hd (by rw [mergePair_nan, hm]; rfl)
  | @mergeUb st p hp hd hm => exact .mergeUb (pr hp) hd (by rw [mergePair_nan, hm]; rfl)
  | pairThrow hp => exact .pairThrow (pr hp)
  | pairUb hp => exact .pairUb (pr hp)

/-- **C102.** `simple_hierarchical_clustering` with single link, on any number of threads and every schedule: with a distance matrix that holds
NaNs the possible outcomes (clusters and final distance) are those with infinity in their place. -/
theorem C102_single_link (r : Res (List (List Nat) × Dbl D)) :
    IndexClusterRun ⟨b, threads, .singleLink, m, .num bound⟩ r ↔
      ∃ r' : Res (List (List Nat) × D), IndexClusterRun ⟨b, threads, .singleLink, matOrTop m, bound⟩ r' ∧
        r = lift (fun x => (x.1, Dbl.num x.2)) r' := by
  unfold IndexClusterRun
  show (if m.rows ≠ m.cols then _ else _) ↔ ∃ r', (if m.rows ≠ m.cols then _ else if m.rows = 0 then _ else _) ∧ _
  have thr : ∀ e : Exc, (r = .throw e ↔ ∃ r' : Res (List (List Nat) × D), r' = .throw e ∧ r = lift (fun x => (x.1, Dbl.num x.2)) r') :=
    fun e => ⟨fun h => ⟨_, rfl, h⟩, fun ⟨_, h1, h2⟩ => by rw [h2, h1]; rfl⟩
  by_cases h1 : m.rows ≠ m.cols
  · simp only [if_pos h1]; exact thr _
  · simp only [if_neg h1]
    by_cases h2 : m.rows = 0
    · simp only [if_pos h2]; exact thr _
    · simp only [if_neg h2]
      have key : ∀ rl : Res (St D), (lift clNum rl >>= fun st => pure (finish st, st.closest))
          = lift (fun x : List (List Nat) × D => (x.1, Dbl.num x.2)) (rl >>= fun st => pure (finish st, st.closest)) := by
        intro rl; cases rl <;> rfl
      constructor
      · rintro ⟨rl, hl, rfl⟩
        obtain ⟨rl', hl', rfl⟩ := loopRun_to b threads m bound hl (initSt m.rows) rfl
        exact ⟨_, ⟨rl', hl', rfl⟩, key rl'⟩
      · rintro ⟨r', ⟨rl, hl, rfl⟩, rfl⟩
        exact ⟨_, loopRun_of b threads m bound hl, (key rl).symm⟩

/-- **C102.** What single-link clustering returns when distances may be NaN: the indices are partitioned, and two of them are in one cluster
exactly if a chain links them whose steps have distances that are numbers within the bound. -/
theorem C102_single_link_components (n : Nat) (hn : 0 < n) (hrows : m.rows = n) (hcols : m.cols = n)
    (h0 : ∀ i j, i < n → j < n → 0 ≤ (m.val i j).orTop) (hs : ∀ i j, i < n → j < n → m.val i j = m.val j i) (hI : InI64 n)
    (hth : InI64 threads) (htid : GoodTid b threads) (r : Res (List (List Nat) × Dbl D))
    (hr : IndexClusterRun ⟨b, threads, .singleLink, m, .num bound⟩ r) :
    ∃ cs d, r = .ok (cs, .num d) ∧ IsPartition n cs ∧ ∀ i j, i < n → j < n → (Together cs i j ↔
      Relation.ReflTransGen (fun x y => x < n ∧ y < n ∧ ∃ c, m.val x y = .num c ∧ c ≤ bound ∧ c < ⊤) i j) := by
  obtain ⟨r', hr', rfl⟩ := (C102_single_link b threads m bound r).mp hr
  have hm : GoodMat n (matOrTop m) := ⟨hrows, hcols, h0⟩
  obtain ⟨cs, d, rfl, hp⟩ := C33_partition n _ hn hm hI hth htid r' hr'
  obtain ⟨cs', d', e, hc, _⟩ := C33_single_link_components n ⟨b, threads, .singleLink, matOrTop m, bound⟩
    ⟨hn, hm, fun i j hi hj => congrArg Dbl.orTop (hs i j hi hj), hI, hth, htid⟩ rfl _ hr'
  cases e
  refine ⟨cs, d, rfl, hp, fun i j hi hj => ?_⟩
  rw [hc i j hi hj]
  unfold Linked
  have : (fun x y => x < n ∧ y < n ∧ Within (matOrTop m).val bound x y)
      = fun x y => x < n ∧ y < n ∧ ∃ c, m.val x y = .num c ∧ c ≤ bound ∧ c < ⊤ := by
    funext x y
    refine propext (and_congr_right fun _ => and_congr_right fun _ => ?_)
    show (m.val x y).orTop ≤ bound ∧ (m.val x y).orTop < ⊤ ↔ _
    cases m.val x y with
    | nan => simp
    | num c => simp
  exact Iff.of_eq (congrFun (congrFun (congrArg Relation.ReflTransGen this) i) j)

/-- Three points: 0 and 1 at distance 0, every distance to point 2 a NaN. -/
def demoMat : Mat (Dbl ℕ∞) := ⟨3, 3, fun i j => if i = 2 ∨ j = 2 then .nan else .num 0⟩

theorem demo_single : IndexClusterRun ⟨.async, 1, .singleLink, demoMat, .num 5⟩ (.ok ([[0, 1], [2]], .num 0)) := by
  refine ⟨.ok ⟨[true, true, false], [[0, 1]], .num 0⟩, ?_, rfl⟩
  refine .step (p := ⟨⟨false, 0⟩, ⟨false, 1⟩, .num 0⟩) ⟨.ok (some ⟨⟨false, 0⟩, ⟨false, 1⟩, .num 0⟩), .ok none, rfl, rfl, rfl⟩
    (show (0 : ℕ∞) ≤ 5 from bot_le) rfl ?_
  exact .none ⟨.ok none, .ok none, rfl, rfl, rfl⟩

example : ∃ cs d, (.ok ([[0, 1], [2]], .num 0) : Res (List (List Nat) × Dbl ℕ∞)) = .ok (cs, .num d) ∧ IsPartition 3 cs ∧
    ∀ i j, i < 3 → j < 3 → (Together cs i j ↔
      Relation.ReflTransGen (fun x y => x < 3 ∧ y < 3 ∧ ∃ c, demoMat.val x y = .num c ∧ c ≤ 5 ∧ c < ⊤) i j) :=
  C102_single_link_components .async 1 demoMat 5 3 (by omega) rfl rfl (fun _ _ _ _ => bot_le)
    (fun i j _ _ => by simp [demoMat, or_comm]) (by decide) (by decide) (fun _ _ h => h) _ demo_single

/-- **C103.** Complete-link clustering does not keep its promise in the presence of NaNs: between clusters a NaN counts as the
distance 0, so that a cluster may hold elements whose distance is not a number. The same call with infinities does not merge them. -/
theorem C103_complete_link_false :
    IndexClusterRun ⟨.async, 1, .completeLink, demoMat, .num 5⟩ (.ok ([[0, 1, 2]], .num 0)) ∧
    ∀ r, IndexClusterRun ⟨.async, 1, .completeLink, matOrTop demoMat, 5⟩ r → r ≠ .ok ([[0, 1, 2]], 0) := by
  constructor
  · refine ⟨.ok ⟨[true, true, true], [[0, 1, 2]], .num 0⟩, ?_, rfl⟩
    refine .step (p := ⟨⟨false, 0⟩, ⟨false, 1⟩, .num 0⟩) ⟨.ok (some ⟨⟨false, 0⟩, ⟨false, 1⟩, .num 0⟩), .ok none, rfl, rfl, rfl⟩
      (show (0 : ℕ∞) ≤ 5 from bot_le) rfl ?_
    refine .step (p := ⟨⟨false, 2⟩, ⟨true, 0⟩, .num 0⟩) ⟨.ok (some ⟨⟨false, 2⟩, ⟨true, 0⟩, .num 0⟩), .ok none, rfl, rfl, rfl⟩
      (show (0 : ℕ∞) ≤ 5 from bot_le) rfl ?_
    exact .none ⟨.ok none, .ok none, rfl, rfl, rfl⟩
  · rintro r hr rfl
    obtain ⟨cs, d, e, hd, _⟩ := C33_complete_link_diameter 3 ⟨.async, 1, .completeLink, matOrTop demoMat, 5⟩
      ⟨by omega, ⟨rfl, rfl, fun _ _ _ _ => bot_le⟩, fun i j _ _ => by simp [matOrTop, demoMat, or_comm], by decide, by decide,
        fun _ _ h => h⟩ rfl _ hr
    cases e
    have := (hd [0, 1, 2] (by simp) 0 (by simp) 2 (by simp) (by omega)).2
    simp [matOrTop, demoMat] at this

end CRU.NaN
