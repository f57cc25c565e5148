import Verif.Prm.BuildModel
import Verif.Prm.Linear
/-
  The sampling phase of `BuildRoadMap`.
-/
namespace CRU.Prm
open CRU.Graph CRU.Knn CRU.Parallel CRU.GraphSearch

variable {V C : Type} [LinearOrder C] [Zero C] [OrderTop C]

/-- The thread numbers of the backend are distinct and below the number of threads, as OpenMP promises. -/
def GoodBackend (b : Backend) (threads : Int) : Prop :=
  (∀ t : Nat, (t : Int) < threads → (b.tid t : Int) < threads) ∧
  ∀ t u : Nat, (t : Int) < threads → (u : Int) < threads → b.tid t = b.tid u → t = u

omit [Zero C] [OrderTop C] in
theorem knnRun_nearest {Item : Type} {ps : Nat → List (Entry C) → List (Entry C)} (hps : LawfulPartialSort ps) {b : Backend}
    {threads : Int} (hth : InI64 threads) (hb : GoodBackend b threads) (items : List Item) (d : Item → C) (dist : Int → C)
    (hd : ∀ i (h : i < items.length), dist (i : Int) = d items[i]) (K : Int) (hK : 0 ≤ K) (hI : InI64 items.length)
    {r : Res (List (Entry C))} (hr : KnnRun ps b threads items d 0 items.length K r) :
    ∃ l, r = .ok l ∧ IsKNearest dist 0 items.length K.toNat l := by
  unfold KnnRun at hr
  split at hr
  · obtain ⟨l, a1, a2, _⟩ := C09_parallel_knn_correct ps hps b threads items d dist hd 0 items.length K (by omega) le_rfl hK hI
      hth (by omega) hb.1 hb.2 r hr
    exact ⟨l, a1, a2⟩
  · obtain ⟨l, a1, a2, _⟩ := C08_serial_knn_correct ps hps items d dist hd 0 items.length K (by omega) le_rfl hK
    exact ⟨l, hr.trans a1, a2⟩

/-- The result of one call of the sampling helper. -/
theorem tryRun_ok {e : Env V C} {be : BuildEnv V C} (hps : LawfulPartialSort be.ps) (hth : InI64 e.threads)
    (hb : GoodBackend e.backend e.threads) {states : List (Option V)} (hne : states ≠ []) (hI : InI64 states.length) {k : Nat}
    {r : Res (Option V)} (h : TryRun e be states k r) :
    ∃ o, r = .ok o ∧ ∀ x, o = some x → be.sampled x ∧ be.stateValid x = true ∧
      (e.addDuplicates = false → ∀ s, some s ∈ states → 0 < e.dist s x) := by
  have hq : ∀ (x : V) (r : Res (List (Entry C))),
      KnnRun be.ps e.backend e.threads states (stateDist e.dist x) 0 states.length 1 r →
      ∃ n, r = .ok [n] ∧ ∀ s, some s ∈ states → n.dist ≤ e.dist s x := by
    intro x r hr
    have hd : ∀ i (h : i < states.length), (fun j : Int => stateDist e.dist x ((states[j.toNat]?).getD none)) (i : Int) =
        stateDist e.dist x states[i] := by
      intro i h
      dsimp only
      rw [Int.toNat_natCast, List.getElem?_eq_getElem h]
      rfl
    obtain ⟨l, h1, h2⟩ := knnRun_nearest hps hth hb states (stateDist e.dist x)
      (fun j : Int => stateDist e.dist x ((states[j.toNat]?).getD none)) hd 1 (by omega) hI hr
    have hpos : 0 < states.length := List.length_pos_iff.mpr hne
    have hlen := h2.length
    have hl1 : l.length = 1 := by simp only [Int.toNat_one] at hlen; omega
    obtain ⟨n, rfl⟩ := List.length_eq_one_iff.mp hl1
    refine ⟨n, h1, fun s hs => ?_⟩
    obtain ⟨k, hk, hks⟩ := List.mem_iff_getElem.mp hs
    have hdk := hd k hk
    rw [hks] at hdk
    dsimp only at hdk
    by_cases hm : (k : Int) = n.index
    · have := h2.trueDist n (by simp)
      rw [← hm, hdk] at this
      exact le_of_eq this
    · have := h2.nearest n (by simp) (k : Int) (by omega) (by omega) (by simpa using hm)
      rw [hdk] at this
      exact this
  induction h with
  | gaveUp => exact ⟨none, rfl, fun x hx => by cases hx⟩
  | invalid _ _ _ ih => exact ih
  | @anyValid k x hx hv hd =>
    refine ⟨some x, rfl, fun y hy => ?_⟩
    cases hy
    exact ⟨hx, hv, fun h => by rw [hd] at h; cases h⟩
  | @fresh k x n l hx hv hd hk hn =>
    obtain ⟨n', h1, h2⟩ := hq x _ hk
    cases h1
    refine ⟨some x, rfl, fun y hy => ?_⟩
    cases hy
    exact ⟨hx, hv, fun _ s hs => lt_of_lt_of_le hn (h2 s hs)⟩
  | duplicate _ _ _ _ _ _ ih => exact ih
  | @none k x hx hv hd hk => obtain ⟨n', h1, _⟩ := hq x _ hk; cases h1
  | @throws k x ex hx hv hd hk => obtain ⟨n', h1, _⟩ := hq x _ hk; cases h1
  | @ub k x hx hv hd hk => obtain ⟨n', h1, _⟩ := hq x _ hk; cases h1

/-- The sampled states. -/
theorem sampleRun_ok {e : Env V C} {be : BuildEnv V C} (hps : LawfulPartialSort be.ps) (hth : InI64 e.threads)
    (hb : GoodBackend e.backend e.threads) {order : List Int} {states : List (Option V)} (hI : InI64 states.length)
    (ho : ∀ i ∈ order, 0 ≤ i ∧ i < states.length) {r : Res (List (Option V))} (h : SampleRun e be order states r) :
    ∃ s', r = .ok s' ∧ s'.length = states.length ∧
      ∀ (i : Nat) (x : V), s'[i]? = some (some x) → states[i]? = some (some x) ∨ (be.sampled x ∧ be.stateValid x = true) := by
  induction h with
  | done => exact ⟨_, rfl, rfl, fun i x h => Or.inl h⟩
  | @next i order states o r ht hi rest ih =>
    obtain ⟨s', a1, a2, a3⟩ := ih (by simpa using hI) (fun j hj => by simpa using ho j (by simp [hj]))
    have hne : states ≠ [] := by rintro rfl; simp at hi
    obtain ⟨o', h1, h2⟩ := tryRun_ok hps hth hb hne hI ht
    cases h1
    refine ⟨s', a1, by simpa using a2, fun j x hx => ?_⟩
    rcases a3 j x hx with h | h
    · rw [List.getElem?_set] at h
      split at h
      · split at h
        · simp only [Option.some.injEq] at h
          exact Or.inr ⟨(h2 x h).1, (h2 x h).2.1⟩
        · cases h
      · exact Or.inl h
    · exact Or.inr h
  | @outOfRange i order states o ht hi =>
    have := ho i (by simp)
    omega
  | @throws i order states ex ht =>
    have := ho i (by simp)
    have hne : states ≠ [] := by rintro rfl; simp at this; omega
    obtain ⟨o', h1, _⟩ := tryRun_ok hps hth hb hne hI ht
    cases h1
  | @ub i order states ht =>
    have := ho i (by simp)
    have hne : states ≠ [] := by rintro rfl; simp at this; omega
    obtain ⟨o', h1, _⟩ := tryRun_ok hps hth hb hne hI ht
    cases h1

/-- Earlier states are at a positive distance from later ones. -/
def SepStates (dist : V → V → C) (states : List (Option V)) : Prop :=
  ∀ (i j : Nat) (a b : V), i < j → states[i]? = some (some a) → states[j]? = some (some b) → 0 < dist a b

theorem sampleRun_sep {e : Env V C} {be : BuildEnv V C} (hps : LawfulPartialSort be.ps) (hth : InI64 e.threads)
    (hb : GoodBackend e.backend e.threads) (hd : e.addDuplicates = false) {order : List Int} {states s' : List (Option V)}
    (hI : InI64 states.length) (hinc : order.Pairwise (· < ·)) (hfree : ∀ i ∈ order, ∀ j : Nat, i ≤ j → ∀ x, states[j]? ≠ some (some x))
    (hs : SepStates e.dist states) (h : SampleRun e be order states (.ok s')) : SepStates e.dist s' := by
  generalize hr : (Res.ok s' : Res (List (Option V))) = r at h
  induction h with
  | done => cases hr; exact hs
  | @next i order states o r ht hi rest ih =>
    have hne : states ≠ [] := by rintro rfl; simp at hi
    obtain ⟨o', h1, h2⟩ := tryRun_ok hps hth hb hne hI ht
    cases h1
    obtain ⟨hlt, hinc'⟩ := List.pairwise_cons.mp hinc
    refine ih (by simpa using hI) hinc' ?_ ?_ hr
    · intro j hj k hjk x hx
      have := hlt j hj
      rw [List.getElem?_set, if_neg (by omega)] at hx
      exact hfree j (by simp [hj]) k hjk x hx
    · intro a b x y hab hx hy
      rw [List.getElem?_set] at hx hy
      split at hy
      · rename_i hib
        split at hy
        · simp only [Option.some.injEq] at hy
          rw [if_neg (by omega)] at hx
          exact (h2 y hy).2.2 hd x (List.mem_of_getElem? hx)
        · cases hy
      · rename_i hib
        by_cases hbi : i.toNat ≤ b
        · exact absurd hy (hfree i (by simp) b (by omega) y)
        · rw [if_neg (by omega)] at hx
          exact hs a b x y hab hx hy
  | outOfRange => cases hr
  | throws => cases hr
  | ub => cases hr

omit [LinearOrder C] [Zero C] [OrderTop C] in
/-- Filling the roadmap. -/
theorem populate_some (l : List V) (g : Graph V C) : populate (l.map some) g = .ok (g ++ l.map fun s => ⟨s, [], []⟩) := by
  induction l generalizing g with
  | nil => simp [populate]
  | cons s l ih =>
    rw [List.map_cons]
    unfold populate
    rw [ih, ((C14_effects g).1 s).1]
    simp

omit [LinearOrder C] [Zero C] [OrderTop C] in
theorem populate_ok {states : List (Option V)} {g g' : Graph V C} (h : populate states g = .ok g') :
    ∃ l : List V, states = l.map some ∧ g' = g ++ l.map fun s => ⟨s, [], []⟩ := by
  have : ∃ l : List V, states = l.map some := by
    induction states generalizing g with
    | nil => exact ⟨[], rfl⟩
    | cons o states ih =>
      cases o with
      | none => unfold populate at h; cases h
      | some s =>
        unfold populate at h
        obtain ⟨l, rfl⟩ := ih h
        exact ⟨s :: l, rfl⟩
  obtain ⟨l, rfl⟩ := this
  rw [populate_some] at h
  cases h
  exact ⟨l, rfl, rfl⟩

/-- A loop with one worker visits the indices in order. -/
theorem IndexRun.serial {b : Backend} {n : Int} {order : List Int} (h : IndexRun b 1 0 n order) (h0 : 0 ≤ n) (hn : InI64 n) :
    order = irange 0 n := by
  obtain ⟨ws, tr, hws, htr, rfl⟩ := h
  unfold staticIndexLoop staticRangeLoop at hws
  rw [if_neg (by omega), chk64_ok (by simpa using hn)] at hws
  simp only [Res.ok_bind] at hws
  by_cases hz : n - 0 = 0
  · rw [if_pos hz] at hws
    simp only [Res.pure_eq, Res.ok_bind, List.map_nil, Res.ok.injEq] at hws
    subst hws
    cases htr with
    | done _ => simp [irange, hz]
    | step i x t tr h => simp at h
  · rw [if_neg hz, if_pos (by left; omega)] at hws
    have hw : mkWorkRange 0 n 0 = .ok ⟨0, n, 0⟩ := by
      unfold mkWorkRange
      rw [if_neg (by omega), if_neg (by omega)]
    rw [hw] at hws
    simp only [Res.pure_eq, Res.ok_bind, List.map_cons, List.map_nil, Res.ok.injEq] at hws
    subst hws
    have key : ∀ (l tr : List Call), Interleaving [l] tr → tr = l := by
      intro l
      induction l with
      | nil =>
        intro tr h
        cases h with
        | done _ => rfl
        | step i x t tr h =>
          rcases i with _ | i
          · simp at h
          · simp at h
      | cons x l ih =>
        intro tr h
        cases h with
        | done h => exact absurd (h (x :: l) (by simp)) (by simp)
        | step i y t tr h rest =>
          rcases i with _ | i
          · simp only [List.getElem?_cons_zero, Option.some.injEq, List.cons.injEq] at h
            obtain ⟨rfl, rfl⟩ := h
            rw [ih tr (by simpa using rest)]
          · simp at h
    rw [key _ tr htr]
    unfold expand irange
    rw [List.map_map]
    rfl

end CRU.Prm
