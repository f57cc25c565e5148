import Verif.Prm.BuildThrow
import Verif.Prm.QueryThrowProps
/-
  C119, theorems about `BuildRoadMap` with functions that may throw.
-/
namespace CRU.Prm.Throw
open CRU.Graph CRU.Knn CRU.Parallel CRU.GraphSearch CRU.Distances.Throw
set_option linter.unusedSectionVars false

variable {V C ε : Type} [LinearOrder C] [Zero C] [OrderTop C]

/-- The thread numbers of the backend: distinct, and below the number of threads of the loop. -/
def GoodThreads (b : Backend) (threads : Int) : Prop :=
  GoodBackend b threads ∧ ∀ n : Nat, ∀ t : Nat, (t : Int) < min threads n → (b.tid t : Int) < min threads n

/-! ### Sampling -/

/-- The query for duplicates. -/
theorem fresh_query {e : Env V C ε} {be : BuildEnv V C ε} (hps : LawfulPartialSort be.ps) (hth : InI64 e.threads) (h1 : 1 ≤ e.threads)
    (hb : GoodThreads e.backend e.threads) {states : List (Option V)} (hne : states ≠ []) (hI : InI64 states.length) (q : V)
    {r : Res (Except ε (List (Entry C)))}
    (hk : CRU.Knn.Throw.KnnRun be.ps e.backend e.threads states (stateDist e.dist q) 0 states.length 1 r) :
    (∃ x s, r = .ok (.error x) ∧ some s ∈ states ∧ e.dist s q = .error x) ∨
    ∃ n l, r = .ok (.ok (n :: l)) ∧ ∀ valid dist, Extends e valid dist →
      CRU.Knn.KnnRun be.ps e.backend e.threads states (Prm.stateDist dist q) 0 states.length 1 (.ok (n :: l)) := by
  have hpos : 0 < states.length := List.length_pos_iff.mpr hne
  rcases CRU.Knn.Throw.C107_knn be.ps e.backend e.threads states (stateDist e.dist q) 0 states.length 1 hpos le_rfl (by omega) hI hth h1
    (by simpa using hb.2 states.length) r hk with ⟨hret, r', rfl, hall⟩ | ⟨i, x, hi, -, -, hd, rfl, -⟩
  · right
    have hag : ∀ valid dist, Extends e valid dist → CRU.Knn.Throw.Agrees states (stateDist e.dist q) 0 states.length (Prm.stateDist dist q) := by
      intro valid dist hx i h _ _
      obtain ⟨v, hv⟩ := hret i h (by omega) h
      cases hs : states[i] with
      | none => rfl
      | some s =>
        rw [hs] at hv
        unfold stateDist at hv ⊢
        unfold Prm.stateDist
        dsimp only at hv ⊢
        rw [hv, hx.2 _ _ _ hv]
    have hrun := hall _ (hag _ _ (extends_t e))
    obtain ⟨l, rfl, hl⟩ := knnRun_nearest hps hth hb.1 states (Prm.stateDist (tdist e) q)
      (fun j : Int => Prm.stateDist (tdist e) q ((states[j.toNat]?).getD none)) (by
        intro i h
        rw [Int.toNat_natCast, List.getElem?_eq_getElem h]
        rfl) 1 (by omega) hI hrun
    have hlen := hl.length
    have hl1 : l.length = 1 := by simp only [Int.toNat_one] at hlen; omega
    obtain ⟨n, rfl⟩ := List.length_eq_one_iff.mp hl1
    exact ⟨n, [], rfl, fun valid dist hx => hall _ (hag valid dist hx)⟩
  · left
    cases hs : states[i] with
    | none => rw [hs] at hd; cases hd
    | some s =>
      rw [hs] at hd
      exact ⟨x, s, rfl, by rw [← hs]; exact List.getElem_mem _, hd⟩

/-- What can make sampling throw. -/
def SampleRaises (e : Env V C ε) (be : BuildEnv V C ε) (x : ε) : Prop :=
  be.sampled (.error x) ∨ (∃ q, be.sampled (.ok q) ∧ be.stateValid q = .error x) ∨
  (e.addDuplicates = false ∧ ∃ a b, Usable be a ∧ Usable be b ∧ e.dist a b = .error x)

/-- The result of one call of the sampling helper. -/
theorem tryRun_spec {e : Env V C ε} {be : BuildEnv V C ε} (hps : LawfulPartialSort be.ps) (hth : InI64 e.threads) (h1 : 1 ≤ e.threads)
    (hb : GoodThreads e.backend e.threads) {states : List (Option V)} (hne : states ≠ []) (hI : InI64 states.length)
    (hu : ∀ s, some s ∈ states → Usable be s) {k : Nat} {r : Res (Except ε (Option V))} (h : TryRun e be states k r) :
    (∃ x, r = .ok (.error x) ∧ SampleRaises e be x) ∨
    ∃ o, r = .ok (.ok o) ∧ (∀ q, o = some q → Usable be q) ∧ ∀ sv valid dist, be.Extends sv → Extends e valid dist →
      Prm.TryRun (e.total valid dist) (be.total sv) states k (.ok o) := by
  induction h with
  | gaveUp => exact .inr ⟨none, rfl, by simp, fun _ _ _ _ _ => .gaveUp⟩
  | sampleRaises hx => exact .inl ⟨_, rfl, .inl hx⟩
  | validRaises hx hv => exact .inl ⟨_, rfl, .inr (.inl ⟨_, hx, hv⟩)⟩
  | @invalid k q r hx hv _ ih =>
    rcases ih with ⟨x, h, hr⟩ | ⟨o, h, h2, h3⟩
    · exact .inl ⟨x, h, hr⟩
    · exact .inr ⟨o, h, h2, fun sv valid dist hs hx' => .invalid hx (hs _ _ hv) (h3 sv valid dist hs hx')⟩
  | @anyValid k q hx hv hd =>
    exact .inr ⟨some q, rfl, fun p hp => by cases hp; exact ⟨hx, hv⟩, fun sv valid dist hs _ => .anyValid hx (hs _ _ hv) hd⟩
  | @distRaises k q x hx hv hd hk =>
    rcases fresh_query hps hth h1 hb hne hI q hk with ⟨y, s, hy, hs, hds⟩ | ⟨n, l, hl, -⟩
    · cases hy
      exact .inl ⟨_, rfl, .inr (.inr ⟨hd, s, q, hu s hs, ⟨hx, hv⟩, hds⟩)⟩
    · cases hl
  | @fresh k q n l hx hv hd hk hn =>
    rcases fresh_query hps hth h1 hb hne hI q hk with ⟨y, s, hy, -⟩ | ⟨n', l', hl, hr⟩
    · cases hy
    · cases hl
      exact .inr ⟨some q, rfl, fun p hp => by cases hp; exact ⟨hx, hv⟩, fun sv valid dist hs hx' =>
        .fresh hx (hs _ _ hv) hd (hr valid dist hx') hn⟩
  | @duplicate k q n l r hx hv hd hk hn _ ih =>
    rcases fresh_query hps hth h1 hb hne hI q hk with ⟨y, s, hy, -⟩ | ⟨n', l', hl, hr⟩
    · cases hy
    · cases hl
      rcases ih with ⟨x, h, hr'⟩ | ⟨o, h, h2, h3⟩
      · exact .inl ⟨x, h, hr'⟩
      · exact .inr ⟨o, h, h2, fun sv valid dist hs hx' => .duplicate hx (hs _ _ hv) hd (hr valid dist hx') hn (h3 sv valid dist hs hx')⟩
  | @none k q hx hv hd hk =>
    rcases fresh_query hps hth h1 hb hne hI q hk with ⟨y, s, hy, -⟩ | ⟨n', l', hl, -⟩
    · cases hy
    · cases hl
  | @throws k q ex hx hv hd hk =>
    rcases fresh_query hps hth h1 hb hne hI q hk with ⟨y, s, hy, -⟩ | ⟨n', l', hl, -⟩
    · cases hy
    · cases hl
  | @ub k q hx hv hd hk =>
    rcases fresh_query hps hth h1 hb hne hI q hk with ⟨y, s, hy, -⟩ | ⟨n', l', hl, -⟩
    · cases hy
    · cases hl

/-- What holds between two sampling bodies. -/
def SampleInv (be : BuildEnv V C ε) (N : Nat) (states : List (Option V)) : Prop := states.length = N ∧ ∀ s, some s ∈ states → Usable be s

theorem sampleBody_spec {e : Env V C ε} {be : BuildEnv V C ε} (hps : LawfulPartialSort be.ps) (hth : InI64 e.threads) (h1 : 1 ≤ e.threads)
    (hb : GoodThreads e.backend e.threads) {N : Nat} (hN : InI64 N) {c : Call} (hc : 0 ≤ c.index ∧ c.index.toNat < N) {states : List (Option V)}
    (hs : SampleInv be N states) {r : Res (List (Option V) × Option ε)} (h : SampleBody e be c states r) :
    (∃ x, r = .ok (states, some x) ∧ SampleRaises e be x) ∨
    ∃ o, r = .ok (states.set c.index.toNat o, none) ∧ SampleInv be N (states.set c.index.toNat o) ∧
      ∀ sv valid dist, be.Extends sv → Extends e valid dist → Prm.TryRun (e.total valid dist) (be.total sv) states be.maxTries.toNat (.ok o) := by
  have hne : states ≠ [] := by rintro rfl; have := hs.1; simp at this; omega
  have key := fun r h => tryRun_spec hps hth h1 hb hne (by rw [hs.1]; exact hN) hs.2 (k := be.maxTries.toNat) (r := r) h
  cases h with
  | @stored o ht hi =>
    rcases key _ ht with ⟨x, hx, -⟩ | ⟨o', ho, h2, h3⟩
    · cases hx
    · cases ho
      refine .inr ⟨o, rfl, ⟨by simpa using hs.1, fun s hm => ?_⟩, h3⟩
      rcases List.mem_or_eq_of_mem_set hm with h | h
      · exact hs.2 s h
      · exact h2 s h.symm
  | raises ht =>
    rcases key _ ht with ⟨x, hx, hr⟩ | ⟨o', ho, -⟩
    · cases hx; exact .inl ⟨_, rfl, hr⟩
    · cases ho
  | outOfRange ht hi => exact absurd ⟨hc.1, by rw [hs.1]; exact hc.2⟩ hi
  | throws ht =>
    rcases key _ ht with ⟨x, hx, hr⟩ | ⟨o', ho, -⟩
    · cases hx
    · cases ho
  | ub ht =>
    rcases key _ ht with ⟨x, hx, hr⟩ | ⟨o', ho, -⟩
    · cases hx
    · cases ho

theorem sample_steps {e : Env V C ε} {be : BuildEnv V C ε} (hps : LawfulPartialSort be.ps) (hth : InI64 e.threads) (h1 : 1 ≤ e.threads)
    (hb : GoodThreads e.backend e.threads) {N : Nat} (hN : InI64 N) {tr : List Call} {states s' : List (Option V)}
    (hc : ∀ c ∈ tr, 0 ≤ c.index ∧ c.index.toNat < N) (hs : SampleInv be N states) (h : Steps (SampleBody e be) tr states s')
    {sv : V → Bool} {valid : V → V → Bool} {dist : V → V → C} (hsv : be.Extends sv) (hx : Extends e valid dist) :
    Prm.SampleRun (e.total valid dist) (be.total sv) (tr.map (·.index)) states (.ok s') := by
  induction h with
  | nil => exact .done
  | @cons c tr s s1 s2 hb1 _ ih =>
    rcases sampleBody_spec hps hth h1 hb hN (hc c (by simp)) hs hb1 with ⟨x, he, -⟩ | ⟨o, he, hinv, ht⟩
    · cases he
    · cases he
      exact .next (ht sv valid dist hsv hx) ⟨(hc c (by simp)).1, by rw [hs.1]; exact (hc c (by simp)).2⟩ (ih (fun d hd => hc d (by simp [hd])) hinv)

/-! ### Connecting -/

theorem connectOne_spec (e : Env V C ε) (g : Graph V C) (vals : List V) (hg : Holds g vals) (i : Nat) (state : V) (nb : Entry C)
    (hnb : ∃ j : Nat, nb.index = j ∧ j < vals.length) :
    (∃ g' x, connectOne e (i : Int) state nb g = .ok (g', some x) ∧ Holds g' vals ∧ ∃ b, nb.index ≠ i ∧ vals[nb.index.toNat]? = some b ∧
      ConnectRaises e state b x) ∨
    ∃ g', connectOne e (i : Int) state nb g = .ok (g', none) ∧ Holds g' vals ∧ (∀ b, nb.index ≠ i → vals[nb.index.toNat]? = some b →
      ∀ x, ¬ ConnectRaises e state b x) ∧ ∀ valid dist, Extends e valid dist →
      Prm.connectOne (e.total valid dist) (i : Int) state nb g = .ok g' := by
  obtain ⟨j, hj, hjl⟩ := hnb
  unfold connectOne Prm.connectOne
  by_cases hne : nb.index ≠ i
  · simp only [if_pos hne]
    have hv := List.getElem?_eq_getElem hjl
    obtain ⟨n, hn, hget, hval⟩ := hg.getNode hv
    rw [hj, hget, Res.ok_bind, Int.toNat_natCast, hv, ← hval]
    have hne' : (j : Int) ≠ i := by rw [← hj]; exact hne
    simp only [Res.ok_bind]
    generalize n.value = b
    cases h1 : e.valid b state with
    | error x => exact .inl ⟨g, x, rfl, hg, b, hne', rfl, .inl h1⟩
    | ok c =>
      dsimp only
      have hin : Holds (if c = true then pushIn g (i : Int) ⟨(j : Int), i, nb.dist, 0⟩ else g) vals := by
        split
        · rw [pushIn_eq]; exact extend_holds hg i _ _
        · exact hg
      by_cases hsc : e.symmetric = true ∧ c = true
      · right
        rw [if_pos (by simp [hsc.1, hsc.2])]
        refine ⟨_, rfl, by rw [pushOut_eq]; exact extend_holds hin i _ _, ?_, fun valid dist hx => ?_⟩
        · rintro b' - hb' x (h | ⟨c', h2, h3, -⟩)
          · cases hb'; rw [h1] at h; cases h
          · cases hb'; rw [h1] at h2; cases h2; exact h3 hsc
        · have : (e.total valid dist).valid b state = c := hx.1 _ _ _ h1
          rw [this]
          have hsy : (e.total valid dist).symmetric = true := hsc.1
          rw [if_pos (by simp [hsy, hsc.2])]
          rfl
      · rw [if_neg (by simpa using hsc)]
        have hneg : ∀ valid dist, ¬ ((e.total valid dist).symmetric && c) = true := by
          intro valid dist
          simpa [Env.total] using hsc
        cases h2 : e.valid state b with
        | error x => exact .inl ⟨_, x, rfl, hin, b, hne', rfl, .inr ⟨c, h1, hsc, .inl h2⟩⟩
        | ok c2 =>
          cases c2 with
          | false =>
            right
            refine ⟨_, rfl, hin, ?_, fun valid dist hx => ?_⟩
            · rintro b' - hb' x (h | ⟨c', -, -, h | ⟨h, -⟩⟩)
              · cases hb'; rw [h1] at h; cases h
              · cases hb'; rw [h2] at h; cases h
              · cases hb'; rw [h2] at h; cases h
            · have e1 : (e.total valid dist).valid b state = c := hx.1 _ _ _ h1
              have e2 : (e.total valid dist).valid state b = false := hx.1 _ _ _ h2
              rw [e1, if_neg (hneg valid dist), e2]
              rfl
          | true =>
            dsimp only
            cases h3 : e.dist state b with
            | error x => exact .inl ⟨_, x, rfl, hin, b, hne', rfl, .inr ⟨c, h1, hsc, .inr ⟨h2, h3⟩⟩⟩
            | ok w =>
              right
              refine ⟨_, rfl, by rw [pushOut_eq]; exact extend_holds hin i _ _, ?_, fun valid dist hx => ?_⟩
              · rintro b' - hb' x (h | ⟨c', -, -, h | ⟨-, h⟩⟩)
                · cases hb'; rw [h1] at h; cases h
                · cases hb'; rw [h2] at h; cases h
                · cases hb'; rw [h3] at h; cases h
              · have e1 : (e.total valid dist).valid b state = c := hx.1 _ _ _ h1
                have e2 : (e.total valid dist).valid state b = true := hx.1 _ _ _ h2
                have e3 : (e.total valid dist).dist state b = w := hx.2 _ _ _ h3
                rw [e1, if_neg (hneg valid dist), e2, e3]
                rfl
  · simp only [if_neg hne]
    exact .inr ⟨g, rfl, hg, fun b h => absurd h hne, fun _ _ _ => rfl⟩

theorem connectList_spec (e : Env V C ε) (vals : List V) (i : Nat) (state : V) : ∀ (l : List (Entry C)) (g : Graph V C), Holds g vals →
    (∀ nb ∈ l, ∃ j : Nat, nb.index = j ∧ j < vals.length) →
    (∃ g' x, connectList e (i : Int) state l g = .ok (g', some x) ∧ Holds g' vals ∧ ∃ nb ∈ l, ∃ b, nb.index ≠ i ∧
      vals[nb.index.toNat]? = some b ∧ ConnectRaises e state b x) ∨
    ∃ g', connectList e (i : Int) state l g = .ok (g', none) ∧ Holds g' vals ∧ (∀ nb ∈ l, ∀ b, nb.index ≠ i → vals[nb.index.toNat]? = some b →
      ∀ x, ¬ ConnectRaises e state b x) ∧ ∀ valid dist, Extends e valid dist →
      forEach (Prm.connectOne (e.total valid dist) (i : Int) state) l g = .ok g'
  | [], g, hg, _ => .inr ⟨g, rfl, hg, by simp, fun _ _ _ => rfl⟩
  | nb :: l, g, hg, hl => by
    unfold connectList
    rcases connectOne_spec e g vals hg i state nb (hl nb (by simp)) with ⟨g', x, h1, h2, h3⟩ | ⟨g', h1, h2, h3, h4⟩
    · rw [h1]
      exact .inl ⟨g', x, rfl, h2, nb, by simp, h3⟩
    · rw [h1, Res.ok_bind]
      dsimp only
      rcases connectList_spec e vals i state l g' h2 (fun m hm => hl m (by simp [hm])) with ⟨g2, x, k1, k2, m, hm, k3⟩ | ⟨g2, k1, k2, k3, k4⟩
      · exact .inl ⟨g2, x, k1, k2, m, by simp [hm], k3⟩
      · refine .inr ⟨g2, k1, k2, ?_, fun valid dist hx => ?_⟩
        · intro m hm b
          rcases List.mem_cons.mp hm with rfl | hm
          · exact h3 b
          · exact k3 m hm b
        · unfold forEach
          rw [h4 valid dist hx, Res.ok_bind, k4 valid dist hx]

/-- What can make the connection of node `i` throw. -/
def NodeRaises (e : Env V C ε) (vals : List V) (x : ε) : Prop :=
  ∃ (g : Graph V C) (i : Nat) (n : Node V C), Holds g vals ∧ g[i]? = some n ∧
    (e.knn g.length (getNode g) n.value (e.K + 1) .roadmapToNew g.length (.ok (.error x)) ∨
    ∃ l, e.knn g.length (getNode g) n.value (e.K + 1) .roadmapToNew g.length (.ok (.ok l)) ∧
      ∃ nb ∈ l, ∃ b, nb.index ≠ i ∧ HasValue g nb.index b ∧ ConnectRaises e n.value b x)

theorem connectBody_spec {e : Env V C ε} (hs : e.knn.Sound e.dist) (hK : 0 ≤ e.K) (hK1 : InI64 (e.K + 1)) {vals : List V} (hI : InI64 vals.length)
    {c : Call} (hc : 0 ≤ c.index ∧ c.index.toNat < vals.length) {g : Graph V C} (hg : Holds g vals) {r : Res (Graph V C × Option ε)}
    (h : ConnectBody e c g r) :
    ∃ g' o, r = .ok (g', o) ∧ Holds g' vals ∧ (∀ x, o = some x → NodeRaises e vals x) ∧
      (o = none → ∀ valid dist, Extends e valid dist → Prm.ConnectRun (e.total valid dist) c.index g (.ok g')) := by
  obtain ⟨i, hci⟩ : ∃ i : Nat, c.index = i := ⟨c.index.toNat, by omega⟩
  have hi : i < vals.length := by omega
  obtain ⟨n, hn, hget, hval⟩ := hg.getNode (List.getElem?_eq_getElem hi)
  have hlen : g.length = vals.length := hg.length
  unfold ConnectBody at h
  rw [hci, hget, chk64_ok hK1] at h
  dsimp only at h
  obtain ⟨rk, hk, rfl⟩ := h
  have hq := query_spec (e := { e with K := e.K + 1 }) hs (show 0 ≤ e.K + 1 by omega) (maxNode := g.length) (by omega) le_rfl (by rw [hlen]; exact hI) hk
  rcases hq with ⟨x, rfl, hkx⟩ | ⟨l, rfl, hkl, -, hin, hq⟩
  · exact ⟨g, some x, rfl, hg, fun y hy => by cases hy; exact ⟨g, i, n, hg, hn, .inl hkx⟩, fun h => by cases h⟩
  · have hin' : ∀ nb ∈ l, ∃ j : Nat, nb.index = j ∧ j < vals.length := fun nb hnb => by
      obtain ⟨j, m, a1, -, a3, -⟩ := hin nb hnb
      obtain ⟨hj, -⟩ := List.getElem?_eq_some_iff.mp a3
      exact ⟨j, a1, by omega⟩
    simp only [Res.ok_bind]
    rcases connectList_spec e vals i n.value l g hg hin' with ⟨g', x, k1, k2, nb, hnb, b, k3, k4, k5⟩ | ⟨g', k1, k2, -, k4⟩
    · refine ⟨g', some x, k1, k2, fun y hy => ?_, fun h => by cases h⟩
      cases hy
      obtain ⟨j, a1, a2⟩ := hin' nb hnb
      rw [a1, Int.toNat_natCast, hg.get] at k4
      obtain ⟨m, hm, hmb⟩ := Option.map_eq_some_iff.mp k4
      exact ⟨g, i, n, hg, hn, .inr ⟨l, hkl, nb, hnb, b, k3, ⟨j, m, a1, hm, hmb⟩, k5⟩⟩
    · refine ⟨g', none, k1, k2, (fun y hy => by cases hy), fun _ valid dist hx => ?_⟩
      unfold Prm.ConnectRun
      rw [hci, hget, show (e.total valid dist).K + 1 = e.K + 1 from rfl, chk64_ok hK1]
      exact ⟨.ok l, hq valid dist, by rw [Res.ok_bind, k4 valid dist hx]⟩

theorem connect_steps {e : Env V C ε} (hs : e.knn.Sound e.dist) (hK : 0 ≤ e.K) (hK1 : InI64 (e.K + 1)) {vals : List V} (hI : InI64 vals.length)
    {tr : List Call} {g g' : Graph V C} (hc : ∀ c ∈ tr, 0 ≤ c.index ∧ c.index.toNat < vals.length) (hg : Holds g vals)
    (h : Steps (ConnectBody e) tr g g') {valid : V → V → Bool} {dist : V → V → C} (hx : Extends e valid dist) :
    Prm.ConnectAllRun (e.total valid dist) (tr.map (·.index)) g (.ok g') := by
  induction h with
  | nil => exact .done
  | @cons c tr s s1 s2 hb1 _ ih =>
    obtain ⟨g1, o, he, hg1, -, h2⟩ := connectBody_spec hs hK hK1 hI (hc c (by simp)) hg hb1
    cases he
    exact .next (h2 rfl valid dist hx) (ih (fun d hd => hc d (by simp [hd])) hg1)

/-! ### Theorems -/

/-- C119: either one of the functions throws, for one of the reasons listed in `BuildRaises`, and the call throws that exception; or the call has a
result that it can have with functions that always return and have the same values (C41), whatever these return where the functions throw. -/
theorem C119_build (e : Env V C ε) (be : BuildEnv V C ε) (hs : e.knn.Sound e.dist) (hps : LawfulPartialSort be.ps) (hth : InI64 e.threads)
    (h1 : 1 ≤ e.threads) (hb : GoodThreads e.backend e.threads) (size : Int) (hsize : InI64 size) (hK1 : InI64 (e.K + 1))
    (r : Res (Except ε (Graph V C))) (hr : BuildRun e be size r) :
    (∃ x, r = .ok (.error x) ∧ BuildRaises e be size x) ∨
    ∃ r', r = (r' >>= fun g => .ok (.ok g)) ∧ ∀ sv valid dist, be.Extends sv → Extends e valid dist →
      Prm.BuildRun (e.total valid dist) (be.total sv) size r' := by
  have hst : InI64 (samplingThreads e be) := by
    unfold samplingThreads
    split
    · exact hth
    · unfold InI64; omega
  have hrep : (List.replicate size.toNat (none : Option V)).length = size.toNat := by simp
  have hN : 0 ≤ size → InI64 (size.toNat : Nat) := fun h => by rw [Int.toNat_of_nonneg h]; exact hsize
  have hidx : ∀ {ws}, 0 ≤ size → staticIndexLoop e.backend (samplingThreads e be) 0 size = .ok ws →
      ∀ c ∈ ws.flatten, 0 ≤ c.index ∧ c.index.toNat < size.toNat := by
    intro ws h0 hw
    rw [← Int.toNat_of_nonneg h0] at hw
    exact index_calls hst (hN h0) hw
  have hsample : ∀ {ws r}, 0 ≤ size → staticIndexLoop e.backend (samplingThreads e be) 0 size = .ok ws →
      LoopRun e.backend.isOmp (SampleBody e be) ws [] (List.replicate size.toNat none) r →
      (∃ x, r = .ok (.error x) ∧ SampleRaises e be x) ∨
      ∃ states, r = .ok (.ok states) ∧ SampleInv be size.toNat states ∧ ∃ order, IndexRun e.backend (samplingThreads e be) 0 size order ∧
        ∀ sv valid dist, be.Extends sv → Extends e valid dist →
          Prm.SampleRun (e.total valid dist) (be.total sv) order (List.replicate size.toNat none) (.ok states) := by
    intro ws r h0 hw hl
    have hinv : SampleInv be size.toNat (List.replicate size.toNat (none : Option V)) :=
      ⟨hrep, fun s hm => by simp at hm⟩
    rcases loopRun_spec (Inv := SampleInv be size.toNat) (Bad := SampleRaises e be) (P := fun c => 0 ≤ c.index ∧ c.index.toNat < size.toNat) (by
        intro c s r hc hsi hb1
        rcases sampleBody_spec hps hth h1 hb (hN h0) hc hsi hb1 with ⟨x, he, hx⟩ | ⟨o, he, hi, -⟩
        · exact ⟨s, some x, he, hsi, fun y hy => by cases hy; exact hx⟩
        · exact ⟨_, none, he, hi, fun y hy => by cases hy⟩) hl (hidx h0 hw) hinv (by simp) with h | ⟨s', he, hi, -, tr, htr, hst⟩
    · exact .inl h
    · refine .inr ⟨s', he, hi, tr.map (·.index), ⟨ws, tr, hw, htr, rfl⟩, fun sv valid dist hsv hx =>
        sample_steps hps hth h1 hb (hN h0) (fun c hc => hidx h0 hw c (htr.perm.subset hc)) hinv hst hsv hx⟩
  have hconnect : ∀ {states : List (Option V)} {g : Graph V C} {ws2 r}, 0 ≤ size → 1 ≤ e.K → SampleInv be size.toNat states → populate states [] = .ok g →
      staticIndexLoop e.backend e.threads 0 g.length = .ok ws2 → LoopRun e.backend.isOmp (ConnectBody e) ws2 [] g r →
      (∃ x, r = .ok (.error x) ∧ BuildRaises e be size x) ∨
      ∃ g', r = .ok (.ok g') ∧ ∃ order, IndexRun e.backend e.threads 0 g.length order ∧
        ∀ valid dist, Extends e valid dist → Prm.ConnectAllRun (e.total valid dist) order g (.ok g') := by
    intro states g ws2 r h0 hK hinv hp hw2 hl
    obtain ⟨vals, rfl, hg0⟩ := populate_ok hp
    rw [List.nil_append] at hg0
    have hh0 : Holds g vals := by rw [hg0]; unfold Holds; simp [Function.comp_def]
    have hvl : vals.length = size.toNat := by have := hinv.1; simpa using this
    have hvI : InI64 vals.length := by rw [hvl]; exact hN h0
    have hi2 : ∀ c ∈ ws2.flatten, 0 ≤ c.index ∧ c.index.toNat < vals.length := by
      rw [hh0.length] at hw2
      exact index_calls hth hvI hw2
    have hbad : ∀ x, NodeRaises e vals x → BuildRaises e be size x := by
      rintro x ⟨g', i, n, hh, hn, hr⟩
      refine .inr (.inr (.inr ⟨g', i, n, by rw [hh.length, hvl]; omega, fun m hm => ?_, hn, hr⟩))
      apply hinv.2
      refine List.mem_map.mpr ⟨m.value, ?_, rfl⟩
      rw [← show g'.map (·.value) = vals from hh]
      exact List.mem_map.mpr ⟨m, hm, rfl⟩
    rcases loopRun_spec (Inv := fun g => Holds g vals) (Bad := BuildRaises e be size) (P := fun c => 0 ≤ c.index ∧ c.index.toNat < vals.length) (by
        intro c s r hc hsi hb1
        obtain ⟨g', o, he, hg', hx, -⟩ := connectBody_spec hs (by omega) hK1 hvI hc hsi hb1
        exact ⟨g', o, he, hg', fun y hy => hbad y (hx y hy)⟩) hl hi2 hh0 (by simp) with h | ⟨s', he, hi, -, tr, htr, hst⟩
    · exact .inl h
    · exact .inr ⟨s', he, tr.map (·.index), ⟨ws2, tr, hw2, htr, rfl⟩, fun valid dist hx =>
        connect_steps hs (by omega) hK1 hvI (fun c hc => hi2 c (htr.perm.subset hc)) hh0 hst hx⟩
  have hsr : ∀ x, SampleRaises e be x → BuildRaises e be size x := by
    rintro x (h | h | h)
    · exact .inl h
    · exact .inr (.inl h)
    · exact .inr (.inr (.inl h))
  cases hr with
  | badArguments h => exact .inr ⟨.throw .runtimeError, rfl, fun _ _ _ _ _ => .badArguments h⟩
  | samplingEnds h hw hl hne =>
    rcases hsample h.1 hw hl with ⟨x, rfl, hx⟩ | ⟨st, rfl, -⟩
    · exact .inl ⟨x, rfl, hsr x hx⟩
    · exact absurd rfl (hne st)
  | samplingFails h hw hl hp =>
    rcases hsample h.1 hw hl with ⟨x, hx, -⟩ | ⟨st, he, -, order, ho, hrun⟩
    · cases hx
    · cases he
      exact .inr ⟨.throw .runtimeError, rfl, fun sv valid dist hsv hx => .samplingFails h ho (hrun sv valid dist hsv hx) hp⟩
  | connectingEnds h hw hl hp hw2 hc hne =>
    rcases hsample h.1 hw hl with ⟨x, hx, -⟩ | ⟨st, he, hinv, -⟩
    · cases hx
    · cases he
      rcases hconnect h.1 h.2.1 hinv hp hw2 hc with ⟨x, rfl, hx⟩ | ⟨g', rfl, -⟩
      · exact .inl ⟨x, rfl, hx⟩
      · exact absurd rfl (hne g')
  | connected h hw hl hp hw2 hc =>
    rcases hsample h.1 hw hl with ⟨x, hx, -⟩ | ⟨st, he, hinv, order, ho, hrun⟩
    · cases hx
    · cases he
      rcases hconnect h.1 h.2.1 hinv hp hw2 hc with ⟨x, hx, -⟩ | ⟨g', he, order2, ho2, hrun2⟩
      · cases hx
      · cases he
        exact .inr ⟨_, rfl, fun sv valid dist hsv hx => .connected (r := .ok _) h ho (hrun sv valid dist hsv hx) hp ho2 (hrun2 valid dist hx)⟩

/-- The same with a given value where the distance function throws. -/
def tdistOr (e : Env V C ε) (c : C) (a b : V) : C := match e.dist a b with | .ok w => w | .error _ => c

theorem extends_or (e : Env V C ε) (c : C) : Extends e (tvalid e) (tdistOr e c) :=
  ⟨fun a b c h => by unfold tvalid; rw [h], fun a b c h => by unfold tdistOr; rw [h]⟩

/-- C119: a roadmap that is returned is as in C41: of the size asked for; of states that the sampler returned and the check accepted; every edge in the
lists of both its ends, accepted by the edge check in its direction, and with the distance in its direction; between every node and its K nearest
others, wherever the check accepts it; without two states at distance zero, unless duplicates are allowed. -/
theorem C119_roadmap [Nontrivial C] (e : Env V C ε) (be : BuildEnv V C ε) (hs : e.knn.Sound e.dist) (hps : LawfulPartialSort be.ps)
    (hth : InI64 e.threads) (h1 : 1 ≤ e.threads) (hb : GoodThreads e.backend e.threads) (size : Int) (hsize : InI64 size) (hK1 : InI64 (e.K + 1))
    (hn : ∀ valid dist, Extends e valid dist → (e.total valid dist).knn.Nearest dist)
    (hsym : e.symmetric = true → ∀ a b, e.valid a b = e.valid b a ∧ e.dist a b = e.dist b a)
    (g : Graph V C) (hr : BuildRun e be size (.ok (.ok g))) :
    (g.length : Int) = size ∧ (∀ n ∈ g, Usable be n.value) ∧ Mirrored g ∧ ValidLinkage g ∧
    (∀ u v w, OutEdge g u v w → u ≠ v ∧ ∃ a b, HasValue g u a ∧ HasValue g v b ∧ e.valid a b = .ok true ∧ e.dist a b = .ok w) ∧
    ∀ valid dist, Extends e valid dist → (e.symmetric = true → SymmetricFns valid dist) →
      (e.addDuplicates = false → NoZeroDistance dist g) ∧
      ∃ near : Nat → List (Entry C),
        (∀ (i : Nat) (n : Node V C), g[i]? = some n →
          IsKNearest (nodeDist dist .roadmapToNew g n.value) 0 g.length (e.K + 1).toNat (near i)) ∧
        ∀ u v w, OutEdge g u v w ↔ ∃ (i j : Nat) (a b : V), u = i ∧ v = j ∧ HasValue g u a ∧ HasValue g v b ∧ i ≠ j ∧
          Checked valid dist a b w ∧ (u ∈ (near j).map (·.index) ∨ v ∈ (near i).map (·.index)) := by
  rcases C119_build e be hs hps hth h1 hb size hsize hK1 _ hr with ⟨x, hx, -⟩ | ⟨r', hr', hrun⟩
  · cases hx
  have hr' : r' = .ok g := by
    match r', hr' with
    | .ok g', h => cases h; rfl
  subst hr'
  have hex : ∀ b, be.Extends (fun q => match be.stateValid q with | .ok c => c | .error _ => b) := by
    intro b q c h
    dsimp only
    rw [h]
  have main := fun valid dist (hx : Extends e valid dist) (hsy : e.symmetric = true → SymmetricFns valid dist) =>
    C41_build_roadmap (e.total valid dist) (be.total fun q => match be.stateValid q with | .ok c => c | .error _ => false) (hn valid dist hx) hps hth
      hb.1 size hsize hK1 hsy _ (hrun _ valid dist (hex false) hx)
  have hsy : ∀ c, e.symmetric = true → SymmetricFns (tvalid e) (tdistOr e c) := by
    intro c h a b
    obtain ⟨k1, k2⟩ := hsym h a b
    unfold tvalid tdistOr
    rw [k1, k2]
    exact ⟨rfl, rfl⟩
  have hval : ∀ {u : Int} {a b : V}, HasValue g u a → HasValue g u b → a = b := by
    rintro u a b ⟨k, n, rfl, hk, rfl⟩ ⟨l, m, hl, hm, rfl⟩
    have : k = l := by omega
    subst this
    rw [hk] at hm; cases hm; rfl
  rcases main _ _ (extends_or e 0) (hsy 0) with h | ⟨g', h, a1, a2, a3, a4, -, near, -, a6⟩
  · cases h
  cases h
  refine ⟨a1, fun n hm => ?_, a3, a4, ?_, fun valid dist hx hsv => ?_⟩
  · obtain ⟨i, hi, rfl⟩ := List.getElem_of_mem hm
    obtain ⟨k1, k2⟩ := a2 i _ (List.getElem?_eq_getElem hi)
    refine ⟨k1, ?_⟩
    dsimp only [BuildEnv.total] at k2
    generalize hv : be.stateValid g[i].value = r at k2
    match r, k2 with
    | .ok c, k2 => rw [show c = true from k2] at hv ⊢
  · intro u v w hw
    obtain ⟨i, j, a, b, rfl, rfl, k1, k2, k3, ⟨k4, k5⟩, -⟩ := (a6 u v w).mp hw
    refine ⟨by omega, a, b, k1, k2, ?_, ?_⟩
    · have k4 : tvalid e a b = true := k4
      unfold tvalid at k4
      cases hv : e.valid a b with
      | error x => rw [hv] at k4; cases k4
      | ok c => rw [hv] at k4; rw [show c = true from k4]
    · cases hd : e.dist a b with
      | ok c =>
        have k5 : w = tdistOr e 0 a b := k5
        unfold tdistOr at k5
        rw [hd] at k5
        rw [k5]
      | error x =>
        exfalso
        obtain ⟨c, hc⟩ := exists_ne w
        rcases main _ _ (extends_or e c) (hsy c) with h | ⟨g', h, -, -, -, -, -, near', -, b6⟩
        · cases h
        cases h
        obtain ⟨i', j', a', b', e1, e2, l1, l2, -, ⟨-, l5⟩, -⟩ := (b6 _ _ w).mp hw
        have := hval k1 l1
        subst this
        have := hval k2 l2
        subst this
        have l5 : w = tdistOr e c a b := l5
        unfold tdistOr at l5
        rw [hd] at l5
        exact hc l5.symm
  · rcases main valid dist hx hsv with h | ⟨g', h, -, -, -, -, b5, near', b6, b7⟩
    · cases h
    cases h
    exact ⟨b5, near', b6, b7⟩

/-- C119: the linear provider meets the hypotheses of `C119_roadmap`: where the distance function throws for none of the nodes, it returns the nearest. -/
theorem C119_linear_provider (ps : Nat → List (Entry C) → List (Entry C)) (hps : LawfulPartialSort ps) (b : Backend) (threads : Int)
    (hth : InI64 threads) (h1 : 1 ≤ threads) (htid : ∀ (n : Int) (t : Nat), (t : Int) < min threads n → (b.tid t : Int) < min threads n)
    (hinj : ∀ t u : Nat, (t : Int) < threads → (u : Int) < threads → b.tid t = b.tid u → t = u) (e : Env V C ε)
    (he : e.knn = linearProvider ps b threads e.dist) (valid : V → V → Bool) (dist : V → V → C) (hx : Extends e valid dist) :
    (e.total valid dist).knn.Nearest dist := by
  intro g size get state K dir maxNode r ha hsz hK h0 hle hr
  have hr : linearProvider ps b threads e.dist size get state K dir maxNode (r >>= fun l => .ok (.ok l)) := by
    rw [← he]; exact hr
  have hm : maxNode.toNat ≤ g.length := by have := ha.1; omega
  have hit : adapterItems size get maxNode = .ok (g.take maxNode.toNat) := by
    unfold adapterItems
    rw [if_neg (by omega), if_neg (by omega), mapM_get g get ha.2 _ hm]
  have htid' : ∀ t : Nat, (t : Int) < threads → (b.tid t : Int) < threads := fun t ht => by
    have := htid threads t (by omega); omega
  refine C40_linear_provider_nearest ps hps b threads hth htid' hinj dist g size get state K dir maxNode r ha hsz hK h0 hle ?_
  unfold linearProvider at hr
  rw [hit] at hr
  dsimp only at hr
  unfold Prm.linearProvider
  rw [hit]
  dsimp only
  have hlen : (g.take maxNode.toNat).length = maxNode.toNat := by simp; omega
  have hI : InI64 (g.take maxNode.toNat).length := by have := ha.1; unfold InI64 at *; omega
  have hrr : ∀ r1 : Res (List (Entry C)), ((r >>= fun l => .ok (.ok l)) : Res (Except ε (List (Entry C)))) = (r1 >>= fun l => .ok (.ok l)) → r = r1 := by
    intro r1 h
    match r, r1, h with
    | .ok l, .ok l1, h => cases h; rfl
    | .throw x, .throw y, h => cases h; rfl
    | .ub, .ub, h => rfl
  by_cases htriv : K = 0 ∨ maxNode.toNat = 0
  · have := (CRU.Knn.Throw.C107_knn_no_calls ps b threads _ _ 0 _ K _ hr).2 (by omega) le_rfl hK (by omega)
    have := hrr (.ok []) this
    subst this
    unfold CRU.Knn.KnnRun CRU.Knn.KnnParallelRun CRU.Knn.knnSerial
    have k1 : ¬ (g.take maxNode.toNat).length < 0 := by omega
    have k2 : ¬ (g.take maxNode.toNat).length > (g.take maxNode.toNat).length := by omega
    have k3 : ¬ K < 0 := by omega
    have k4 : K = 0 ∨ (g.take maxNode.toNat).length - 0 = 0 := by omega
    simp only [if_neg k1, if_neg k2, if_neg k3, if_pos k4]
    split <;> trivial
  · rcases CRU.Knn.Throw.C107_knn ps b threads (g.take maxNode.toNat) (fun n : Node V C => dirDist e.dist dir n.value state) 0 _ K (by omega) le_rfl
      (by omega) hI hth h1 (htid _) _ hr with ⟨hret, r', hr', hag⟩ | ⟨i, x, hi, -, -, hx, hrx, -⟩
    · have := hrr r' hr'
      subst this
      refine hag _ (fun i h _ hi => ?_)
      obtain ⟨v, hv⟩ := hret i h (by omega) hi
      dsimp only
      rw [hv]
      cases dir
      · exact congrArg _ (hx.2 _ _ _ hv).symm
      · exact congrArg _ (hx.2 _ _ _ hv).symm
    · match r, hrx with
      | .ok l, h => cases h

/-! ### A result exists -/

theorem tryRun_exists {e : Env V C ε} {be : BuildEnv V C ε} (hps : LawfulPartialSort be.ps) (hth : InI64 e.threads) (h1 : 1 ≤ e.threads)
    (hb : GoodThreads e.backend e.threads) (hsm : ∃ o, be.sampled o) {states : List (Option V)} (hne : states ≠ []) (hI : InI64 states.length) :
    ∀ k, ∃ r, TryRun e be states k r
  | 0 => ⟨_, .gaveUp⟩
  | k + 1 => by
    obtain ⟨r, hr⟩ := tryRun_exists hps hth h1 hb hsm hne hI k
    obtain ⟨o, ho⟩ := hsm
    match o, ho with
    | .error x, ho => exact ⟨_, .sampleRaises ho⟩
    | .ok q, ho =>
      cases hv : be.stateValid q with
      | error x => exact ⟨_, .validRaises ho hv⟩
      | ok c =>
        cases c with
        | false => exact ⟨_, .invalid ho hv hr⟩
        | true =>
          cases hd : e.addDuplicates with
          | true => exact ⟨_, .anyValid ho hv hd⟩
          | false =>
            have : Nonempty C := ⟨0⟩
            obtain ⟨rk, hk⟩ := CRU.Knn.Throw.C107_knn_runs_exist be.ps e.backend e.threads states (stateDist e.dist q) 0 states.length 1 hI hth h1
              (by simpa using hb.2 states.length)
            rcases fresh_query hps hth h1 hb hne hI q hk with ⟨x, s, rfl, -⟩ | ⟨n, l, rfl, -⟩
            · exact ⟨_, .distRaises ho hv hd hk⟩
            · by_cases hn : n.dist > 0
              · exact ⟨_, .fresh ho hv hd hk hn⟩
              · exact ⟨_, .duplicate ho hv hd hk hn hr⟩

theorem staticIndexLoop_exists (b : Backend) {threads : Int} {n : Nat} (hth : InI64 threads) (hn : InI64 n) :
    ∃ ws, staticIndexLoop b threads 0 n = .ok ws := by
  obtain ⟨order, ws, tr, h, -⟩ := IndexRun.exists b threads 0 n (by unfold InI64; omega) hn hth (by simpa using hn) (by omega)
  exact ⟨ws, h⟩

/-- C119: construction ends, whatever the functions throw: it has a result. (That each run ends is part of C41, C107 and C108: there are no loops but
those over tries, nodes and neighbours.) -/
theorem C119_ends (e : Env V C ε) (be : BuildEnv V C ε) (hs : e.knn.Sound e.dist) (hps : LawfulPartialSort be.ps) (hth : InI64 e.threads)
    (h1 : 1 ≤ e.threads) (hb : GoodThreads e.backend e.threads) (size : Int) (hsize : InI64 size) (hK1 : InI64 (e.K + 1))
    (hsm : ∃ o, be.sampled o) (hk : ∀ size get state K dir maxNode, ∃ r, e.knn size get state K dir maxNode r) : ∃ r, BuildRun e be size r := by
  by_cases hbad : size < 0 ∨ e.K < 1 ∨ be.maxTries < 1
  · exact ⟨_, .badArguments hbad⟩
  have hok : 0 ≤ size ∧ 1 ≤ e.K ∧ 1 ≤ be.maxTries := by omega
  have hN : InI64 (size.toNat : Nat) := by rw [Int.toNat_of_nonneg hok.1]; exact hsize
  have hst : InI64 (samplingThreads e be) := by
    unfold samplingThreads
    split
    · exact hth
    · unfold InI64; omega
  obtain ⟨ws, hw⟩ := staticIndexLoop_exists e.backend hst hN
  have hidx := index_calls hst hN hw
  have hinv : SampleInv be size.toNat (List.replicate size.toNat (none : Option V)) := ⟨by simp, fun s hm => by simp at hm⟩
  rw [Int.toNat_of_nonneg hok.1] at hw
  have hkeep : ∀ c s s1 o, (0 ≤ Call.index c ∧ (Call.index c).toNat < size.toNat) → SampleInv be size.toNat s →
      SampleBody e be c s (.ok (s1, o)) → SampleInv be size.toNat s1 := by
    intro c s s1 o hc hsi hb1
    rcases sampleBody_spec hps hth h1 hb hN hc hsi hb1 with ⟨x, he, -⟩ | ⟨o, he, hi, -⟩
    · cases he; exact hsi
    · cases he; exact hi
  obtain ⟨r, hr⟩ := loopRun_exists hkeep (by
    intro c s hc hsi
    have hne : s ≠ [] := by rintro rfl; have := hsi.1; simp at this; omega
    obtain ⟨r, hr⟩ := tryRun_exists hps hth h1 hb hsm hne (by rw [hsi.1]; exact hN) be.maxTries.toNat
    match r, hr with
    | .ok (.ok o), hr => exact ⟨_, .stored hr ⟨hc.1, by rw [hsi.1]; exact hc.2⟩⟩
    | .ok (.error x), hr => exact ⟨_, .raises hr⟩
    | .throw x, hr => exact ⟨_, .throws hr⟩
    | .ub, hr => exact ⟨_, .ub hr⟩) e.backend.isOmp ws hidx [] _ hinv
  by_cases hret : ∃ s, r = .ok (.ok s)
  swap
  · exact ⟨_, .samplingEnds hok hw hr fun s h => hret ⟨s, h⟩⟩
  obtain ⟨states, rfl⟩ := hret
  have hinv2 : SampleInv be size.toNat states := by
    rcases loopRun_spec (Bad := fun _ : ε => True) (by
        intro c s r hc hsi hb1
        rcases sampleBody_spec hps hth h1 hb hN hc hsi hb1 with ⟨x, he, -⟩ | ⟨o, he, hi, -⟩
        · exact ⟨s, some x, he, hsi, fun _ _ => trivial⟩
        · exact ⟨_, none, he, hi, fun _ _ => trivial⟩) hr hidx hinv (by simp) with ⟨x, h, -⟩ | ⟨s', h, hi, -⟩
    · cases h
    · cases h; exact hi
  by_cases hfull : ∀ o ∈ states, o ≠ none
  swap
  · have hp : ∀ (l : List (Option V)) (g : Graph V C), (¬ ∀ o ∈ l, o ≠ none) → populate l g = .throw .runtimeError := by
      intro l
      induction l with
      | nil => intro g h; simp at h
      | cons o l ih =>
        intro g h
        cases o with
        | none => rfl
        | some s =>
          unfold populate
          exact ih _ fun hl => h fun o ho => by
            rcases List.mem_cons.mp ho with rfl | ho
            · simp
            · exact hl o ho
    exact ⟨_, .samplingFails hok hw hr (hp states [] hfull)⟩
  obtain ⟨vals, rfl⟩ : ∃ vals : List V, states = vals.map some := by
    clear hr hinv2
    induction states with
    | nil => exact ⟨[], rfl⟩
    | cons o l ih =>
      obtain ⟨vals, rfl⟩ := ih fun o ho => hfull o (by simp [ho])
      cases o with
      | none => exact absurd rfl (hfull none (by simp))
      | some s => exact ⟨s :: vals, rfl⟩
  have hp := populate_some (C := C) vals []
  rw [List.nil_append] at hp
  generalize hg0 : (vals.map fun s => (⟨s, [], []⟩ : Node V C)) = g0 at hp
  have hh0 : Holds g0 vals := by rw [← hg0]; unfold Holds; simp [Function.comp_def]
  have hvl : vals.length = size.toNat := by have := hinv2.1; simpa using this
  have hvI : InI64 vals.length := by rw [hvl]; exact hN
  obtain ⟨ws2, hw2⟩ := staticIndexLoop_exists e.backend hth hvI
  have hi2 := index_calls hth hvI hw2
  rw [← hh0.length] at hw2
  obtain ⟨r, hr2⟩ := loopRun_exists (body := ConnectBody e) (Inv := fun g => Holds g vals) (by
    intro c s s1 o hc hsi hb1
    obtain ⟨g', o', he, hg', -⟩ := connectBody_spec hs (by omega) hK1 hvI hc hsi hb1
    cases he
    exact hg') (by
    intro c s hc hsi
    unfold ConnectBody
    cases getNode s c.index with
    | throw x => exact ⟨_, rfl⟩
    | ub => exact ⟨_, rfl⟩
    | ok n =>
      cases chk64 (e.K + 1) with
      | throw x => exact ⟨_, rfl⟩
      | ub => exact ⟨_, rfl⟩
      | ok K1 =>
        obtain ⟨r0, hr0⟩ := hk s.length (getNode s) n.value K1 .roadmapToNew s.length
        exact ⟨_, _, ⟨r0, hr0, rfl⟩, rfl⟩) e.backend.isOmp ws2 hi2 [] g0 hh0
  by_cases hret : ∃ g', r = .ok (.ok g')
  · obtain ⟨g', rfl⟩ := hret
    exact ⟨_, .connected hok hw hr hp hw2 hr2⟩
  · exact ⟨_, .connectingEnds hok hw hr hp hw2 hr2 fun s h => hret ⟨s, h⟩⟩

/-! ### Concrete runs -/

namespace BuildDemo

/-- As `QueryDemo.env`, with duplicates. The distance function throws for the state 9, the check for edges that touch 5. -/
def env : Env Int (WithTop Int) String := { QueryDemo.env with addDuplicates := true }

/-- A sampler that returns or throws anything in `P`; the check throws for the state 3. -/
def sampler (P : Except String Int → Prop) : BuildEnv Int (WithTop Int) String where
  sampled := P
  stateValid q := if q = 3 then .error "collision" else .ok true
  maxTries := 2
  parallelSampling := true
  ps := psSort

theorem threads : GoodThreads env.backend env.threads := ⟨⟨fun _ h => h, fun _ _ _ _ h => h⟩, fun _ _ h => h⟩

/-- Runs exist, with and without duplicates. -/
example (P : Except String Int → Prop) (h : ∃ o, P o) (d : Bool) : ∃ r, BuildRun { env with addDuplicates := d } (sampler P) 4 r :=
  C119_ends { env with addDuplicates := d } (sampler P) QueryDemo.env_sound psSort_lawful (show InI64 1 by decide) (show (1 : Int) ≤ 1 by omega) threads
    4 (by decide) (show InI64 (2 + 1) by decide) h QueryDemo.env_total

/-- The sampler throws. -/
example : BuildRun env (sampler fun o => o = .error "sampler") 1 (.ok (.error "sampler")) :=
  .samplingEnds (ws := [[⟨0, 0⟩]]) (r := .ok (.error "sampler")) (by decide) rfl
    (.raises (i := 0) (x := "sampler") rfl (.raises (.sampleRaises rfl)) (.done (by simp))) (by simp)

/-- The state check throws, at the second state. -/
example : BuildRun env (sampler fun o => o = .ok 0 ∨ o = .ok 3) 2 (.ok (.error "collision")) :=
  .samplingEnds (ws := [[⟨0, 0⟩, ⟨0, 1⟩]]) (r := .ok (.error "collision")) (by decide) rfl
    (.next (i := 0) rfl (.stored (o := some 0) (.anyValid (.inl rfl) rfl rfl) (by decide))
      (.raises (i := 0) (x := "collision") rfl (.raises (.validRaises (.inr rfl) rfl)) (.done (by simp)))) (by simp)

theorem query_fives : KnnQuery env.knn 2 (getNode [(⟨5, [], []⟩ : Node Int (WithTop Int)), ⟨5, [], []⟩]) 5 3 .roadmapToNew 2
    (.ok (.ok [⟨0, ((0 : Int) : WithTop Int)⟩, ⟨1, ((0 : Int) : WithTop Int)⟩])) := by
  refine ⟨.ok (.ok [⟨0, ((0 : Int) : WithTop Int)⟩, ⟨1, ((0 : Int) : WithTop Int)⟩]), ?_, rfl⟩
  show CRU.Knn.Throw.KnnRun psSort .async 1 [(⟨5, [], []⟩ : Node Int (WithTop Int)), ⟨5, [], []⟩] _ 0 2 3 _
  unfold CRU.Knn.Throw.KnnRun
  rw [if_neg (by omega)]
  rfl

/-- The check of an edge throws. -/
example : BuildRun env (sampler fun o => o = .ok 5) 2 (.ok (.error "checker")) := by
  have hw : staticIndexLoop .async 1 0 2 = .ok [[⟨0, 0⟩, ⟨0, 1⟩]] := rfl
  refine .connectingEnds (ws := [[⟨0, 0⟩, ⟨0, 1⟩]]) (ws2 := [[⟨0, 0⟩, ⟨0, 1⟩]]) (states := [some 5, some 5]) (g := [⟨5, [], []⟩, ⟨5, [], []⟩])
    (r := .ok (.error "checker")) (by decide) hw ?_ rfl hw ?_ (by simp)
  · exact .next (i := 0) rfl (.stored (o := some 5) (.anyValid rfl rfl rfl) (by decide))
      (.next (i := 0) rfl (.stored (o := some 5) (.anyValid rfl rfl rfl) (by decide)) (.done (by simp)))
  · exact .raises (i := 0) (x := "checker") rfl ⟨_, query_fives, rfl⟩ (.done (by simp))

/-- Sampling 0 and 7 only, nothing throws: there is a roadmap. -/
example : ∃ g, BuildRun env (sampler fun o => o = .ok 0 ∨ o = .ok 7) 2 (.ok (.ok g)) ∧ (g.length : Int) = 2 := by
  have hth : InI64 env.threads := show InI64 1 by decide
  have h1 : 1 ≤ env.threads := show (1 : Int) ≤ 1 by omega
  have hK1 : InI64 (env.K + 1) := show InI64 (2 + 1) by decide
  have hus : ∀ q, Usable (sampler fun o => o = .ok 0 ∨ o = .ok 7) q → q = 0 ∨ q = 7 := by
    rintro q ⟨h | h, -⟩
    · cases h; exact .inl rfl
    · cases h; exact .inr rfl
  have hdist : ∀ a b : Int, a = 0 ∨ a = 7 → b = 0 ∨ b = 7 → ∀ x, env.dist a b ≠ .error x := by
    rintro a b ha hb x h
    have h : QueryDemo.dist a b = .error x := h
    unfold QueryDemo.dist at h
    rw [if_neg (by omega)] at h
    cases h
  have hvalid : ∀ a b : Int, a = 0 ∨ a = 7 → b = 0 ∨ b = 7 → ∀ x, env.valid a b ≠ .error x := by
    rintro a b ha hb x h
    have h : (if a = 5 ∨ b = 5 then Except.error "checker" else .ok true : Except String Bool) = .error x := h
    rw [if_neg (by omega)] at h
    cases h
  obtain ⟨r, hr⟩ := C119_ends env (sampler fun o => o = .ok 0 ∨ o = .ok 7) QueryDemo.env_sound psSort_lawful hth h1 threads 2 (by decide) hK1
    ⟨.ok 0, .inl rfl⟩ QueryDemo.env_total
  rcases C119_build env _ QueryDemo.env_sound psSort_lawful hth h1 threads 2 (by decide) hK1 r hr with ⟨x, -, hx⟩ | ⟨r', hr', hrun⟩
  · exfalso
    rcases hx with (h | h) | ⟨q, h | h, hv⟩ | ⟨h, -⟩ | ⟨g, i, n, hlen, hg, hn, h⟩
    · cases h
    · cases h
    · cases h; cases hv
    · cases h; cases hv
    · cases h
    · have hnv := hus _ (hg n (List.mem_of_getElem? hn))
      rcases h with h | ⟨l, -, nb, -, b, -, ⟨k, m, -, hm, rfl⟩, hc⟩
      · obtain ⟨j, m, -, hm, hd⟩ := (C108_linear_provider psSort psSort_lawful .async 1 (by decide) (by decide) (fun _ _ h => h) (fun _ _ _ _ h => h)
          QueryDemo.dist).2 g g.length (getNode g) n.value (env.K + 1) .roadmapToNew g.length x (access_self g) (by rw [hlen]; decide) (by decide)
          (by omega) le_rfl h
        exact hdist _ _ (hus _ (hg m (List.mem_of_getElem? hm))) hnv x hd
      · have hmv := hus _ (hg m (List.mem_of_getElem? hm))
        rcases hc with h | ⟨c, -, -, h | ⟨-, h⟩⟩
        · exact hvalid _ _ hmv hnv x h
        · exact hvalid _ _ hnv hmv x h
        · exact hdist _ _ hnv hmv x h
  · have hx := extends_t env
    obtain ⟨g, rfl, hg⟩ := C41_build_succeeds _ _ (C119_linear_provider psSort psSort_lawful .async 1 (by decide) (by decide) (fun _ _ h => h)
      (fun _ _ _ _ h => h) env rfl _ _ hx) psSort_lawful hth threads.1 2 (by decide) hK1 (by
        intro hs a b
        obtain ⟨k1, k2⟩ := QueryDemo.env_sym hs a b
        have k1 : env.valid a b = env.valid b a := k1
        have k2 : env.dist a b = env.dist b a := k2
        show tvalid env a b = tvalid env b a ∧ tdist env a b = tdist env b a
        unfold tvalid tdist
        rw [k1, k2]
        exact ⟨rfl, rfl⟩) (by omega) (by decide) (by decide) rfl (fun _ _ => rfl) r'
      (hrun (fun _ => true) _ _ (fun q c h => by
        have h : (if q = 3 then Except.error "collision" else .ok true : Except String Bool) = .ok c := h
        split at h
        · cases h
        · cases h; rfl) hx)
    subst hr'
    exact ⟨g, hr, hg⟩

end BuildDemo

end CRU.Prm.Throw
