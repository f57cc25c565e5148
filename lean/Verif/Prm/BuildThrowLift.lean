import Verif.Prm.BuildThrowProps
/-
  C119, `BuildRoadMap` with functions that may throw, the other direction: with functions that always return it has every result of C41.
-/
namespace CRU.Parallel

variable {κ S ε : Type}

/-- A loop whose bodies do not throw, in an order that the threads allow. -/
theorem steps_loop {omp : Bool} {body : κ → S → Res (S × Option ε) → Prop} {ws : List (List κ)} {tr : List κ} (hi : Interleaving ws tr) :
    ∀ {s s' : S}, Steps body tr s s' → LoopRun omp body ws [] s (.ok (.ok s')) := by
  induction hi with
  | done h =>
    intro s s' hst
    cases hst
    have : rethrown omp ([] : List (Nat × ε)) = none := by unfold rethrown; cases omp <;> rfl
    have hd := LoopRun.done (omp := omp) (body := body) (held := []) (s := s) h
    rw [this] at hd
    exact hd
  | step i x t tr h _ ih =>
    intro s s' hst
    cases hst with
    | cons hb hr => exact .next h hb (ih hr)

end CRU.Parallel

namespace CRU.Prm.Throw
open CRU.Graph CRU.Knn CRU.Parallel CRU.GraphSearch CRU.Distances.Throw
set_option linter.unusedSectionVars false

variable {V C ε : Type} [LinearOrder C] [Zero C] [OrderTop C]

/-- The nearest item may not be unique, its distance is. -/
theorem nearest_dist {d : Int → C} {N : Nat} {n m : Entry C} (hn : IsKNearest d 0 N 1 [n]) (hm : IsKNearest d 0 N 1 [m]) : n.dist = m.dist := by
  have h1 := hn.trueDist n (by simp)
  have h2 := hm.trueDist m (by simp)
  by_cases h : n.index = m.index
  · rw [h1, h2, h]
  · have i1 := hn.inRange n (by simp)
    have i2 := hm.inRange m (by simp)
    have a := hn.nearest n (by simp) m.index i2.1 i2.2 (by simpa using fun h' => h h'.symm)
    have b := hm.nearest m (by simp) n.index i1.1 i1.2 (by simpa using h)
    rw [← h2] at a
    rw [← h1] at b
    exact le_antisymm a b

section
variable {e : Env V C ε} {be : BuildEnv V C ε} {sv : V → Bool} {valid : V → V → Bool} {dist : V → V → C}

theorem tryRun_lift (hsv : ∀ q, be.stateValid q = .ok (sv q)) (hv : ∀ a b, e.valid a b = .ok (valid a b)) (hd : ∀ a b, e.dist a b = .ok (dist a b))
    (hps : LawfulPartialSort be.ps) (hth : InI64 e.threads) (h1 : 1 ≤ e.threads)
    (hb : GoodThreads e.backend e.threads) {states : List (Option V)} (hne : states ≠ []) (hI : InI64 states.length) {k : Nat} {r : Res (Option V)}
    (h : Prm.TryRun (e.total valid dist) (be.total sv) states k r) : ∃ o, r = .ok o ∧ TryRun e be states k (.ok (.ok o)) := by
  have hx : Extends e valid dist := ⟨fun a b c h => by rw [hv] at h; cases h; rfl, fun a b c h => by rw [hd] at h; cases h; rfl⟩
  have hpos : 0 < states.length := List.length_pos_iff.mpr hne
  have hq : ∀ (q : V) (r : Res (List (Entry C))),
      CRU.Knn.KnnRun be.ps e.backend e.threads states (Prm.stateDist dist q) 0 states.length 1 r →
      ∃ n, r = .ok [n] ∧ IsKNearest (fun j : Int => Prm.stateDist dist q ((states[j.toNat]?).getD none)) 0 states.length 1 [n] := by
    intro q r hr
    obtain ⟨l, e1, e2⟩ := knnRun_nearest hps hth hb.1 states (Prm.stateDist dist q)
      (fun j : Int => Prm.stateDist dist q ((states[j.toNat]?).getD none)) (by
        intro i h
        rw [Int.toNat_natCast, List.getElem?_eq_getElem h]
        rfl) 1 (by omega) hI hr
    have hlen := e2.length
    have hl1 : l.length = 1 := by simp only [Int.toNat_one] at hlen; omega
    obtain ⟨n, rfl⟩ := List.length_eq_one_iff.mp hl1
    exact ⟨n, e1, by simpa using e2⟩
  have hknn : ∀ (q : V) (n : Entry C) (l : List (Entry C)),
      CRU.Knn.KnnRun be.ps e.backend e.threads states (Prm.stateDist dist q) 0 states.length 1 (.ok (n :: l)) →
      ∃ n' l', n'.dist = n.dist ∧
        CRU.Knn.Throw.KnnRun be.ps e.backend e.threads states (stateDist e.dist q) 0 states.length 1 (.ok (.ok (n' :: l'))) := by
    intro q n l hk
    have : Nonempty C := ⟨0⟩
    obtain ⟨rk, hrk⟩ := CRU.Knn.Throw.C107_knn_runs_exist be.ps e.backend e.threads states (stateDist e.dist q) 0 states.length 1 hI hth h1
      (by simpa using hb.2 states.length)
    rcases fresh_query hps hth h1 hb hne hI q hrk with ⟨x, s, -, -, hds⟩ | ⟨n', l', rfl, hall⟩
    · rw [hd] at hds; cases hds
    · obtain ⟨m, a1, a2⟩ := hq q _ hk
      obtain ⟨m', b1, b2⟩ := hq q _ (hall valid dist hx)
      cases a1; cases b1
      exact ⟨n', [], nearest_dist b2 a2, hrk⟩
  induction h with
  | gaveUp => exact ⟨none, rfl, .gaveUp⟩
  | @invalid k q r hs hvd _ ih =>
    obtain ⟨o, rfl, h⟩ := ih
    exact ⟨o, rfl, .invalid hs (by rw [hsv]; exact congrArg _ hvd) h⟩
  | @anyValid k q hs hvd ha => exact ⟨_, rfl, .anyValid hs (by rw [hsv]; exact congrArg _ hvd) ha⟩
  | @fresh k q n l hs hvd ha hk hn =>
    obtain ⟨n', l', hnn, hk'⟩ := hknn q n l hk
    exact ⟨_, rfl, .fresh hs (by rw [hsv]; exact congrArg _ hvd) ha hk' (by rw [hnn]; exact hn)⟩
  | @duplicate k q n l r hs hvd ha hk hn _ ih =>
    obtain ⟨n', l', hnn, hk'⟩ := hknn q n l hk
    obtain ⟨o, rfl, h⟩ := ih
    exact ⟨o, rfl, .duplicate hs (by rw [hsv]; exact congrArg _ hvd) ha hk' (by rw [hnn]; exact hn) h⟩
  | @none k q hs hvd ha hk => obtain ⟨n, h, -⟩ := hq q _ hk; cases h
  | @throws k q ex hs hvd ha hk => obtain ⟨n, h, -⟩ := hq q _ hk; cases h
  | @ub k q hs hvd ha hk => obtain ⟨n, h, -⟩ := hq q _ hk; cases h

theorem sampleRun_lift (hsv : ∀ q, be.stateValid q = .ok (sv q)) (hv : ∀ a b, e.valid a b = .ok (valid a b))
    (hd : ∀ a b, e.dist a b = .ok (dist a b)) (hps : LawfulPartialSort be.ps) (hth : InI64 e.threads) (h1 : 1 ≤ e.threads)
    (hb : GoodThreads e.backend e.threads) {N : Nat} (hN : InI64 N) : ∀ (tr : List Call) (states : List (Option V)) (r : Res (List (Option V))),
    (∀ c ∈ tr, 0 ≤ c.index ∧ c.index.toNat < N) → states.length = N →
    Prm.SampleRun (e.total valid dist) (be.total sv) (tr.map (·.index)) states r →
    ∃ s', r = .ok s' ∧ Steps (SampleBody e be) tr states s'
  | [], states, r, _, _, h => by cases h; exact ⟨states, rfl, .nil⟩
  | c :: tr, states, r, hc, hl, h => by
    have hci := hc c (by simp)
    have hne : states ≠ [] := by rintro rfl; simp at hl; omega
    have key := fun r h => tryRun_lift hsv hv hd hps hth h1 hb hne (by rw [hl]; exact hN) (k := be.maxTries.toNat) (r := r) h
    cases h with
    | next ht hi hr =>
      obtain ⟨o, he, ht'⟩ := key _ ht
      cases he
      obtain ⟨s', rfl, hst⟩ := sampleRun_lift hsv hv hd hps hth h1 hb hN tr _ _ (fun d hd => hc d (by simp [hd])) (by simpa using hl) hr
      exact ⟨s', rfl, .cons (.stored ht' hi) hst⟩
    | outOfRange ht hi => exact absurd ⟨hci.1, by rw [hl]; exact hci.2⟩ hi
    | throws ht => obtain ⟨o, he, -⟩ := key _ ht; cases he
    | ub ht => obtain ⟨o, he, -⟩ := key _ ht; cases he

theorem connectOne_lift (hv : ∀ a b, e.valid a b = .ok (valid a b)) (hd : ∀ a b, e.dist a b = .ok (dist a b)) (i : Int) (state : V)
    (nb : Entry C) (g : Graph V C) :
    connectOne e i state nb g = (Prm.connectOne (e.total valid dist) i state nb g >>= fun g' => .ok (g', none)) := by
  unfold connectOne Prm.connectOne
  by_cases hne : nb.index ≠ i
  · rw [if_pos hne, if_pos hne]
    cases hg : getNode g nb.index with
    | throw x => rfl
    | ub => rfl
    | ok other =>
      simp only [Res.ok_bind, hv, hd]
      rw [show (e.total valid dist).symmetric = e.symmetric from rfl, show (e.total valid dist).valid = valid from rfl,
        show (e.total valid dist).dist = dist from rfl]
      by_cases hs : (e.symmetric && valid other.value state) = true
      · rw [if_pos hs, if_pos hs]; rfl
      · rw [if_neg hs, if_neg hs]
        cases valid state other.value <;> rfl
  · rw [if_neg hne, if_neg hne]; rfl

theorem connectList_lift (hv : ∀ a b, e.valid a b = .ok (valid a b)) (hd : ∀ a b, e.dist a b = .ok (dist a b)) (i : Int) (state : V) :
    ∀ (l : List (Entry C)) (g : Graph V C),
    connectList e i state l g = (forEach (Prm.connectOne (e.total valid dist) i state) l g >>= fun g' => .ok (g', none))
  | [], g => rfl
  | nb :: l, g => by
    unfold connectList forEach
    rw [connectOne_lift hv hd]
    cases hg : Prm.connectOne (e.total valid dist) i state nb g with
    | throw x => rfl
    | ub => rfl
    | ok g' =>
      simp only [Res.ok_bind]
      exact connectList_lift hv hd i state l g'

theorem connectRun_lift (hv : ∀ a b, e.valid a b = .ok (valid a b)) (hd : ∀ a b, e.dist a b = .ok (dist a b)) {c : Call} {g : Graph V C}
    {r : Res (Graph V C)} (h : Prm.ConnectRun (e.total valid dist) c.index g r) : ConnectBody e c g (r >>= fun g' => .ok (g', none)) := by
  unfold Prm.ConnectRun at h
  unfold ConnectBody
  rw [show (e.total valid dist).K + 1 = e.K + 1 from rfl] at h
  cases hn : getNode g c.index with
  | throw x => rw [hn] at h; dsimp only at h ⊢; rw [h]; rfl
  | ub => rw [hn] at h; dsimp only at h ⊢; rw [h]; rfl
  | ok n =>
    cases hK : chk64 (e.K + 1) with
    | throw x => rw [hn, hK] at h; dsimp only at h ⊢; rw [h]; rfl
    | ub => rw [hn, hK] at h; dsimp only at h ⊢; rw [h]; rfl
    | ok K1 =>
      rw [hn, hK] at h
      dsimp only at h ⊢
      obtain ⟨rk, ⟨r0, hk, rfl⟩, rfl⟩ := h
      refine ⟨_, ⟨_, hk, rfl⟩, ?_⟩
      cases r0 with
      | throw x => rfl
      | ub => rfl
      | ok l =>
        simp only [Res.ok_bind]
        cases hs : sanityCheck l g.length g.length with
        | throw x => rfl
        | ub => rfl
        | ok u => exact (connectList_lift hv hd c.index n.value l g).symm

theorem connectAll_lift (hs : e.knn.Sound e.dist) (hK : 0 ≤ e.K) (hK1 : InI64 (e.K + 1)) (hv : ∀ a b, e.valid a b = .ok (valid a b))
    (hd : ∀ a b, e.dist a b = .ok (dist a b)) {vals : List V} (hI : InI64 vals.length) : ∀ (tr : List Call) (g : Graph V C) (r : Res (Graph V C)),
    (∀ c ∈ tr, 0 ≤ c.index ∧ c.index.toNat < vals.length) → Holds g vals →
    Prm.ConnectAllRun (e.total valid dist) (tr.map (·.index)) g r → ∃ g', r = .ok g' ∧ Steps (ConnectBody e) tr g g'
  | [], g, r, _, _, h => by cases h; exact ⟨g, rfl, .nil⟩
  | c :: tr, g, r, hc, hg, h => by
    have key := fun r h => connectRun_lift (ε := ε) hv hd (c := c) (g := g) (r := r) h
    have spec := fun r h => connectBody_spec hs hK hK1 hI (hc c (by simp)) hg (r := r) h
    cases h with
    | @next _ _ _ g1 _ h1 hr =>
      obtain ⟨g', o, he, hg', -⟩ := spec _ (key _ h1)
      cases he
      obtain ⟨g2, rfl, hst⟩ := connectAll_lift hs hK hK1 hv hd hI tr _ _ (fun d hd => hc d (by simp [hd])) hg' hr
      exact ⟨g2, rfl, .cons (key _ h1) hst⟩
    | throws h1 => obtain ⟨g', o, he, -⟩ := spec _ (key _ h1); cases he
    | ub h1 => obtain ⟨g', o, he, -⟩ := spec _ (key _ h1); cases he

end

/-- C119: with functions that always return, the call can have every result that it has according to the model of C41 (and, by `C119_build`, no other
unless the sampler throws). -/
theorem C119_as_without (e : Env V C ε) (be : BuildEnv V C ε) (hs : e.knn.Sound e.dist) (hps : LawfulPartialSort be.ps) (hth : InI64 e.threads)
    (h1 : 1 ≤ e.threads) (hb : GoodThreads e.backend e.threads) (size : Int) (hsize : InI64 size) (hK1 : InI64 (e.K + 1))
    (sv : V → Bool) (hsv : ∀ q, be.stateValid q = .ok (sv q)) (valid : V → V → Bool) (hv : ∀ a b, e.valid a b = .ok (valid a b))
    (dist : V → V → C) (hd : ∀ a b, e.dist a b = .ok (dist a b)) (r : Res (Graph V C))
    (hr : Prm.BuildRun (e.total valid dist) (be.total sv) size r) : BuildRun e be size (r >>= fun g => .ok (.ok g)) := by
  have hst : InI64 (samplingThreads e be) := by
    unfold samplingThreads
    split
    · exact hth
    · unfold InI64; omega
  have hrep : (List.replicate size.toNat (none : Option V)).length = size.toNat := by simp
  have hN : 0 ≤ size → InI64 (size.toNat : Nat) := fun h => by rw [Int.toNat_of_nonneg h]; exact hsize
  have hsample : ∀ {order r}, 0 ≤ size → IndexRun e.backend (samplingThreads e be) 0 size order →
      Prm.SampleRun (e.total valid dist) (be.total sv) order (List.replicate size.toNat none) r →
      ∃ s' ws, r = .ok s' ∧ s'.length = size.toNat ∧ staticIndexLoop e.backend (samplingThreads e be) 0 size = .ok ws ∧
        LoopRun e.backend.isOmp (SampleBody e be) ws [] (List.replicate size.toNat none) (.ok (.ok s')) := by
    intro order r h0 ho hl
    obtain ⟨ws, tr, hw, htr, rfl⟩ := ho
    have hidx : ∀ c ∈ ws.flatten, 0 ≤ c.index ∧ c.index.toNat < size.toNat := by
      have hw' := hw
      rw [← Int.toNat_of_nonneg h0] at hw'
      exact index_calls hst (hN h0) hw'
    obtain ⟨s', rfl, hsteps⟩ := sampleRun_lift hsv hv hd hps hth h1 hb (hN h0) tr _ r (fun c hc => hidx c (htr.perm.subset hc)) hrep hl
    refine ⟨s', ws, rfl, ?_, hw, steps_loop htr hsteps⟩
    have : ∀ (tr : List Call) (s s2 : List (Option V)), Steps (SampleBody e be) tr s s2 → s2.length = s.length := by
      intro tr s s2 hh
      induction hh with
      | nil => rfl
      | cons hb1 _ ih => cases hb1; rw [ih]; simp
    rw [this tr _ _ hsteps, hrep]
  cases hr with
  | badArguments h => exact .badArguments h
  | samplingThrows h ho hl => obtain ⟨s', ws, he, -⟩ := hsample h.1 ho hl; cases he
  | samplingUb h ho hl => obtain ⟨s', ws, he, -⟩ := hsample h.1 ho hl; cases he
  | samplingFails h ho hl hp =>
    obtain ⟨s', ws, he, -, hw, hloop⟩ := hsample h.1 ho hl
    cases he
    exact .samplingFails h hw hloop hp
  | @connected order order2 states g rc h ho hl hp ho2 hc =>
    obtain ⟨s', ws, he, hlen, hw, hloop⟩ := hsample h.1 ho hl
    cases he
    obtain ⟨vals, rfl, hg0⟩ := populate_ok hp
    rw [List.nil_append] at hg0
    have hh0 : Holds g vals := by rw [hg0]; unfold Holds; simp [Function.comp_def]
    have hvl : vals.length = size.toNat := by simpa using hlen
    have hvI : InI64 vals.length := by rw [hvl]; exact hN h.1
    obtain ⟨ws2, tr, hw2, htr, rfl⟩ := ho2
    have hi2 : ∀ c ∈ ws2.flatten, 0 ≤ c.index ∧ c.index.toNat < vals.length := by
      have hw2' := hw2
      rw [hh0.length] at hw2'
      exact index_calls hth hvI hw2'
    obtain ⟨g', rfl, hsteps⟩ := connectAll_lift hs (by have := h.2.1; change 1 ≤ e.K at this; omega) hK1 hv hd hvI tr g rc
      (fun c hc => hi2 c (htr.perm.subset hc)) hh0 hc
    exact .connected h hw hloop hp hw2 (steps_loop htr hsteps)

namespace LiftDemo

def dist (a b : Int) : WithTop Int := ((|a - b| : Int) : WithTop Int)

/-- Functions that always return. -/
def env (dup : Bool) : Env Int (WithTop Int) String where
  knn := linearProvider psSort .async 1 fun a b => .ok (dist a b)
  dist a b := .ok (dist a b)
  valid _ _ := .ok true
  infeasible := ((-1 : Int) : WithTop Int)
  K := 2
  backend := .async
  threads := 1
  symmetric := true
  addDuplicates := dup

/-- The sampler returns 0, 1, 2 or 3. -/
def sampler : BuildEnv Int (WithTop Int) String where
  sampled o := ∃ q : Int, 0 ≤ q ∧ q ≤ 3 ∧ o = .ok q
  stateValid q := .ok (decide (q ≠ 2))
  maxTries := 5
  parallelSampling := true
  ps := psSort

/-- The hypotheses hold: such functions, with and without duplicates, have results in the model of C41, and these are results of the model with
exceptions. -/
example (dup : Bool) : ∃ r, Prm.BuildRun ((env dup).total (fun _ _ => true) dist) (sampler.total fun q => decide (q ≠ 2)) 3 r ∧
    BuildRun (env dup) sampler 3 (r >>= fun g => .ok (.ok g)) := by
  have hth : InI64 (env dup).threads := show InI64 1 by decide
  have h1 : 1 ≤ (env dup).threads := show (1 : Int) ≤ 1 by omega
  have hK1 : InI64 ((env dup).K + 1) := show InI64 (2 + 1) by decide
  have hthr : GoodThreads (env dup).backend (env dup).threads := ⟨⟨fun _ h => h, fun _ _ _ _ h => h⟩, fun _ _ h => h⟩
  have hlin := C108_linear_provider psSort psSort_lawful .async 1 (by decide) (by decide) (fun _ _ h => h) (fun _ _ _ _ h => h)
    (fun a b => (.ok (dist a b) : Except String (WithTop Int)))
  obtain ⟨r, hr⟩ := C119_ends (env dup) sampler hlin.1 psSort_lawful hth h1 hthr 3 (by decide) hK1 ⟨.ok 0, 0, by omega, by omega, rfl⟩ (by
    intro size get state K dir maxNode
    show ∃ r, linearProvider psSort .async 1 _ size get state K dir maxNode r
    unfold linearProvider
    split
    · unfold CRU.Knn.Throw.KnnRun
      exact ⟨_, by rw [if_neg (by decide : ¬ (1 : Int) > 1)]⟩
    · exact ⟨_, rfl⟩
    · exact ⟨_, rfl⟩)
  rcases C119_build (env dup) sampler hlin.1 psSort_lawful hth h1 hthr 3 (by decide) hK1 r hr with ⟨x, -, hx⟩ | ⟨r', -, hrun⟩
  · exfalso
    rcases hx with ⟨q, -, -, h⟩ | ⟨q, -, h⟩ | ⟨-, a, b, -, -, h⟩ | ⟨g, i, n, hlen, -, -, h | ⟨l, -, nb, -, b, -, -, hc⟩⟩
    · cases h
    · cases h
    · cases h
    · obtain ⟨j, m, -, -, hd⟩ := hlin.2 g g.length (getNode g) n.value _ .roadmapToNew g.length x (access_self g) (by rw [hlen]; decide)
        (show (0 : Int) ≤ 2 + 1 by omega) (by omega) le_rfl h
      cases hd
    · rcases hc with h | ⟨c, -, -, h | ⟨-, h⟩⟩ <;> cases h
  · have h := hrun (fun q => decide (q ≠ 2)) (fun _ _ => true) dist (fun q c h => by cases h; rfl)
      ⟨fun a b c h => by cases h; rfl, fun a b c h => by cases h; rfl⟩
    exact ⟨r', h, C119_as_without (env dup) sampler hlin.1 psSort_lawful hth h1 hthr 3 (by decide) hK1 _ (fun _ => rfl) _ (fun _ _ => rfl) _
      (fun _ _ => rfl) r' h⟩

end LiftDemo

end CRU.Prm.Throw
