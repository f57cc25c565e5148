import Verif.Rrt.BiMore
/-
  Which tree the bidirectional planner works on: the one selected last.
-/
namespace CRU.Rrt

variable {V σ : Type}

/-- `cur` of the environment is the tree that the last call of the selection function answered; the other functions do not
change it. (The user's functions may remember what was selected; for given functions one can always add such a memory.) -/
structure BiEnv.Tracks (e : BiEnv σ V) (cur : σ → Side) : Prop where
  selectSample : ∀ s a b x, cur (e.selectSample s a b x).2 = cur s
  stateSample : ∀ s, cur (e.stateSample s).2 = cur s
  treeSample : ∀ s t x, cur (e.treeSample s t x).2 = cur s
  nearest : ∀ s t v x, cur (e.nearest s t v x).2 = cur s
  propagate : ∀ s q v x, cur (e.propagate s q v x).2 = cur s
  stateAdded : ∀ f, e.stateAdded = some f → ∀ s t i x, cur (f s t i x).2 = cur s
  connected : ∀ s a b x, cur (e.connected s a b x).2 = cur s
  bridgeCallback : ∀ f, e.bridgeCallback = some f → ∀ s a i b j x, cur (f s a i b j x).2 = cur s
  selectActive : ∀ s a b x, cur (e.selectActive s a b x).2 = (e.selectActive s a b x).1
  terminate : ∀ s m n, cur (e.terminate s m n).2 = cur s

/-- Two optional functions are both absent or related. -/
def BothOr {A : Type} (R : A → A → Prop) : Option A → Option A → Prop
  | none, none => True
  | some f, some g => R f g
  | _, _ => False

/-- The functions of `e'` answer as those of `e` whenever they are told that the tree selected last is active; they may do
anything else when they are told that the other one is. -/
structure BiEnv.AgreeAt (e e' : BiEnv σ V) (cur : σ → Side) : Prop where
  selectSample : ∀ s a b, e'.selectSample s a b (cur s) = e.selectSample s a b (cur s)
  stateSample : ∀ s, e'.stateSample s = e.stateSample s
  treeSample : ∀ s t, e'.treeSample s t (cur s) = e.treeSample s t (cur s)
  nearest : ∀ s t v, e'.nearest s t v (cur s) = e.nearest s t v (cur s)
  propagate : ∀ s q v, e'.propagate s q v (cur s) = e.propagate s q v (cur s)
  stateAdded : BothOr (fun f g => ∀ s t i, g s t i (cur s) = f s t i (cur s)) e.stateAdded e'.stateAdded
  connected : ∀ s a b, e'.connected s a b (cur s) = e.connected s a b (cur s)
  bridgeCallback : BothOr (fun f g => ∀ s a i b j, g s a i b j (cur s) = f s a i b j (cur s)) e.bridgeCallback e'.bridgeCallback
  selectActive : ∀ s a b, e'.selectActive s a b (cur s) = e.selectActive s a b (cur s)
  terminate : ∀ s m n, e'.terminate s m n = e.terminate s m n

variable {e e' : BiEnv σ V} {cur : σ → Side}

theorem added_agree (ht : e.Tracks cur) (ha : e.AgreeAt e' cur) (s : σ) (t : Tree V) (i : Int) {x : Side} (hx : x = cur s) :
    callBiStateAdded e' s t i x = callBiStateAdded e s t i x ∧ cur (callBiStateAdded e s t i x).2 = cur s := by
  subst hx
  unfold callBiStateAdded
  have h := ha.stateAdded
  cases h1 : e.stateAdded with
  | none =>
    cases h2 : e'.stateAdded with
    | none => exact ⟨rfl, rfl⟩
    | some g => rw [h1, h2] at h; exact absurd h id
  | some f =>
    cases h2 : e'.stateAdded with
    | none => rw [h1, h2] at h; exact absurd h id
    | some g => rw [h1, h2] at h; exact ⟨h s t i, ht.stateAdded f h1 s t i _⟩

theorem callBridge_agree (ht : e.Tracks cur) (ha : e.AgreeAt e' cur) (s : BiSt σ V) (br : Int × Int) (hx : s.active = cur s.env) :
    callBridge e' s br = callBridge e s br ∧ (callBridge e s br).active = cur (callBridge e s br).env := by
  unfold callBridge
  have h := ha.bridgeCallback
  cases h1 : e.bridgeCallback with
  | none =>
    cases h2 : e'.bridgeCallback with
    | none => exact ⟨rfl, hx⟩
    | some g => rw [h1, h2] at h; exact absurd h id
  | some f =>
    cases h2 : e'.bridgeCallback with
    | none => rw [h1, h2] at h; exact absurd h id
    | some g =>
      rw [h1, h2] at h
      dsimp only
      rw [hx, h]
      exact ⟨rfl, (ht.bridgeCallback f h1 _ _ _ _ _ _).symm⟩

theorem initialBridges_agree (ht : e.Tracks cur) (ha : e.AgreeAt e' cur) (fuel : Nat) : ∀ (i j : Int) (s : BiSt σ V),
    s.active = cur s.env → initialBridges e' fuel i j s = initialBridges e fuel i j s ∧
      ∀ s1, initialBridges e fuel i j s = some (s1, none) → s1.active = cur s1.env := by
  induction fuel with
  | zero => exact fun i j s _ => ⟨rfl, fun s1 h => by cases h⟩
  | succ fuel ih =>
    intro i j s hx
    unfold initialBridges
    split
    · split
      · split
        · rename_i a b _ _
          have hc := ha.connected s.env a.value b.value
          rw [← hx] at hc
          rw [hc]
          have hk := ht.connected s.env a.value b.value s.active
          generalize e.connected s.env a.value b.value s.active = r at hk ⊢
          obtain ⟨c, s1⟩ := r
          dsimp only at hk
          cases c with
          | true =>
            dsimp only
            split
            · rename_i br _
              have h := ha.bridgeCallback
              cases h1 : e.bridgeCallback with
              | none =>
                cases h2 : e'.bridgeCallback with
                | none => exact ⟨rfl, fun s1 h => by simp at h⟩
                | some g => rw [h1, h2] at h; exact absurd h id
              | some f =>
                cases h2 : e'.bridgeCallback with
                | none => rw [h1, h2] at h; exact absurd h id
                | some g =>
                  rw [h1, h2] at h
                  dsimp only
                  have hs : s.active = cur s1 := hx.trans hk.symm
                  rw [hs, h, ← hs]
                  exact ih _ _ _ (by dsimp only; rw [hs]; exact (ht.bridgeCallback f h1 _ _ _ _ _ _).symm)
            · exact ⟨rfl, fun s1 h => by simp at h⟩
            · exact ⟨rfl, fun s1 h => by simp at h⟩
          | false => exact ih _ _ _ (by dsimp only; rw [hk]; exact hx)
        all_goals exact ⟨rfl, fun s1 h => by simp at h⟩
      · exact ih _ _ _ hx
    · refine ⟨rfl, fun s1 h => ?_⟩
      simp only [Option.some.injEq, Prod.mk.injEq, and_true] at h
      subst h; exact hx

theorem tryBridge_agree (ht : e.Tracks cur) (ha : e.AgreeAt e' cur) (ts : Bool) (ti : Int) (tv : V) (ni : Int) (s : BiSt σ V)
    (hx : s.active = cur s.env) : tryBridge e' ts ti tv ni s = tryBridge e ts ti tv ni s ∧
      (tryBridge e ts ti tv ni s).1.active = cur (tryBridge e ts ti tv ni s).1.env := by
  unfold tryBridge
  split
  · split
    · rename_i n _
      have hc := ha.connected s.env n.value tv
      rw [← hx] at hc
      rw [hc]
      have hk := ht.connected s.env n.value tv s.active
      generalize e.connected s.env n.value tv s.active = r at hk ⊢
      obtain ⟨c, s1⟩ := r
      dsimp only at hk
      cases c with
      | true =>
        dsimp only
        split
        · rename_i br _
          have := callBridge_agree ht ha { s with bridges := s.bridges ++ [br], env := s1 } br (by dsimp only; rw [hk]; exact hx)
          exact ⟨by rw [this.1], this.2⟩
        · exact ⟨rfl, by dsimp only; rw [hk]; exact hx⟩
        · exact ⟨rfl, by dsimp only; rw [hk]; exact hx⟩
      | false => exact ⟨rfl, by dsimp only; rw [hk]; exact hx⟩
    · exact ⟨rfl, hx⟩
    · exact ⟨rfl, hx⟩
  · exact ⟨rfl, hx⟩

theorem setTree_keeps (s : BiSt σ V) (x : Side) (t : Tree V) : (s.setTree x t).active = s.active ∧ (s.setTree x t).env = s.env := by
  cases x <;> exact ⟨rfl, rfl⟩

theorem addAllBi_agree (ht : e.Tracks cur) (ha : e.AgreeAt e' cur) (ts : Bool) (ti : Int) (tv : V) (nn : Int) (ps : Propagation V) :
    ∀ (mapping : List Int) (s : BiSt σ V), s.active = cur s.env →
      addAllBi e' ts ti tv nn ps mapping s = addAllBi e ts ti tv nn ps mapping s ∧
      (addAllBi e ts ti tv nn ps mapping s).1.active = cur (addAllBi e ts ti tv nn ps mapping s).1.env := by
  induction ps with
  | nil => exact fun _ s hx => ⟨rfl, hx⟩
  | cons p ps ih =>
    intro mapping s hx
    obtain ⟨v, rel⟩ := p
    unfold addAllBi
    split
    · rename_i t1 ni _
      obtain ⟨h1, h2⟩ := added_agree ht ha s.env t1 ni hx
      dsimp only
      rw [h1]
      obtain ⟨h3, h4⟩ := tryBridge_agree ht ha ts ti tv ni
        { s.setTree s.active (callBiStateAdded e s.env t1 ni s.active).1 with env := (callBiStateAdded e s.env t1 ni s.active).2 }
        (by dsimp only; rw [(setTree_keeps _ _ _).1, h2]; exact hx)
      rw [h3]
      generalize tryBridge e ts ti tv ni _ = r at h4 ⊢
      obtain ⟨s2, o⟩ := r
      cases o with
      | none => exact ih _ s2 h4
      | some x => exact ⟨rfl, h4⟩
    · exact ⟨rfl, by dsimp only; rw [(setTree_keeps _ _ _).1, (setTree_keeps _ _ _).2]; exact hx⟩
    · exact ⟨rfl, by dsimp only; rw [(setTree_keeps _ _ _).1, (setTree_keeps _ _ _).2]; exact hx⟩

theorem chooseTarget_agree (ht : e.Tracks cur) (ha : e.AgreeAt e' cur) (ts : Bool) (s : BiSt σ V) (hx : s.active = cur s.env) :
    chooseTarget e' ts s = chooseTarget e ts s ∧ ∀ i v s1, chooseTarget e ts s = .ok (i, v, s1) → cur s1 = cur s.env := by
  unfold chooseTarget
  split
  · have h := ha.treeSample s.env (s.tree s.active.other)
    rw [← hx] at h
    rw [h]
    have hk := ht.treeSample s.env (s.tree s.active.other) s.active
    dsimp only
    split
    · refine ⟨rfl, fun i v s1 h => ?_⟩
      simp only [Res.ok.injEq, Prod.mk.injEq] at h
      rw [← h.2.2]; exact hk
    · exact ⟨rfl, fun _ _ _ h => by cases h⟩
    · exact ⟨rfl, fun _ _ _ h => by cases h⟩
  · rw [ha.stateSample]
    refine ⟨rfl, fun i v s1 h => ?_⟩
    simp only [Res.ok.injEq, Prod.mk.injEq] at h
    rw [← h.2.2]; exact ht.stateSample _

theorem selectActive_agree (ht : e.Tracks cur) (ha : e.AgreeAt e' cur) (s : BiSt σ V) (hx : s.active = cur s.env) :
    selectActive e' s = selectActive e s ∧ (selectActive e s).active = cur (selectActive e s).env := by
  unfold selectActive
  dsimp only
  have h := ha.selectActive s.env s.start s.goal
  rw [← hx] at h
  rw [h]
  exact ⟨rfl, (ht.selectActive _ _ _ _).symm⟩

theorem biStep_agree (ht : e.Tracks cur) (ha : e.AgreeAt e' cur) (s : BiSt σ V) (hx : s.active = cur s.env) :
    biStep e' s = biStep e s ∧ ∀ s1, biStep e s = (s1, none) → s1.active = cur s1.env := by
  unfold biStep
  dsimp only
  have h := ha.selectSample s.env s.start s.goal
  rw [← hx] at h
  rw [h]
  have hk := ht.selectSample s.env s.start s.goal s.active
  generalize e.selectSample s.env s.start s.goal s.active = ty at hk ⊢
  obtain ⟨c1, c2⟩ := chooseTarget_agree ht ha ty.1 { s with stats := countActive s.active s.stats, env := ty.2 }
    (by dsimp only; rw [hk]; exact hx)
  rw [c1]
  split
  · rename_i ti tv env1 hct
    have hk1 : cur env1 = s.active := (c2 _ _ _ hct).trans (hk.trans hx.symm)
    have hn := fun t v => ha.nearest env1 t v
    rw [hk1] at hn
    have hkn := fun t v => (ht.nearest env1 t v s.active).trans hk1
    have htree : ∀ x, (⟨s.start, s.goal, s.bridges, s.active, countActive s.active s.stats, s.env⟩ : BiSt σ V).tree x = s.tree x := by
      intro x; cases x <;> rfl
    rw [hn]
    generalize hnn : e.nearest env1 _ tv s.active = nn
    have hknn : cur nn.2 = s.active := by rw [← hnn]; exact hkn _ _
    split
    · rename_i q _
      have hp := fun q v => ha.propagate nn.2 q v
      rw [hknn] at hp
      rw [hp]
      have hkp := (ht.propagate nn.2 q.value tv s.active).trans hknn
      generalize e.propagate nn.2 q.value tv s.active = pr at hkp ⊢
      obtain ⟨ps, env2⟩ := pr
      dsimp only at hkp ⊢
      split
      · obtain ⟨a1, a2⟩ := selectActive_agree ht ha
          { s with stats := { (countActive s.active s.stats) with total := (countActive s.active s.stats).total + 1, failed := (countActive s.active s.stats).failed + 1 }, env := env2 }
          (by dsimp only; exact hkp.symm)
        rw [a1]
        refine ⟨rfl, fun s1 h => ?_⟩
        simp only [Prod.mk.injEq, and_true] at h
        subst h; exact a2
      · rename_i p rest
        obtain ⟨a1, a2⟩ := addAllBi_agree ht ha ty.1 ti tv nn.1 (p :: rest) []
          { s with stats := { (countActive s.active s.stats) with total := (countActive s.active s.stats).total + 1, successful := (countActive s.active s.stats).successful + 1 }, env := env2 }
          (by dsimp only; exact hkp.symm)
        rw [a1]
        generalize addAllBi e ty.1 ti tv nn.1 (p :: rest) [] _ = r at a2 ⊢
        obtain ⟨s2, o⟩ := r
        cases o with
        | none =>
          obtain ⟨b1, b2⟩ := selectActive_agree ht ha s2 a2
          dsimp only
          rw [b1]
          refine ⟨rfl, fun s1 h => ?_⟩
          simp only [Prod.mk.injEq, and_true] at h
          subst h; exact b2
        | some x => exact ⟨rfl, fun s1 h => by simp at h⟩
    · exact ⟨rfl, fun s1 h => by simp at h⟩
    · exact ⟨rfl, fun s1 h => by simp at h⟩
  · exact ⟨rfl, fun s1 h => by simp at h⟩
  · exact ⟨rfl, fun s1 h => by simp at h⟩

theorem biLoop_agree (ht : e.Tracks cur) (ha : e.AgreeAt e' cur) (fuel : Nat) : ∀ s : BiSt σ V, s.active = cur s.env →
    biLoop e' fuel s = biLoop e fuel s := by
  induction fuel with
  | zero => exact fun _ _ => rfl
  | succ fuel ih =>
    intro s hx
    unfold biLoop
    rw [ha.terminate]
    have hk := ht.terminate s.env (s.start.length : Int) (s.goal.length : Int)
    generalize e.terminate s.env (s.start.length : Int) (s.goal.length : Int) = r at hk ⊢
    obtain ⟨c, s1⟩ := r
    cases c with
    | true => rfl
    | false =>
      dsimp only at hk ⊢
      obtain ⟨b1, b2⟩ := biStep_agree ht ha { s with env := s1 } (by dsimp only; rw [hk]; exact hx)
      rw [b1]
      generalize biStep e { s with env := s1 } = r at b2 ⊢
      obtain ⟨s2, o⟩ := r
      cases o with
      | none => exact ih s2 (b2 s2 rfl)
      | some x => rfl

/-- **C39** The tree that the planner works on, and names in every call, is the start tree until the selection function is first
asked and then always the one it answered last: functions that differ only when they are told the other tree is active lead to
the same run. -/
theorem C39_active_tree (ht : e.Tracks cur) (ha : e.AgreeAt e' cur) (fuel : Nat) (a b : Tree V) (s : σ) (hs : cur s = .start) :
    biRRTPlanMultiPath e' fuel a b s = biRRTPlanMultiPath e fuel a b s := by
  have hr : biRun e' fuel a b s = biRun e fuel a b s := by
    unfold biRun
    obtain ⟨h1, h2⟩ := initialBridges_agree ht ha fuel 0 0 { start := a, goal := b, env := s } hs.symm
    rw [h1]
    generalize initialBridges e fuel 0 0 { start := a, goal := b, env := s } = r at h2 ⊢
    split
    · exact biLoop_agree ht ha fuel _ (h2 _ rfl)
    · rfl
  unfold biRRTPlanMultiPath
  rw [hr]

/-- Functions on numbers that remember the tree selected last and switch trees every time. -/
def switchingEnv : BiEnv (Nat × Side) Nat where
  selectSample s _ _ _ := (true, s)
  stateSample s := (0, s)
  treeSample s _ _ := (0, s)
  nearest s t _ _ := ((t.length : Int) - 1, s)
  propagate s q _ x := match x with
    | .start => ([(q + 1, -1)], s)
    | .goal => ([(q - 1, -1)], s)
  stateAdded := none
  connected s a b _ := (a == b, s)
  bridgeCallback := some fun s a _ b _ _ => ((a, b), s)
  selectActive s _ _ x := (x.other, (s.1, x.other))
  terminate s _ _ := match s.1 with
    | 0 => (true, s)
    | n + 1 => (false, (n, s.2))

/-- The hypotheses are met, and the two trees grow in turn. -/
example : switchingEnv.Tracks (·.2) ∧
    (biRRTPlanMultiPath switchingEnv 50 [⟨0, -1, []⟩] [⟨6, -1, []⟩] (4, .start)).map
      (fun r => (r.1.1.map (·.value), r.1.2.1.map (·.value))) = some ([0, 1, 2], [6, 5, 4]) := by
  refine ⟨⟨fun _ _ _ _ => rfl, fun _ => rfl, fun _ _ _ => rfl, fun _ _ _ _ => rfl, fun s q v x => (by cases x <;> rfl),
    fun f h => (by cases h), fun _ _ _ _ => rfl, fun f h => (by cases h; intros; rfl), fun _ _ _ _ => rfl, fun s m n => ?_⟩, by rfl⟩
  obtain ⟨k, x⟩ := s
  cases k <;> rfl

/-! ### Statistics -/

/-- `cnt` of the environment grows by `w x` with every nearest-neighbour query for tree `x` and by `k` with every answer of the
selection function that names the other tree; nothing else changes it. -/
structure BiEnv.Weighs (e : BiEnv σ V) (w : Side → Nat) (k : Nat) (cnt : σ → Nat) : Prop where
  selectSample : ∀ s a b x, cnt (e.selectSample s a b x).2 = cnt s
  stateSample : ∀ s, cnt (e.stateSample s).2 = cnt s
  treeSample : ∀ s t x, cnt (e.treeSample s t x).2 = cnt s
  nearest : ∀ s t v x, cnt (e.nearest s t v x).2 = cnt s + w x
  propagate : ∀ s q v x, cnt (e.propagate s q v x).2 = cnt s
  stateAdded : ∀ f, e.stateAdded = some f → ∀ s t i x, cnt (f s t i x).2 = cnt s
  connected : ∀ s a b x, cnt (e.connected s a b x).2 = cnt s
  bridgeCallback : ∀ f, e.bridgeCallback = some f → ∀ s a i b j x, cnt (f s a i b j x).2 = cnt s
  selectActive : ∀ s a b x, cnt (e.selectActive s a b x).2 = cnt s + if (e.selectActive s a b x).1 ≠ x then k else 0
  terminate : ∀ s m n, cnt (e.terminate s m n).2 = cnt s

/-- What the counters of the statistics weigh. -/
def BiStats.weight (w : Side → Nat) (k : Nat) (st : BiStats) : Nat :=
  w .start * st.startActive + w .goal * st.goalActive + k * st.swaps

section
variable {w : Side → Nat} {k : Nat} {cnt : σ → Nat}

theorem callBridge_weighs (h : e.Weighs w k cnt) (s : BiSt σ V) (br : Int × Int) :
    cnt (callBridge e s br).env = cnt s.env ∧ (callBridge e s br).stats = s.stats := by
  unfold callBridge
  cases h1 : e.bridgeCallback with
  | none => exact ⟨rfl, rfl⟩
  | some f => exact ⟨h.bridgeCallback f h1 _ _ _ _ _ _, rfl⟩

theorem initialBridges_weighs (h : e.Weighs w k cnt) (fuel : Nat) : ∀ (i j : Int) (s s1 : BiSt σ V),
    initialBridges e fuel i j s = some (s1, none) → cnt s1.env = cnt s.env ∧ s1.stats = s.stats := by
  induction fuel with
  | zero => intro i j s s1 he; cases he
  | succ fuel ih =>
    intro i j s s1 he
    unfold initialBridges at he
    split at he
    · split at he
      · split at he
        · rename_i a b _ _
          have hk := h.connected s.env a.value b.value s.active
          generalize e.connected s.env a.value b.value s.active = r at hk he
          obtain ⟨c, s2⟩ := r
          dsimp only at hk
          cases c with
          | true =>
            dsimp only at he
            split at he
            · split at he
              · rename_i cb hcb
                obtain ⟨h1, h2⟩ := ih _ _ _ _ he
                exact ⟨h1.trans ((h.bridgeCallback cb hcb _ _ _ _ _ _).trans hk), h2⟩
              · simp at he
            · simp at he
            · simp at he
          | false =>
            obtain ⟨h1, h2⟩ := ih _ _ _ _ he
            exact ⟨h1.trans hk, h2⟩
        all_goals simp at he
      · exact ih _ _ _ _ he
    · simp only [Option.some.injEq, Prod.mk.injEq, and_true] at he
      subst he; exact ⟨rfl, rfl⟩

theorem tryBridge_weighs (h : e.Weighs w k cnt) (ts : Bool) (ti : Int) (tv : V) (ni : Int) (s : BiSt σ V) :
    cnt (tryBridge e ts ti tv ni s).1.env = cnt s.env ∧ (tryBridge e ts ti tv ni s).1.stats = s.stats := by
  unfold tryBridge
  split
  · split
    · rename_i n _
      have hk := h.connected s.env n.value tv s.active
      generalize e.connected s.env n.value tv s.active = r at hk ⊢
      obtain ⟨c, s1⟩ := r
      dsimp only at hk
      cases c with
      | true =>
        dsimp only
        split
        · rename_i br _
          obtain ⟨h1, h2⟩ := callBridge_weighs h { s with bridges := s.bridges ++ [br], env := s1 } br
          exact ⟨h1.trans hk, h2⟩
        · exact ⟨hk, rfl⟩
        · exact ⟨hk, rfl⟩
      | false => exact ⟨hk, rfl⟩
    · exact ⟨rfl, rfl⟩
    · exact ⟨rfl, rfl⟩
  · exact ⟨rfl, rfl⟩

theorem addAllBi_weighs (h : e.Weighs w k cnt) (ts : Bool) (ti : Int) (tv : V) (nn : Int) (ps : Propagation V) :
    ∀ (mapping : List Int) (s : BiSt σ V), cnt (addAllBi e ts ti tv nn ps mapping s).1.env = cnt s.env ∧
      (addAllBi e ts ti tv nn ps mapping s).1.stats = s.stats := by
  induction ps with
  | nil => exact fun _ s => ⟨rfl, rfl⟩
  | cons p ps ih =>
    intro mapping s
    obtain ⟨v, rel⟩ := p
    unfold addAllBi
    split
    · rename_i t1 ni _
      have h2 : cnt (callBiStateAdded e s.env t1 ni s.active).2 = cnt s.env := by
        unfold callBiStateAdded
        cases h1 : e.stateAdded with
        | none => rfl
        | some f => exact h.stateAdded f h1 _ _ _ _
      dsimp only
      obtain ⟨h3, h4⟩ := tryBridge_weighs h ts ti tv ni
        { s.setTree s.active (callBiStateAdded e s.env t1 ni s.active).1 with env := (callBiStateAdded e s.env t1 ni s.active).2 }
      have h4 := h4.trans (setTree_stats s s.active (callBiStateAdded e s.env t1 ni s.active).1)
      generalize tryBridge e ts ti tv ni _ = r at h3 h4 ⊢
      obtain ⟨s2, o⟩ := r
      cases o with
      | none =>
        obtain ⟨h5, h6⟩ := ih (mapping ++ [ni]) s2
        exact ⟨h5.trans (h3.trans h2), h6.trans h4⟩
      | some x => exact ⟨h3.trans h2, h4⟩
    · exact ⟨by dsimp only; rw [(setTree_keeps _ _ _).2], by dsimp only; rw [setTree_stats]⟩
    · exact ⟨by dsimp only; rw [(setTree_keeps _ _ _).2], by dsimp only; rw [setTree_stats]⟩

theorem selectActive_weighs (h : e.Weighs w k cnt) (s : BiSt σ V) :
    (selectActive e s).stats.weight w k + cnt s.env = s.stats.weight w k + cnt (selectActive e s).env := by
  unfold selectActive BiStats.weight
  dsimp only
  rw [h.selectActive]
  split
  · rw [Nat.mul_add]; omega
  · rw [Nat.add_zero]; omega

theorem weight_count (x : Side) (st : BiStats) : (countActive x st).weight w k = st.weight w k + w x := by
  cases x <;> (simp only [countActive, BiStats.weight, Nat.mul_add]; omega)

theorem biStep_weighs (h : e.Weighs w k cnt) (s s1 : BiSt σ V) (he : biStep e s = (s1, none)) :
    s1.stats.weight w k + cnt s.env = s.stats.weight w k + cnt s1.env := by
  unfold biStep at he
  dsimp only at he
  have hk := h.selectSample s.env s.start s.goal s.active
  generalize e.selectSample s.env s.start s.goal s.active = ty at hk he
  cases hct : chooseTarget e ty.1 { s with stats := countActive s.active s.stats, env := ty.2 } with
  | throw x => rw [hct] at he; simp at he
  | ub => rw [hct] at he; simp at he
  | ok r =>
    obtain ⟨ti, tv, env1⟩ := r
    rw [hct] at he
    dsimp only at he
    have hk1 : cnt env1 = cnt s.env := by
      unfold chooseTarget at hct
      split at hct
      · dsimp only at hct
        split at hct
        · simp only [Res.ok.injEq, Prod.mk.injEq] at hct
          rw [← hct.2.2, h.treeSample]; exact hk
        · cases hct
        · cases hct
      · simp only [Res.ok.injEq, Prod.mk.injEq] at hct
        rw [← hct.2.2, h.stateSample]; exact hk
    generalize hnn : e.nearest env1 _ tv s.active = nn at he
    have hk2 : cnt nn.2 = cnt s.env + w s.active := by rw [← hnn, h.nearest, hk1]
    split at he
    · rename_i q _
      have hk3 := h.propagate nn.2 q.value tv s.active
      generalize e.propagate nn.2 q.value tv s.active = pr at hk3 he
      obtain ⟨ps, env2⟩ := pr
      dsimp only at hk3 he
      split at he
      · simp only [Prod.mk.injEq, and_true] at he
        subst he
        have := selectActive_weighs h ⟨s.start, s.goal, s.bridges, s.active, { (countActive s.active s.stats) with total := (countActive s.active s.stats).total + 1, failed := (countActive s.active s.stats).failed + 1 }, env2⟩
        dsimp only at this ⊢
        have hw := weight_count (w := w) (k := k) s.active s.stats
        simp only [BiStats.weight] at this hw ⊢
        omega
      · rename_i p rest
        obtain ⟨a1, a2⟩ := addAllBi_weighs h ty.1 ti tv nn.1 (p :: rest) []
          ⟨s.start, s.goal, s.bridges, s.active, { (countActive s.active s.stats) with total := (countActive s.active s.stats).total + 1, successful := (countActive s.active s.stats).successful + 1 }, env2⟩
        dsimp only at a1 a2
        generalize addAllBi e ty.1 ti tv nn.1 (p :: rest) [] _ = r at a1 a2 he
        obtain ⟨s2, o⟩ := r
        cases o with
        | none =>
          dsimp only at he a1 a2
          simp only [Prod.mk.injEq, and_true] at he
          subst he
          have := selectActive_weighs h s2
          have hw := weight_count (w := w) (k := k) s.active s.stats
          rw [a1, a2] at this
          simp only [BiStats.weight] at this hw ⊢
          omega
        | some x => simp at he
    · simp at he
    · simp at he

theorem biLoop_weighs (h : e.Weighs w k cnt) (fuel : Nat) : ∀ s s1 : BiSt σ V, biLoop e fuel s = some (s1, none) →
    s1.stats.weight w k + cnt s.env = s.stats.weight w k + cnt s1.env := by
  induction fuel with
  | zero => intro s s1 he; cases he
  | succ fuel ih =>
    intro s s1 he
    unfold biLoop at he
    have hk := h.terminate s.env (s.start.length : Int) (s.goal.length : Int)
    generalize e.terminate s.env (s.start.length : Int) (s.goal.length : Int) = r at hk he
    obtain ⟨c, s2⟩ := r
    cases c with
    | true =>
      simp only [Option.some.injEq, Prod.mk.injEq, and_true] at he
      subst he
      dsimp only at hk ⊢
      omega
    | false =>
      dsimp only at hk he
      cases hb : biStep e { s with env := s2 } with
      | mk s3 o =>
        rw [hb] at he
        cases o with
        | none =>
          have h1 := biStep_weighs h _ _ hb
          have h2 := ih _ _ he
          dsimp only at h1
          omega
        | some x => simp at he

/-- **C39** The statistics count what was done: the active iterations of each tree are the nearest-neighbour queries in that tree
and the swaps are the answers of the selection function that named the other tree. (With weights: choose `w` and `k` to single
out one of the three numbers.) -/
theorem C39_statistics (h : e.Weighs w k cnt) (fuel : Nat) (a b a' b' : Tree V) (s s' : σ) (r : BiResult V)
    (he : biRRTPlanMultiPath e fuel a b s = some ((a', b', s'), .ok r)) :
    w .start * r.stats.startActive + w .goal * r.stats.goalActive + k * r.stats.swaps + cnt s = cnt s' := by
  unfold biRRTPlanMultiPath at he
  split at he
  · simp at he
  · split at he
    · simp at he
    · split at he
      · rename_i s2 hr
        split at he
        · simp only [Option.some.injEq, Prod.mk.injEq, Res.ok.injEq] at he
          obtain ⟨⟨-, -, rfl⟩, rfl⟩ := he
          unfold biRun at hr
          split at hr
          · rename_i s1 h1
            obtain ⟨h2, h3⟩ := initialBridges_weighs h fuel 0 0 _ _ h1
            have h4 := biLoop_weighs h fuel _ _ hr
            rw [h2, h3] at h4
            simpa [BiStats.weight] using h4
          · rename_i r hr'
            exact absurd hr (by intro h; exact hr' _ h)
        · simp at he
        · simp at he
        · cases he
      · simp at he
      · cases he

end

/-! ### The single-path planner stops at the first connection -/

theorem initialBridges_congr (hc : e'.connected = e.connected) (hb : e'.bridgeCallback = e.bridgeCallback) (fuel : Nat) :
    ∀ (i j : Int) (s : BiSt σ V), initialBridges e' fuel i j s = initialBridges e fuel i j s := by
  induction fuel with
  | zero => exact fun _ _ _ => rfl
  | succ fuel ih =>
    intro i j s
    unfold initialBridges
    rw [hc, hb]
    simp only [ih]

theorem tryBridge_congr (hc : e'.connected = e.connected) (hb : e'.bridgeCallback = e.bridgeCallback) :
    tryBridge e' = tryBridge e := by
  funext ts ti tv ni s
  unfold tryBridge callBridge
  rw [hc, hb]

theorem addAllBi_congr (ha : e'.stateAdded = e.stateAdded) (hc : e'.connected = e.connected)
    (hb : e'.bridgeCallback = e.bridgeCallback) (ts : Bool) (ti : Int) (tv : V) (nn : Int) (ps : Propagation V) :
    ∀ (mapping : List Int) (s : BiSt σ V), addAllBi e' ts ti tv nn ps mapping s = addAllBi e ts ti tv nn ps mapping s := by
  induction ps with
  | nil => exact fun _ _ => rfl
  | cons p ps ih =>
    intro mapping s
    unfold addAllBi callBiStateAdded
    rw [ha, tryBridge_congr hc hb]
    simp only [ih]

/-- The functions of `e'` are those of `e` except that, once the connection check has answered yes (`cnt` above `c`), the
sampling, nearest-neighbour, propagation and termination functions of `e'` may do anything. -/
structure BiEnv.SameUntil (e e' : BiEnv σ V) (cnt : σ → Nat) (c : Nat) : Prop where
  selectSample : ∀ s, cnt s = c → ∀ a b x, e'.selectSample s a b x = e.selectSample s a b x
  stateSample : ∀ s, cnt s = c → e'.stateSample s = e.stateSample s
  treeSample : ∀ s, cnt s = c → ∀ t x, e'.treeSample s t x = e.treeSample s t x
  nearest : ∀ s, cnt s = c → ∀ t v x, e'.nearest s t v x = e.nearest s t v x
  propagate : ∀ s, cnt s = c → ∀ q v x, e'.propagate s q v x = e.propagate s q v x
  terminate : ∀ s, cnt s = c → ∀ m n, e'.terminate s m n = e.terminate s m n
  stateAdded : e'.stateAdded = e.stateAdded
  connected : e'.connected = e.connected
  bridgeCallback : e'.bridgeCallback = e.bridgeCallback
  selectActive : e'.selectActive = e.selectActive

section
variable {cnt : σ → Nat} {c : Nat}

/-- While no solution has been found, the connection check has not answered yes. -/
def Quiet (cnt : σ → Nat) (c : Nat) (s : σ × Bool) : Prop := s.2 = false → cnt s.1 = c

theorem single_bridge_found (e : BiEnv σ V) : ∃ cb, (singleBiEnv e).bridgeCallback = some cb ∧
    ∀ s a i b j x, (cb s a i b j x).2.2 = true := by
  refine ⟨_, rfl, fun s a i b j x => ?_⟩
  split <;> rfl

theorem initialBridges_quiet (h : e.Counts yes cnt) (fuel : Nat) : ∀ (i j : Int) (s s1 : BiSt (σ × Bool) V),
    Quiet cnt c s.env → initialBridges (singleBiEnv e) fuel i j s = some (s1, none) → Quiet cnt c s1.env := by
  induction fuel with
  | zero => intro i j s s1 _ he; cases he
  | succ fuel ih =>
    intro i j s s1 hq he
    unfold initialBridges at he
    split at he
    · split at he
      · split at he
        · rename_i a b _ _
          have hk := h.connected s.env.1 a.value b.value s.active
          have e1 : (singleBiEnv e).connected s.env a.value b.value s.active =
            ((e.connected s.env.1 a.value b.value s.active).1, ((e.connected s.env.1 a.value b.value s.active).2, s.env.2)) := rfl
          rw [e1] at he
          generalize e.connected s.env.1 a.value b.value s.active = r at hk he
          obtain ⟨cc, s2⟩ := r
          cases cc with
          | true =>
            dsimp only at he
            obtain ⟨cb, hcb, hcb2⟩ := single_bridge_found e
            rw [hcb] at he
            split at he
            · exact ih _ _ _ _ (fun hf => absurd hf (by dsimp only; rw [hcb2]; simp)) he
            · simp at he
            · simp at he
          | false =>
            refine ih _ _ _ _ (fun hf => ?_) he
            dsimp only at hf ⊢
            have := hq hf
            simp [yes] at hk
            omega
        all_goals simp at he
      · exact ih _ _ _ _ hq he
    · simp only [Option.some.injEq, Prod.mk.injEq, and_true] at he
      subst he; exact hq

theorem tryBridge_quiet (h : e.Counts yes cnt) (ts : Bool) (ti : Int) (tv : V) (ni : Int) (s s1 : BiSt (σ × Bool) V)
    (hq : Quiet cnt c s.env) (he : tryBridge (singleBiEnv e) ts ti tv ni s = (s1, none)) : Quiet cnt c s1.env := by
  unfold tryBridge at he
  split at he
  · split at he
    · rename_i n _
      have hk := h.connected s.env.1 n.value tv s.active
      have e1 : (singleBiEnv e).connected s.env n.value tv s.active =
        ((e.connected s.env.1 n.value tv s.active).1, ((e.connected s.env.1 n.value tv s.active).2, s.env.2)) := rfl
      rw [e1] at he
      generalize e.connected s.env.1 n.value tv s.active = r at hk he
      obtain ⟨cc, s2⟩ := r
      cases cc with
      | true =>
        dsimp only at he
        split at he
        · obtain ⟨cb, hcb, hcb2⟩ := single_bridge_found e
          unfold callBridge at he
          rw [hcb] at he
          simp only [Prod.mk.injEq, and_true] at he
          subst he
          exact fun hf => absurd hf (by dsimp only; rw [hcb2]; simp)
        · simp at he
        · simp at he
      | false =>
        simp only [Prod.mk.injEq, and_true] at he
        subst he
        intro hf
        dsimp only at hf ⊢
        have := hq hf
        simp [yes] at hk
        omega
    · simp at he
    · simp at he
  · simp only [Prod.mk.injEq, and_true] at he
    subst he; exact hq

theorem addAllBi_quiet (h : e.Counts yes cnt) (ts : Bool) (ti : Int) (tv : V) (nn : Int) (ps : Propagation V) :
    ∀ (mapping : List Int) (s s1 : BiSt (σ × Bool) V), Quiet cnt c s.env →
      addAllBi (singleBiEnv e) ts ti tv nn ps mapping s = (s1, none) → Quiet cnt c s1.env := by
  induction ps with
  | nil =>
    intro _ s s1 hq he
    simp only [addAllBi, Prod.mk.injEq, and_true] at he
    subst he; exact hq
  | cons p ps ih =>
    intro mapping s s1 hq he
    obtain ⟨v, rel⟩ := p
    unfold addAllBi at he
    split at he
    · rename_i t1 ni _
      have h2 : Quiet cnt c (callBiStateAdded (singleBiEnv e) s.env t1 ni s.active).2 := by
        unfold callBiStateAdded
        cases h1 : e.stateAdded with
        | none =>
          have : (singleBiEnv e).stateAdded = none := by unfold singleBiEnv; dsimp only; rw [h1]; rfl
          rw [this]; exact hq
        | some f =>
          have : (singleBiEnv e).stateAdded = some fun s t i x => ((f s.1 t i x).1, ((f s.1 t i x).2, s.2)) := by
            unfold singleBiEnv; dsimp only; rw [h1]; rfl
          rw [this]
          intro hf
          dsimp only at hf ⊢
          rw [h.stateAdded f h1]; exact hq hf
      dsimp only at he
      cases ht : tryBridge (singleBiEnv e) ts ti tv ni
        { s.setTree s.active (callBiStateAdded (singleBiEnv e) s.env t1 ni s.active).1 with
          env := (callBiStateAdded (singleBiEnv e) s.env t1 ni s.active).2 } with
      | mk s2 o =>
        rw [ht] at he
        cases o with
        | none => exact ih _ _ _ (tryBridge_quiet h ts ti tv ni _ _ h2 ht) he
        | some x => simp at he
    · simp at he
    · simp at he

theorem chooseTarget_until (h : e.Counts yes cnt) (hs : e.SameUntil e' cnt c) (ts : Bool) (s : BiSt (σ × Bool) V)
    (hq : cnt s.env.1 = c) : chooseTarget (singleBiEnv e') ts s = chooseTarget (singleBiEnv e) ts s ∧
      ∀ i v s1, chooseTarget (singleBiEnv e) ts s = .ok (i, v, s1) → cnt s1.1 = c ∧ s1.2 = s.env.2 := by
  unfold chooseTarget
  have e1 : ∀ (f : BiEnv σ V) t x, (singleBiEnv f).treeSample s.env t x =
    ((f.treeSample s.env.1 t x).1, ((f.treeSample s.env.1 t x).2, s.env.2)) := fun _ _ _ => rfl
  have e2 : ∀ (f : BiEnv σ V), (singleBiEnv f).stateSample s.env =
    ((f.stateSample s.env.1).1, ((f.stateSample s.env.1).2, s.env.2)) := fun _ => rfl
  split
  · simp only [e1]
    rw [hs.treeSample _ hq]
    split
    · refine ⟨rfl, fun i v s1 he => ?_⟩
      simp only [Res.ok.injEq, Prod.mk.injEq] at he
      rw [← he.2.2]
      exact ⟨by dsimp only; rw [h.treeSample]; exact hq, rfl⟩
    · exact ⟨rfl, fun _ _ _ he => by cases he⟩
    · exact ⟨rfl, fun _ _ _ he => by cases he⟩
  · simp only [e2]
    rw [hs.stateSample _ hq]
    refine ⟨rfl, fun i v s1 he => ?_⟩
    simp only [Res.ok.injEq, Prod.mk.injEq] at he
    rw [← he.2.2]
    exact ⟨by dsimp only; rw [h.stateSample]; exact hq, rfl⟩

theorem selectActive_until (hs : e.SameUntil e' cnt c) : selectActive (singleBiEnv e') = selectActive (singleBiEnv e) := by
  funext s
  unfold selectActive singleBiEnv
  dsimp only
  rw [hs.selectActive]

theorem biStep_until (h : e.Counts yes cnt) (hs : e.SameUntil e' cnt c) (s : BiSt (σ × Bool) V) (hq : cnt s.env.1 = c) :
    biStep (singleBiEnv e') s = biStep (singleBiEnv e) s ∧
      ∀ s1, biStep (singleBiEnv e) s = (s1, none) → Quiet cnt c s1.env := by
  have hsa : (singleBiEnv e').stateAdded = (singleBiEnv e).stateAdded := by unfold singleBiEnv; dsimp only; rw [hs.stateAdded]
  have hcc : (singleBiEnv e').connected = (singleBiEnv e).connected := by unfold singleBiEnv; dsimp only; rw [hs.connected]
  have hbb : (singleBiEnv e').bridgeCallback = (singleBiEnv e).bridgeCallback := by
    unfold singleBiEnv; dsimp only; rw [hs.bridgeCallback]
  have hsel : ∀ s : BiSt (σ × Bool) V, Quiet cnt c s.env → Quiet cnt c (selectActive (singleBiEnv e) s).env := by
    intro s hq hf
    unfold selectActive singleBiEnv at hf ⊢
    dsimp only at hf ⊢
    rw [h.selectActive]; exact hq hf
  have e1 : ∀ (f : BiEnv σ V) (s : σ × Bool) a b x, (singleBiEnv f).selectSample s a b x =
    ((f.selectSample s.1 a b x).1, ((f.selectSample s.1 a b x).2, s.2)) := fun _ _ _ _ _ => rfl
  have e2 : ∀ (f : BiEnv σ V) (s : σ × Bool) t v x, (singleBiEnv f).nearest s t v x =
    ((f.nearest s.1 t v x).1, ((f.nearest s.1 t v x).2, s.2)) := fun _ _ _ _ _ => rfl
  have e3 : ∀ (f : BiEnv σ V) (s : σ × Bool) q v x, (singleBiEnv f).propagate s q v x =
    ((f.propagate s.1 q v x).1, ((f.propagate s.1 q v x).2, s.2)) := fun _ _ _ _ _ => rfl
  unfold biStep
  dsimp only
  rw [e1, e1, hs.selectSample _ hq]
  have hk := h.selectSample s.env.1 s.start s.goal s.active
  generalize e.selectSample s.env.1 s.start s.goal s.active = ty at hk ⊢
  dsimp only
  obtain ⟨c1, c2⟩ := chooseTarget_until h hs ty.1 { s with stats := countActive s.active s.stats, env := (ty.2, s.env.2) }
    (by dsimp only; rw [hk]; exact hq)
  rw [c1]
  split
  · rename_i ti tv env1 hct
    have hk1 := (c2 _ _ _ hct).1
    rw [e2, e2, hs.nearest _ hk1]
    have hk2 := fun t => h.nearest env1.1 t tv s.active
    generalize hnn : e.nearest env1.1 _ tv s.active = nn
    have hk3 : cnt nn.2 = c := by rw [← hnn, hk2]; exact hk1
    dsimp only
    split
    · rename_i q _
      rw [e3, e3, hs.propagate _ hk3]
      have hk4 := h.propagate nn.2 q.value tv s.active
      generalize e.propagate nn.2 q.value tv s.active = pr at hk4 ⊢
      obtain ⟨ps, env2⟩ := pr
      dsimp only at hk4 ⊢
      split
      · rw [selectActive_until hs]
        refine ⟨rfl, fun s1 he => ?_⟩
        simp only [Prod.mk.injEq, and_true] at he
        subst he
        exact hsel _ fun _ => by dsimp only; omega
      · rename_i p rest
        rw [addAllBi_congr hsa hcc hbb]
        have hquiet := fun s1 => addAllBi_quiet (c := c) h ty.1 ti tv nn.1 (p :: rest) []
          ⟨s.start, s.goal, s.bridges, s.active, { (countActive s.active s.stats) with total := (countActive s.active s.stats).total + 1, successful := (countActive s.active s.stats).successful + 1 }, (env2, env1.2)⟩ s1
          (fun _ => by dsimp only; omega)
        generalize addAllBi (singleBiEnv e) ty.1 ti tv nn.1 (p :: rest) [] _ = r at hquiet ⊢
        obtain ⟨s2, o⟩ := r
        cases o with
        | none =>
          dsimp only
          rw [selectActive_until hs]
          refine ⟨rfl, fun s1 he => ?_⟩
          simp only [Prod.mk.injEq, and_true] at he
          subst he
          exact hsel _ (hquiet _ rfl)
        | some x => exact ⟨rfl, fun s1 he => by simp at he⟩
    · exact ⟨rfl, fun s1 he => by simp at he⟩
    · exact ⟨rfl, fun s1 he => by simp at he⟩
  · exact ⟨rfl, fun s1 he => by simp at he⟩
  · exact ⟨rfl, fun s1 he => by simp at he⟩

theorem biLoop_until (h : e.Counts yes cnt) (hs : e.SameUntil e' cnt c) (fuel : Nat) : ∀ s : BiSt (σ × Bool) V,
    Quiet cnt c s.env → biLoop (singleBiEnv e') fuel s = biLoop (singleBiEnv e) fuel s := by
  induction fuel with
  | zero => exact fun _ _ => rfl
  | succ fuel ih =>
    intro s hq
    have et : ∀ f : BiEnv σ V, (singleBiEnv f).terminate s.env (s.start.length : Int) (s.goal.length : Int) =
      if s.env.2 then (true, s.env) else ((f.terminate s.env.1 (s.start.length : Int) (s.goal.length : Int)).1,
        ((f.terminate s.env.1 (s.start.length : Int) (s.goal.length : Int)).2, s.env.2)) := fun _ => rfl
    unfold biLoop
    rw [et, et]
    cases hf : s.env.2 with
    | true => simp
    | false =>
      have hc0 := hq hf
      rw [hs.terminate _ hc0]
      have hk := h.terminate s.env.1 (s.start.length : Int) (s.goal.length : Int)
      generalize e.terminate s.env.1 (s.start.length : Int) (s.goal.length : Int) = r at hk ⊢
      obtain ⟨cc, s1⟩ := r
      simp only [Bool.false_eq_true, if_false]
      cases cc with
      | true => rfl
      | false =>
        dsimp only at hk ⊢
        obtain ⟨b1, b2⟩ := biStep_until h hs { s with env := (s1, false) } (by dsimp only; omega)
        rw [b1]
        generalize biStep (singleBiEnv e) { s with env := (s1, false) } = r at b2 ⊢
        obtain ⟨s2, o⟩ := r
        cases o with
        | none => exact ih s2 (b2 s2 rfl)
        | some x => rfl

/-- **C39**, single path. Once the connection check has answered yes, nothing is sampled, searched or propagated any more and the
termination check is not asked: functions that differ only afterwards lead to the same run. -/
theorem C39_single_stops (h : e.Counts yes cnt) (s : σ) (hs : e.SameUntil e' cnt (cnt s)) (fuel : Nat) (a b : Tree V) :
    biRRTPlanSinglePath e' fuel a b s = biRRTPlanSinglePath e fuel a b s := by
  have hcc : (singleBiEnv e').connected = (singleBiEnv e).connected := by unfold singleBiEnv; dsimp only; rw [hs.connected]
  have hbb : (singleBiEnv e').bridgeCallback = (singleBiEnv e).bridgeCallback := by
    unfold singleBiEnv; dsimp only; rw [hs.bridgeCallback]
  have hr : biRun (singleBiEnv e') fuel a b (s, false) = biRun (singleBiEnv e) fuel a b (s, false) := by
    unfold biRun
    rw [initialBridges_congr hcc hbb]
    have h2 := fun s1 => initialBridges_quiet (c := cnt s) h fuel 0 0 { start := a, goal := b, env := (s, false) } s1 fun _ => rfl
    generalize initialBridges (singleBiEnv e) fuel 0 0 { start := a, goal := b, env := (s, false) } = r at h2 ⊢
    split
    · exact biLoop_until h hs fuel _ (h2 _ rfl)
    · rfl
  unfold biRRTPlanSinglePath biRRTPlanMultiPath
  rw [hr]

end

/-- Functions that count the yes answers of the connection check. -/
def countingEnv : BiEnv (Nat × Nat) Nat where
  selectSample s _ _ _ := (true, s)
  stateSample s := (0, s)
  treeSample s _ _ := (0, s)
  nearest s t _ _ := ((t.length : Int) - 1, s)
  propagate s q _ x := match x with
    | .start => ([(q + 1, -1)], s)
    | .goal => ([(q - 1, -1)], s)
  stateAdded := none
  connected s a b _ := (a == b, (s.1, s.2 + if a == b then 1 else 0))
  bridgeCallback := none
  selectActive s _ _ x := (x, s)
  terminate s _ _ := match s.1 with
    | 0 => (true, s)
    | n + 1 => (false, (n, s.2))

/-- The hypotheses are met; 20 iterations are allowed but the run stops after the second, which connects the trees. -/
example : countingEnv.Counts yes (·.2) ∧
    (biRRTPlanSinglePath countingEnv 50 [⟨0, -1, []⟩] [⟨2, -1, []⟩] (20, 0)).map (fun r => (r.1.1.map (·.value), r.2)) =
      some ([0, 1, 2], .ok ([0, 1, 2, 2], ⟨2, 0, 2, 2, 0, 0⟩)) := by
  refine ⟨⟨fun _ _ _ _ => rfl, fun _ => rfl, fun _ _ _ => rfl, fun _ _ _ _ => rfl, fun s q v x => (by cases x <;> rfl),
    fun f h => (by cases h), fun _ _ _ _ => rfl, fun f h => (by cases h), fun _ _ _ _ => rfl, fun s m n => ?_⟩, by rfl⟩
  obtain ⟨k, x⟩ := s
  cases k <;> rfl

/-- Functions that count the queries in the start tree. -/
def queriesEnv : BiEnv (Nat × Nat) Nat :=
  { countingEnv with
    nearest := fun s t _ x => ((t.length : Int) - 1, (s.1, s.2 + if x = .start then 1 else 0))
    connected := fun s a b _ => (a == b, s)
    bridgeCallback := some fun s a _ b _ _ => ((a, b), s)
    selectActive := fun s _ _ x => (x.other, s) }

example : queriesEnv.Weighs (fun x => if x = .start then 1 else 0) 0 (·.2) ∧
    (biRRTPlanMultiPath queriesEnv 50 [⟨0, -1, []⟩] [⟨9, -1, []⟩] (3, 0)).map (fun r => r.1.2.2) = some (0, 2) := by
  refine ⟨⟨fun _ _ _ _ => rfl, fun _ => rfl, fun _ _ _ => rfl, fun _ _ _ _ => rfl, fun s q v x => (by cases x <;> rfl),
    fun f h => (by cases h), fun _ _ _ _ => rfl, fun f h => (by cases h; intros; rfl), fun _ _ _ x => (by cases x <;> rfl), fun s m n => ?_⟩, by rfl⟩
  obtain ⟨k, x⟩ := s
  cases k <;> rfl

end CRU.Rrt
