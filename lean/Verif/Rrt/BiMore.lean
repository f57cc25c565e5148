import Verif.Rrt.BiPlan
/-
  C39: every connection found is returned, termination, and the single-path bidirectional planner.
-/
namespace CRU.Rrt

variable {V σ : Type}

/-- `cnt` counts, in the environment, the calls of the states-connected check, an answer `b` weighing `w b`; the other
functions leave the count alone. -/
structure BiEnv.Counts (e : BiEnv σ V) (w : Bool → Nat) (cnt : σ → Nat) : Prop where
  selectSample : ∀ s a b x, cnt (e.selectSample s a b x).2 = cnt s
  stateSample : ∀ s, cnt (e.stateSample s).2 = cnt s
  treeSample : ∀ s t x, cnt (e.treeSample s t x).2 = cnt s
  nearest : ∀ s t v x, cnt (e.nearest s t v x).2 = cnt s
  propagate : ∀ s q v x, cnt (e.propagate s q v x).2 = cnt s
  stateAdded : ∀ f, e.stateAdded = some f → ∀ s t i x, cnt (f s t i x).2 = cnt s
  connected : ∀ s a b x, cnt (e.connected s a b x).2 = cnt s + w (e.connected s a b x).1
  bridgeCallback : ∀ f, e.bridgeCallback = some f → ∀ s a i b j x, cnt (f s a i b j x).2 = cnt s
  selectActive : ∀ s a b x, cnt (e.selectActive s a b x).2 = cnt s
  terminate : ∀ s m n, cnt (e.terminate s m n).2 = cnt s

/-- Weight of a yes answer. -/
def yes (b : Bool) : Nat := if b then 1 else 0

theorem callBiStateAdded_cnt {e : BiEnv σ V} {w : Bool → Nat} {cnt : σ → Nat} (hc : e.Counts w cnt) (s : σ) (t : Tree V)
    (i : Int) (x : Side) : cnt (callBiStateAdded e s t i x).2 = cnt s := by
  unfold callBiStateAdded
  cases h : e.stateAdded with
  | none => rfl
  | some f => exact hc.stateAdded f h _ _ _ _

theorem callBridge_cnt {e : BiEnv σ V} {w : Bool → Nat} {cnt : σ → Nat} (hc : e.Counts w cnt) (s : BiSt σ V)
    (br : Int × Int) : cnt (callBridge e s br).env = cnt s.env ∧ (callBridge e s br).bridges = s.bridges := by
  unfold callBridge
  cases h : e.bridgeCallback with
  | none => exact ⟨rfl, rfl⟩
  | some f => exact ⟨hc.bridgeCallback f h _ _ _ _ _ _, rfl⟩

theorem tryBridge_yes {e : BiEnv σ V} {cnt : σ → Nat} (hc : e.Counts yes cnt) {ts : Bool} {ti : Int} {tv : V} {ni : Int}
    {s s' : BiSt σ V} (h : tryBridge e ts ti tv ni s = (s', none)) :
    s'.bridges.length + cnt s.env = s.bridges.length + cnt s'.env := by
  unfold tryBridge at h
  split at h
  · cases hn : getNode (s.tree s.active) ni with
    | throw x => rw [hn] at h; cases h
    | ub => rw [hn] at h; cases h
    | ok n =>
      rw [hn] at h
      dsimp only at h
      have hcc := hc.connected s.env n.value tv s.active
      cases hcn : e.connected s.env n.value tv s.active with
      | mk b s1 =>
        rw [hcn] at h hcc
        dsimp only at hcc
        cases b
        · simp only [Prod.mk.injEq, and_true] at h
          subst h
          simp only [yes] at hcc ⊢
          simp at hcc
          omega
        · dsimp only at h
          split at h
          · rename_i br _
            simp only [Prod.mk.injEq, and_true] at h
            subst h
            obtain ⟨c1, c2⟩ := callBridge_cnt hc { s with bridges := s.bridges ++ [br], env := s1 } br
            rw [c1, c2]
            simp [yes] at hcc ⊢
            omega
          · cases h
          · cases h
  · simp only [Prod.mk.injEq, and_true] at h
    subst h; rfl

/-- A check for a bridge asks once after a tree sample and not otherwise. -/
theorem tryBridge_asks {e : BiEnv σ V} {cnt : σ → Nat} (hc : e.Counts (fun _ => 1) cnt) {ts : Bool} {ti : Int} {tv : V}
    {ni : Int} {s s' : BiSt σ V} (h : tryBridge e ts ti tv ni s = (s', none)) :
    cnt s'.env = cnt s.env + (if ts then 1 else 0) := by
  unfold tryBridge at h
  split at h
  · rename_i hts
    rw [if_pos hts]
    cases hn : getNode (s.tree s.active) ni with
    | throw x => rw [hn] at h; cases h
    | ub => rw [hn] at h; cases h
    | ok n =>
      rw [hn] at h
      dsimp only at h
      have hcc := hc.connected s.env n.value tv s.active
      cases hcn : e.connected s.env n.value tv s.active with
      | mk b s1 =>
        rw [hcn] at h hcc
        dsimp only at hcc
        cases b
        · simp only [Prod.mk.injEq, and_true] at h
          subst h
          exact hcc
        · dsimp only at h
          split at h
          · rename_i br _
            simp only [Prod.mk.injEq, and_true] at h
            subst h
            rw [(callBridge_cnt hc _ br).1]
            exact hcc
          · cases h
          · cases h
  · rename_i hts
    simp only [Prod.mk.injEq, and_true] at h
    subst h; rw [if_neg hts]; rfl

theorem addAllBi_yes {e : BiEnv σ V} {cnt : σ → Nat} (hc : e.Counts yes cnt) {ts : Bool} {ti : Int} {tv : V} {nn : Int}
    (ps : Propagation V) : ∀ (mapping : List Int) (s s' : BiSt σ V), addAllBi e ts ti tv nn ps mapping s = (s', none) →
    s'.bridges.length + cnt s.env = s.bridges.length + cnt s'.env := by
  induction ps with
  | nil =>
    intro mapping s s' h
    simp only [addAllBi, Prod.mk.injEq, and_true] at h
    subst h; rfl
  | cons x ps ih =>
    intro mapping s s' h
    obtain ⟨v, rel⟩ := x
    unfold addAllBi at h
    cases hadd : addPropagated (s.tree s.active) nn mapping v rel with
    | mk t1 o =>
      rw [hadd] at h
      cases o with
      | throw x => simp at h
      | ub => simp at h
      | ok ni =>
        dsimp only at h
        have h1 := callBiStateAdded_cnt hc s.env t1 ni s.active
        cases htb : tryBridge e ts ti tv ni { s.setTree s.active (callBiStateAdded e s.env t1 ni s.active).1 with
            env := (callBiStateAdded e s.env t1 ni s.active).2 } with
        | mk s2 o =>
          rw [htb] at h
          cases o with
          | some y => simp at h
          | none =>
            have h2 := tryBridge_yes hc htb
            have h3 := ih _ _ _ h
            rw [setTree_bridges] at h2
            dsimp only at h2
            omega

/-- C39. After a tree sample, the states-connected check is asked about every propagated state that is added, not only
about the last one; after a state sample it is not asked. -/
theorem C39_asks_every_state (e : BiEnv σ V) (cnt : σ → Nat) (hc : e.Counts (fun _ => 1) cnt) (ts : Bool) (ti : Int)
    (tv : V) (nn : Int) (ps : Propagation V) : ∀ (mapping : List Int) (s s' : BiSt σ V),
    addAllBi e ts ti tv nn ps mapping s = (s', none) → cnt s'.env = cnt s.env + (if ts then ps.length else 0) := by
  induction ps with
  | nil =>
    intro mapping s s' h
    simp only [addAllBi, Prod.mk.injEq, and_true] at h
    subst h; simp
  | cons x ps ih =>
    intro mapping s s' h
    obtain ⟨v, rel⟩ := x
    unfold addAllBi at h
    cases hadd : addPropagated (s.tree s.active) nn mapping v rel with
    | mk t1 o =>
      rw [hadd] at h
      cases o with
      | throw x => simp at h
      | ub => simp at h
      | ok ni =>
        dsimp only at h
        have h1 := callBiStateAdded_cnt hc s.env t1 ni s.active
        cases htb : tryBridge e ts ti tv ni { s.setTree s.active (callBiStateAdded e s.env t1 ni s.active).1 with
            env := (callBiStateAdded e s.env t1 ni s.active).2 } with
        | mk s2 o =>
          rw [htb] at h
          cases o with
          | some y => simp at h
          | none =>
            have h2 := tryBridge_asks hc htb
            have h3 := ih _ _ _ h
            dsimp only at h2
            rw [h3, h2, h1]
            cases ts <;> simp <;> omega

theorem chooseTarget_cnt {e : BiEnv σ V} {w : Bool → Nat} {cnt : σ → Nat} (hc : e.Counts w cnt) {ts : Bool}
    {s : BiSt σ V} {k : Int} {v : V} {s' : σ} (h : chooseTarget e ts s = .ok (k, v, s')) : cnt s' = cnt s.env := by
  unfold chooseTarget at h
  split at h
  · dsimp only at h
    split at h
    · simp only [Res.ok.injEq, Prod.mk.injEq] at h
      rw [← h.2.2]; exact hc.treeSample _ _ _
    · cases h
    · cases h
  · simp only [Res.ok.injEq, Prod.mk.injEq] at h
    rw [← h.2.2]; exact hc.stateSample _

theorem biStep_yes {e : BiEnv σ V} {cnt : σ → Nat} (hc : e.Counts yes cnt) {s s' : BiSt σ V}
    (h : biStep e s = (s', none)) : s'.bridges.length + cnt s.env = s.bridges.length + cnt s'.env := by
  unfold biStep at h
  dsimp only at h
  have h1 := hc.selectSample s.env s.start s.goal s.active
  generalize hty : e.selectSample s.env s.start s.goal s.active = ty at h h1
  cases hct : chooseTarget e ty.1 { s with stats := countActive s.active s.stats, env := ty.2 } with
  | throw x => rw [hct] at h; simp at h
  | ub => rw [hct] at h; simp at h
  | ok r =>
    obtain ⟨k, v, s1⟩ := r
    rw [hct] at h
    dsimp only at h
    have h2 := chooseTarget_cnt hc hct
    have h3 := hc.nearest s1 (BiSt.tree { s with stats := countActive s.active s.stats } s.active) v s.active
    generalize hnn : e.nearest s1 (BiSt.tree { s with stats := countActive s.active s.stats } s.active) v s.active = nn
      at h h3
    dsimp only at h2
    split at h
    · rename_i q hq
      have h4 := hc.propagate nn.2 q.value v s.active
      generalize hpr : e.propagate nn.2 q.value v s.active = pr at h h4
      split at h
      · simp only [Prod.mk.injEq, and_true] at h
        subst h
        unfold selectActive
        dsimp only
        rw [hc.selectActive]
        omega
      · split at h
        · rename_i s2 hs2
          simp only [Prod.mk.injEq, and_true] at h
          subst h
          have h5 := addAllBi_yes hc _ _ _ _ hs2
          unfold selectActive
          dsimp only at h5 ⊢
          rw [hc.selectActive]
          omega
        · rename_i r hr
          rw [h] at hr
          exact absurd rfl (hr _)
    · simp at h
    · simp at h

theorem biLoop_yes {e : BiEnv σ V} {cnt : σ → Nat} (hc : e.Counts yes cnt) : ∀ (fuel : Nat) (s s' : BiSt σ V),
    biLoop e fuel s = some (s', none) → s'.bridges.length + cnt s.env = s.bridges.length + cnt s'.env := by
  intro fuel
  induction fuel with
  | zero => intro s s' h; cases h
  | succ fuel ih =>
    intro s s' h
    unfold biLoop at h
    have h1 := hc.terminate s.env (s.start.length : Int) (s.goal.length : Int)
    cases ht : e.terminate s.env (s.start.length : Int) (s.goal.length : Int) with
    | mk b s1 =>
      rw [ht] at h h1
      cases b
      · dsimp only at h
        cases hps : biStep e { s with env := s1 } with
        | mk s2 o =>
          rw [hps] at h
          cases o with
          | none =>
            have h2 := biStep_yes hc hps
            have h3 := ih _ _ h
            dsimp only at h2 h1
            omega
          | some y => simp at h
      · simp only [Option.some.injEq, Prod.mk.injEq, and_true] at h
        subst h
        dsimp only at h1 ⊢
        omega

theorem initialBridges_yes {e : BiEnv σ V} {cnt : σ → Nat} (hc : e.Counts yes cnt) : ∀ (fuel : Nat) (i j : Int)
    (s s' : BiSt σ V), initialBridges e fuel i j s = some (s', none) →
    s'.bridges.length + cnt s.env = s.bridges.length + cnt s'.env := by
  intro fuel
  induction fuel with
  | zero => intro i j s s' h; cases h
  | succ fuel ih =>
    intro i j s s' h
    unfold initialBridges at h
    split at h
    · split at h
      · split at h
        · rename_i a b _ _
          have hcc := hc.connected s.env a.value b.value s.active
          cases hcn : e.connected s.env a.value b.value s.active with
          | mk c s1 =>
            rw [hcn] at h hcc
            cases c
            · have := ih _ _ _ _ h
              dsimp only at this hcc
              simp [yes] at hcc
              omega
            · dsimp only at h
              split at h
              · split at h
                · rename_i br _ _ cb hcb
                  have := ih _ _ _ _ h
                  dsimp only at this hcc
                  rw [hc.bridgeCallback cb hcb] at this
                  simp [yes] at hcc this
                  omega
                · simp at h
              · simp at h
              · simp at h
        · simp at h
        · simp at h
        · simp at h
      · exact ih _ _ _ _ h
    · simp only [Option.some.injEq, Prod.mk.injEq, and_true] at h
      subst h; rfl

/-- C39. Every yes answer of the states-connected check yields one returned path: the number of paths is the number of
yes answers given during the call. -/
theorem C39_all_bridges (e : BiEnv σ V) (cnt : σ → Nat) (hc : e.Counts yes cnt) (fuel : Nat) (a₀ b₀ a b : Tree V)
    (s s' : σ) (r : BiResult V) (h : biRRTPlanMultiPath e fuel a₀ b₀ s = some ((a, b, s'), .ok r)) :
    r.paths.length + cnt s = cnt s' := by
  unfold biRRTPlanMultiPath at h
  split at h
  · simp at h
  · split at h
    · simp at h
    · split at h
      · rename_i s2 hr
        split at h
        · rename_i ps hps
          simp only [Option.some.injEq, Prod.mk.injEq, Res.ok.injEq] at h
          obtain ⟨⟨-, -, rfl⟩, rfl⟩ := h
          have hlen := (bridgePaths_ok hps).1
          dsimp only
          rw [hlen]
          unfold biRun at hr
          cases hi : initialBridges e fuel 0 0 { start := a₀, goal := b₀, env := s } with
          | none => rw [hi] at hr; cases hr
          | some q =>
            obtain ⟨s1, o⟩ := q
            rw [hi] at hr
            cases o with
            | some y => simp at hr
            | none =>
              have h1 := initialBridges_yes hc _ _ _ _ _ hi
              have h2 := biLoop_yes hc _ _ _ hr
              dsimp only at h1
              simp at h1
              omega
        · simp at h
        · simp at h
        · cases h
      · simp at h
      · cases h

/-! ### Termination -/

/-- The termination check eventually answers yes. -/
structure BiEnv.Bounded (e : BiEnv σ V) (rank : σ → Nat) : Prop where
  selectSample : ∀ s a b x, rank (e.selectSample s a b x).2 ≤ rank s
  stateSample : ∀ s, rank (e.stateSample s).2 ≤ rank s
  treeSample : ∀ s t x, rank (e.treeSample s t x).2 ≤ rank s
  nearest : ∀ s t v x, rank (e.nearest s t v x).2 ≤ rank s
  propagate : ∀ s q v x, rank (e.propagate s q v x).2 ≤ rank s
  stateAdded : ∀ f, e.stateAdded = some f → ∀ s t i x, rank (f s t i x).2 ≤ rank s
  connected : ∀ s a b x, rank (e.connected s a b x).2 ≤ rank s
  bridgeCallback : ∀ f, e.bridgeCallback = some f → ∀ s a i b j x, rank (f s a i b j x).2 ≤ rank s
  selectActive : ∀ s a b x, rank (e.selectActive s a b x).2 ≤ rank s
  terminate : ∀ s m n, (e.terminate s m n).1 = false → rank (e.terminate s m n).2 < rank s

/-- Sampled and nearest indices exist and propagations list parents before children. -/
structure BiEnv.WellFormed (e : BiEnv σ V) : Prop where
  treeSample : ∀ s t x, t ≠ [] → 0 ≤ (e.treeSample s t x).1 ∧ (e.treeSample s t x).1 < (t.length : Int)
  nearest : ∀ s t v x, t ≠ [] → 0 ≤ (e.nearest s t v x).1 ∧ (e.nearest s t v x).1 < (t.length : Int)
  propagate : ∀ s q v x (k : Nat) (u : V) (rel : Int), (e.propagate s q v x).1[k]? = some (u, rel) → rel < k

theorem callBiStateAdded_rank {e : BiEnv σ V} {rank : σ → Nat} (hb : e.Bounded rank) (s : σ) (t : Tree V) (i : Int)
    (x : Side) : rank (callBiStateAdded e s t i x).2 ≤ rank s := by
  unfold callBiStateAdded
  cases h : e.stateAdded with
  | none => exact Nat.le_refl _
  | some f => exact hb.stateAdded f h _ _ _ _

theorem callBridge_rank {e : BiEnv σ V} {rank : σ → Nat} (hb : e.Bounded rank) (s : BiSt σ V) (br : Int × Int) :
    rank (callBridge e s br).env ≤ rank s.env := by
  unfold callBridge
  cases h : e.bridgeCallback with
  | none => exact Nat.le_refl _
  | some f => exact hb.bridgeCallback f h _ _ _ _ _ _

theorem tryBridge_rank {e : BiEnv σ V} {rank : σ → Nat} (hb : e.Bounded rank) (ts : Bool) (ti : Int) (tv : V) (ni : Int)
    (s : BiSt σ V) : rank (tryBridge e ts ti tv ni s).1.env ≤ rank s.env := by
  unfold tryBridge
  split
  · split
    · rename_i n _
      have hcc := hb.connected s.env n.value tv s.active
      cases hcn : e.connected s.env n.value tv s.active with
      | mk b s1 =>
        rw [hcn] at hcc
        cases b
        · exact hcc
        · dsimp only
          split
          · exact Nat.le_trans (callBridge_rank hb _ _) hcc
          · exact hcc
          · exact hcc
    · exact Nat.le_refl _
    · exact Nat.le_refl _
  · exact Nat.le_refl _

theorem addAllBi_rank {e : BiEnv σ V} {rank : σ → Nat} (hb : e.Bounded rank) (ts : Bool) (ti : Int) (tv : V) (nn : Int)
    (ps : Propagation V) : ∀ (mapping : List Int) (s : BiSt σ V),
    rank (addAllBi e ts ti tv nn ps mapping s).1.env ≤ rank s.env := by
  induction ps with
  | nil => intro mapping s; exact Nat.le_refl _
  | cons x ps ih =>
    intro mapping s
    obtain ⟨v, rel⟩ := x
    unfold addAllBi
    have hset : ∀ (y : Side) (t : Tree V), (s.setTree y t).env = s.env := by intro y t; cases y <;> rfl
    cases hadd : addPropagated (s.tree s.active) nn mapping v rel with
    | mk t1 o =>
      cases o with
      | throw x => dsimp only; rw [hset]
      | ub => dsimp only; rw [hset]
      | ok ni =>
        dsimp only
        have h1 := callBiStateAdded_rank hb s.env t1 ni s.active
        have h2 := tryBridge_rank hb ts ti tv ni { s.setTree s.active (callBiStateAdded e s.env t1 ni s.active).1 with
            env := (callBiStateAdded e s.env t1 ni s.active).2 }
        cases htb : tryBridge e ts ti tv ni { s.setTree s.active (callBiStateAdded e s.env t1 ni s.active).1 with
            env := (callBiStateAdded e s.env t1 ni s.active).2 } with
        | mk s2 o =>
          rw [htb] at h2
          cases o with
          | some y => exact Nat.le_trans h2 h1
          | none => exact Nat.le_trans (ih _ _) (Nat.le_trans h2 h1)

theorem biStep_ok {e : BiEnv σ V} (hro : e.ReadOnly) (hw : e.WellFormed) {rank : σ → Nat} (hb : e.Bounded rank)
    {t₀ : Side → Tree V} {s : BiSt σ V} (hi : BInv e t₀ s) (hne : ∀ x, t₀ x ≠ []) :
    ∃ s', biStep e s = (s', none) ∧ rank s'.env ≤ rank s.env := by
  have hne' : ∀ x, s.tree x ≠ [] := by
    intro x h0
    have := (hi.grown x).length_le
    rw [h0] at this
    cases ht : t₀ x with
    | nil => exact hne x ht
    | cons _ _ => rw [ht] at this; simp at this
  unfold biStep
  dsimp only
  have h1 := hb.selectSample s.env s.start s.goal s.active
  generalize hty : e.selectSample s.env s.start s.goal s.active = ty at h1
  have hct : ∃ k v s1, chooseTarget e ty.1 { s with stats := countActive s.active s.stats, env := ty.2 } = .ok (k, v, s1) ∧
      rank s1 ≤ rank ty.2 := by
    unfold chooseTarget
    split
    · dsimp only
      have hn0 : BiSt.tree { s with stats := countActive s.active s.stats, env := ty.2 } s.active.other ≠ [] := by
        have := hne' s.active.other
        cases ha : s.active.other <;> rw [ha] at this <;> exact this
      obtain ⟨w1, w2⟩ := hw.treeSample ty.2
        (BiSt.tree { s with stats := countActive s.active s.stats, env := ty.2 } s.active.other) s.active hn0
      obtain ⟨n, hn, -⟩ := getNode_in w1 w2
      rw [hn]
      exact ⟨_, _, _, rfl, hb.treeSample _ _ _⟩
    · exact ⟨_, _, _, rfl, hb.stateSample _⟩
  obtain ⟨k, v, s1, hct, h2⟩ := hct
  rw [hct]
  dsimp only
  have htar := chooseTarget_ok hct
  have h3 := hb.nearest s1 (BiSt.tree { s with stats := countActive s.active s.stats } s.active) v s.active
  have hn1 : BiSt.tree { s with stats := countActive s.active s.stats } s.active ≠ [] := by
    have := hne' s.active
    cases ha : s.active <;> rw [ha] at this <;> exact this
  obtain ⟨w1, w2⟩ := hw.nearest s1 (BiSt.tree { s with stats := countActive s.active s.stats } s.active) v s.active hn1
  generalize hnn : e.nearest s1 (BiSt.tree { s with stats := countActive s.active s.stats } s.active) v s.active = nn
    at h3 w1 w2
  obtain ⟨q, hq, -⟩ := getNode_in w1 w2
  have hside : ∀ (st : BiStats) (en : σ) (y : Side), BiSt.tree { s with stats := st, env := en } y = s.tree y := by
    intro st en y; cases y <;> rfl
  have hside' : ∀ (st : BiStats) (y : Side), BiSt.tree { s with stats := st } y = s.tree y := by
    intro st y; cases y <;> rfl
  rw [hside'] at hq
  rw [hside, hq]
  dsimp only
  have h4 := hb.propagate nn.2 q.value v s.active
  have hw2 := hw.propagate nn.2 q.value v s.active
  generalize hpr : e.propagate nn.2 q.value v s.active = pr at h4 hw2
  cases hpl : pr.1 with
  | nil =>
    refine ⟨_, rfl, ?_⟩
    unfold selectActive
    exact Nat.le_trans (hb.selectActive _ _ _ _) (by dsimp only; omega)
  | cons x rest =>
    dsimp only
    have hi' : BInv e t₀ { s with
        stats := { countActive s.active s.stats with
          total := (countActive s.active s.stats).total + 1,
          successful := (countActive s.active s.stats).successful + 1 },
        env := pr.2 } := hi.withEnv rfl rfl rfl
    obtain ⟨-, -, -, a4⟩ := addAllBi_inv hro (t₀ := t₀) (q := q.value) (base := (s.tree s.active).length)
      (side := s.active) (ts := ty.1) (targetIdx := k) (target := v) (all := x :: rest) (nearest := nn.1)
      ⟨_, _, by rw [hpr]; exact hpl⟩ (x :: rest) [] [] _ rfl hi' rfl
      (by rw [hside]; exact Mid.start hq rfl) (by rw [hside] at htar ⊢; exact htar)
    have hrk := addAllBi_rank hb ty.1 k v nn.1 (x :: rest) [] { s with
        stats := { countActive s.active s.stats with
          total := (countActive s.active s.stats).total + 1,
          successful := (countActive s.active s.stats).successful + 1 },
        env := pr.2 }
    generalize hG : addAllBi e ty.1 k v nn.1 (x :: rest) [] { s with
        stats := { countActive s.active s.stats with
          total := (countActive s.active s.stats).total + 1,
          successful := (countActive s.active s.stats).successful + 1 },
        env := pr.2 } = G at a4 hrk
    obtain ⟨s2, o⟩ := G
    dsimp only at a4 hrk
    rcases a4 with rfl | ⟨-, j, u, rel, b3, b4⟩
    · refine ⟨_, rfl, ?_⟩
      unfold selectActive
      exact Nat.le_trans (hb.selectActive _ _ _ _) (by omega)
    · have := hw2 j u rel (by rw [hpl]; exact b3)
      omega

theorem biLoop_returns {e : BiEnv σ V} (hro : e.ReadOnly) (hw : e.WellFormed) {rank : σ → Nat} (hb : e.Bounded rank)
    {t₀ : Side → Tree V} (hne : ∀ x, t₀ x ≠ []) : ∀ (k : Nat) (s : BiSt σ V), rank s.env < k → BInv e t₀ s →
    ∃ s', biLoop e k s = some (s', none) := by
  intro k
  induction k with
  | zero => intro s h; omega
  | succ k ih =>
    intro s hk hi
    unfold biLoop
    cases ht : e.terminate s.env (s.start.length : Int) (s.goal.length : Int) with
    | mk b s1 =>
      cases b
      · dsimp only
        have hlt := hb.terminate s.env (s.start.length : Int) (s.goal.length : Int) (by rw [ht])
        rw [ht] at hlt
        dsimp only at hlt
        have hi' : BInv e t₀ { s with env := s1 } := hi.withEnv rfl rfl rfl
        obtain ⟨s2, h1, h2⟩ := biStep_ok hro hw hb hi' hne
        have h4 := (biStep_inv hro hi').1
        rw [h1] at h4 ⊢
        exact ih s2 (by dsimp only at h2; omega) h4
      · exact ⟨_, rfl⟩

theorem biLoop_mono {e : BiEnv σ V} : ∀ {fuel fuel' : Nat} {s : BiSt σ V} {r},
    biLoop e fuel s = some r → fuel ≤ fuel' → biLoop e fuel' s = some r := by
  intro fuel
  induction fuel with
  | zero => intro f' s r h; cases h
  | succ fuel ih =>
    intro f' s r h hle
    obtain ⟨f, rfl⟩ : ∃ f, f' = f + 1 := ⟨f' - 1, by omega⟩
    unfold biLoop at h ⊢
    cases ht : e.terminate s.env (s.start.length : Int) (s.goal.length : Int) with
    | mk b s1 =>
      rw [ht] at h
      cases b
      · dsimp only at h ⊢
        cases hps : biStep e { s with env := s1 } with
        | mk s2 o =>
          rw [hps] at h
          cases o with
          | none => exact ih h (by omega)
          | some y => exact h
      · exact h

theorem initialBridges_mono {e : BiEnv σ V} : ∀ {fuel fuel' : Nat} {i j : Int} {s : BiSt σ V} {r},
    initialBridges e fuel i j s = some r → fuel ≤ fuel' → initialBridges e fuel' i j s = some r := by
  intro fuel
  induction fuel with
  | zero => intro f' i j s r h; cases h
  | succ fuel ih =>
    intro f' i j s r h hle
    obtain ⟨f, rfl⟩ : ∃ f, f' = f + 1 := ⟨f' - 1, by omega⟩
    unfold initialBridges at h ⊢
    by_cases h1 : i < (s.start.length : Int)
    · rw [if_pos h1] at h ⊢
      by_cases h2 : j < (s.goal.length : Int)
      · rw [if_pos h2] at h ⊢
        cases hna : getNode s.start i with
        | throw x => rw [hna] at h; exact h
        | ub =>
          rw [hna] at h
          cases hnb : getNode s.goal j <;> rw [hnb] at h <;> exact h
        | ok a =>
          cases hnb : getNode s.goal j with
          | throw x => rw [hna, hnb] at h; exact h
          | ub => rw [hna, hnb] at h; exact h
          | ok b =>
            rw [hna, hnb] at h
            dsimp only at h ⊢
            cases hc : e.connected s.env a.value b.value s.active with
            | mk c s1 =>
              rw [hc] at h
              cases c
              · exact ih h (by omega)
              · dsimp only at h ⊢
                cases hbr : goalBridge i j with
                | throw x => rw [hbr] at h; exact h
                | ub => rw [hbr] at h; exact h
                | ok br =>
                  rw [hbr] at h
                  dsimp only at h ⊢
                  cases hcb : e.bridgeCallback with
                  | none => rw [hcb] at h; exact h
                  | some cb => rw [hcb] at h; exact ih h (by omega)
      · rw [if_neg h2] at h ⊢
        exact ih h (by omega)
    · rw [if_neg h1] at h ⊢; exact h

theorem initialBridges_returns {e : BiEnv σ V} (hro : e.ReadOnly) {rank : σ → Nat} (hb : e.Bounded rank)
    (hcb : e.bridgeCallback ≠ none) (a b : Tree V) : ∀ (m i j : Nat) (s : BiSt σ V), s.start = a → s.goal = b →
      i ≤ a.length → j ≤ b.length → (a.length - i) * (b.length + 1) + (b.length - j) ≤ m →
      ∃ s', initialBridges e (m + 1) (i : Int) (j : Int) s = some (s', none) ∧ rank s'.env ≤ rank s.env := by
  intro m
  induction m with
  | zero =>
    intro i j s hs hg hi hj hm
    have : a.length - i = 0 := by
      rcases Nat.eq_zero_or_pos (a.length - i) with h | h
      · exact h
      · have : 1 * (b.length + 1) ≤ (a.length - i) * (b.length + 1) := Nat.mul_le_mul_right _ h
        omega
    refine ⟨s, ?_, Nat.le_refl _⟩
    unfold initialBridges
    rw [if_neg (by rw [hs]; omega)]
  | succ m ih =>
    intro i j s hs hg hi hj hm
    unfold initialBridges
    by_cases h1 : (i : Int) < (s.start.length : Int)
    · rw [if_pos h1]
      by_cases h2 : (j : Int) < (s.goal.length : Int)
      · rw [if_pos h2]
        obtain ⟨na, hna, -⟩ := getNode_in (t := s.start) (by omega) h1
        obtain ⟨nb, hnb, -⟩ := getNode_in (t := s.goal) (by omega) h2
        rw [hna, hnb]
        dsimp only
        rw [hs] at h1
        rw [hg] at h2
        have hcast : ((j : Int) + 1) = ((j + 1 : Nat) : Int) := by omega
        rw [hcast]
        have hmeas : (a.length - i) * (b.length + 1) + (b.length - (j + 1)) ≤ m := by omega
        have hrk := hb.connected s.env na.value nb.value s.active
        cases hc : e.connected s.env na.value nb.value s.active with
        | mk c s1 =>
          rw [hc] at hrk
          cases c
          · obtain ⟨s', r1, r2⟩ := ih i (j + 1) { s with env := s1 } hs hg hi (by omega) hmeas
            exact ⟨s', r1, Nat.le_trans r2 hrk⟩
          · dsimp only
            have hbr : goalBridge (i : Int) (j : Int) = .ok ((i : Int), (j : Int)) := by
              unfold goalBridge; rw [if_neg (by omega), if_neg (by omega)]
            rw [hbr]
            dsimp only
            cases hcb' : e.bridgeCallback with
            | none => exact absurd hcb' hcb
            | some f =>
              dsimp only
              rw [hro.2 f hcb']
              obtain ⟨s', r1, r2⟩ := ih i (j + 1) { s with
                  start := s.start, goal := s.goal, bridges := s.bridges ++ [((i : Int), (j : Int))],
                  env := (f s1 s.start i s.goal j s.active).2 } hs hg hi (by omega) hmeas
              exact ⟨s', r1, Nat.le_trans r2 (Nat.le_trans (hb.bridgeCallback f hcb' _ _ _ _ _ _) hrk)⟩
      · rw [if_neg h2]
        rw [hs] at h1
        rw [hg] at h2
        have hcast : ((i : Int) + 1) = ((i + 1 : Nat) : Int) := by omega
        rw [hcast]
        refine ih (i + 1) 0 s hs hg (by omega) (by omega) ?_
        obtain ⟨d, hd⟩ : ∃ d, a.length - i = d + 1 := ⟨a.length - i - 1, by omega⟩
        have hd2 : a.length - (i + 1) = d := by omega
        rw [hd, Nat.succ_mul] at hm
        rw [hd2]
        omega
    · rw [if_neg h1]
      exact ⟨s, rfl, Nat.le_refl _⟩

theorem bridgePaths_returns {start goal : Tree V} (hls : Linked start) (hlg : Linked goal) {fuel : Nat}
    (h1 : start.length < fuel) (h2 : goal.length < fuel) : ∀ {brs : List (Int × Int)},
    (∀ br ∈ brs, ∃ n m, getNode start br.1 = .ok n ∧ getNode goal br.2 = .ok m) →
    ∃ ps, bridgePaths fuel start goal brs = some (.ok ps) := by
  intro brs
  induction brs with
  | nil => intro _; exact ⟨[], rfl⟩
  | cons br brs ih =>
    intro h
    obtain ⟨n, m, hn, hm⟩ := h br (by simp)
    obtain ⟨n0, hn'⟩ := getNode_ok.1 hn
    obtain ⟨m0, hm'⟩ := getNode_ok.1 hm
    obtain ⟨-, vs, hv, -, -⟩ := C37_extraction start hls br.1.toNat (lt_of_get hn') fuel h1
    obtain ⟨-, ws, hw, -, -⟩ := C37_extraction goal hlg br.2.toNat (lt_of_get hm') fuel h2
    rw [show ((br.1.toNat : Nat) : Int) = br.1 by omega] at hv
    rw [show ((br.2.toNat : Nat) : Int) = br.2 by omega] at hw
    obtain ⟨ps, hps⟩ := ih (fun br hbr => h br (by simp [hbr]))
    have hb : bridgePath fuel start goal br = some (.ok (vs ++ ws.reverse)) := by
      unfold bridgePath; rw [hv]; dsimp only; rw [hw]
    exact ⟨_, by unfold bridgePaths; rw [hb]; dsimp only; rw [hps]⟩

/-- C39. Planning between non-empty trees with valid linkage returns normally once the termination check eventually
answers yes, if sampled and nearest indices exist, propagations list parents first and a bridge callback is supplied. -/
theorem C39_returns (e : BiEnv σ V) (hro : e.ReadOnly) (hw : e.WellFormed) (rank : σ → Nat) (hb : e.Bounded rank)
    (a₀ b₀ : Tree V) (s : σ) (ha : Linked a₀) (hb₀ : Linked b₀) (hna : a₀ ≠ []) (hnb : b₀ ≠ [])
    (hcb : e.bridgeCallback ≠ none) :
    ∃ fuel a b s' r, biRRTPlanMultiPath e fuel a₀ b₀ s = some ((a, b, s'), .ok r) := by
  have h0 : BInv e (treesOf a₀ b₀) { start := a₀, goal := b₀, env := s } :=
    ⟨by intro y; cases y <;> assumption, by intro y h; cases y <;> exact h, by intro y; cases y <;> exact GrownFrom.refl _ _,
      by simp⟩
  let M := (a₀.length - 0) * (b₀.length + 1) + (b₀.length - 0)
  obtain ⟨s1, hc, hrk⟩ := initialBridges_returns hro hb hcb a₀ b₀ M 0 0 { start := a₀, goal := b₀, env := s } rfl rfl
    (by omega) (by omega) (Nat.le_refl _)
  obtain ⟨i1, -⟩ := initialBridges_inv hro _ _ _ _ _ _ (by omega) (by omega) rfl h0 hc
  obtain ⟨s2, hp⟩ := biLoop_returns hro hw hb (t₀ := treesOf a₀ b₀) (by intro x; cases x <;> assumption) (rank s + 1) s1
    (by dsimp only at hrk; omega) i1
  obtain ⟨i2, -⟩ := biLoop_inv hro _ _ _ _ i1 hp
  let fuel := (M + 1) + (rank s + 1) + (s2.start.length + 1) + (s2.goal.length + 1)
  obtain ⟨ps, hps⟩ := bridgePaths_returns (i2.linked .start) (i2.linked .goal) (fuel := fuel)
    (by show s2.start.length < _; omega) (by show s2.goal.length < _; omega) (brs := s2.bridges)
    (fun br hbr => by obtain ⟨n, m, h1, h2, -⟩ := i2.bridges br hbr; exact ⟨n, m, h1, h2⟩)
  have hrun : biRun e fuel a₀ b₀ s = some (s2, none) := by
    unfold biRun
    rw [show (0 : Int) = ((0 : Nat) : Int) from rfl, initialBridges_mono hc (by omega : M + 1 ≤ fuel)]
    exact biLoop_mono hp (by omega)
  refine ⟨fuel, s2.start, s2.goal, s2.env, ⟨ps, s2.stats, s2.start.length + s2.goal.length, ps.length⟩, ?_⟩
  unfold biRRTPlanMultiPath
  have e1 : a₀.isEmpty = false := by cases a₀ with
    | nil => exact absurd rfl hna
    | cons _ _ => rfl
  have e2 : b₀.isEmpty = false := by cases b₀ with
    | nil => exact absurd rfl hnb
    | cons _ _ => rfl
  rw [e1, e2, hrun]
  dsimp only
  rw [show bridgePaths fuel s2.start s2.goal s2.bridges = _ from hps]
  rfl

/-! ### Witnesses -/

/-- A planner on the integer line: the start tree grows upwards, the goal tree downwards. The environment counts down the
iterations left. -/
def lineBiEnv (cb : Option (Nat → Tree Int → Int → Tree Int → Int → Side → (Tree Int × Tree Int) × Nat)) :
    BiEnv Nat Int where
  selectSample s _ _ _ := (true, s)
  stateSample s := (0, s)
  treeSample s _ _ := (0, s)
  nearest s _ _ _ := (0, s)
  propagate s q x side := (if q < x then [(q + 1, -1), (q + 2, 0)] else [(q - 1, -1)], s)
  stateAdded := none
  connected s a b _ := (decide (a = b), s)
  bridgeCallback := cb
  selectActive s _ _ x := (x.other, s)
  terminate s _ _ := (decide (s = 0), s - 1)

/-- C39 with default-constructed callbacks: when the given trees already connect, the planner throws
`std::bad_function_call` although the documentation allows the callback to be left out. -/
theorem C39_false :
    biRRTPlanMultiPath (lineBiEnv none) 9 [⟨3, -1, []⟩] [⟨3, -1, []⟩] 2 =
      some (([⟨3, -1, []⟩], [⟨3, -1, []⟩], 2), .throw .badFunctionCall) ∧
    (∃ r, biRRTPlanMultiPath (lineBiEnv (some fun s a _ b _ _ => ((a, b), s))) 9 [⟨3, -1, []⟩] [⟨3, -1, []⟩] 0 =
      some (([⟨3, -1, []⟩], [⟨3, -1, []⟩], 0), .ok r) ∧ r.paths = [[3, 3]]) :=
  ⟨by rfl, ⟨_, rfl, rfl⟩⟩

/-- C39. A negative nearest neighbour index throws `std::out_of_range`; the documentation says that it terminates
planning. -/
theorem C39_negative_neighbour (e : BiEnv σ V) (s : BiSt σ V) (hs : ∀ st t v x, (e.nearest st t v x).1 < 0) :
    (biStep e s).2 = some .outOfRange := by
  unfold biStep
  dsimp only
  rcases chooseTarget_throw (e := e) (ts := (e.selectSample s.env s.start s.goal s.active).1)
      (s := { s with
        stats := countActive s.active s.stats, env := (e.selectSample s.env s.start s.goal s.active).2 }) with ⟨r, h⟩ | h
  · obtain ⟨k, v, s1⟩ := r
    rw [h]
    dsimp only
    rw [getNode_throw (Or.inl (hs _ _ _ _))]
  · rw [h]

/-- The C39 hypotheses are met by a planner that finds a connection. -/
example : (lineBiEnv none).ReadOnly ∧ (lineBiEnv none).WellFormed ∧ (lineBiEnv none).Bounded id ∧
    biRRTPlanMultiPath (lineBiEnv none) 9 [⟨1, -1, []⟩] [⟨3, -1, []⟩] 1 =
      some (([⟨1, -1, [1]⟩, ⟨2, 0, [2]⟩, ⟨3, 1, []⟩], [⟨3, -1, []⟩], 0),
        .ok ⟨[[1, 2, 3, 3]], ⟨1, 0, 1, 1, 0, 1⟩, 4, 1⟩) := by
  refine ⟨⟨by simp [lineBiEnv], by simp [lineBiEnv]⟩, ⟨?_, ?_, ?_⟩, ⟨?_, ?_, ?_, ?_, ?_, ?_, ?_, ?_, ?_, ?_⟩, by rfl⟩
  · intro s t x h
    cases t with
    | nil => exact absurd rfl h
    | cons a b => simp [lineBiEnv]
  · intro s t v x h
    cases t with
    | nil => exact absurd rfl h
    | cons a b => simp [lineBiEnv]
  · intro s q v x k u rel h
    simp only [lineBiEnv] at h
    split at h
    · match k, h with
      | 0, h => simp at h; omega
      | 1, h => simp at h; omega
      | k + 2, h => simp at h
    · match k, h with
      | 0, h => simp at h; omega
      | k + 1, h => simp at h
  · intro s _ _ _; exact Nat.le_refl _
  · intro s; exact Nat.le_refl _
  · intro s _ _; exact Nat.le_refl _
  · intro s _ _ _; exact Nat.le_refl _
  · intro s _ _ _; exact Nat.le_refl _
  · intro f hf; simp [lineBiEnv] at hf
  · intro s _ _ _; exact Nat.le_refl _
  · intro f hf; simp [lineBiEnv] at hf
  · intro s _ _ _; exact Nat.le_refl _
  · intro s m n h
    simp only [lineBiEnv, decide_eq_false_iff_not, id_eq] at h ⊢
    omega

/-! ### Single path -/

theorem producedOn_single {e : BiEnv σ V} {x : Side} {a b : V} : ProducedOn (singleBiEnv e) x a b ↔ ProducedOn e x a b :=
  ⟨fun ⟨s, q, t, h⟩ => ⟨s.1, q, t, h⟩, fun ⟨s, q, t, h⟩ => ⟨(s, false), q, t, h⟩⟩

theorem joined_single {e : BiEnv σ V} {a b : V} : Joined (singleBiEnv e) a b ↔ Joined e a b := by
  constructor
  · rintro (⟨s, h⟩ | ⟨s, h⟩)
    · exact Or.inl ⟨s.1, h⟩
    · exact Or.inr ⟨s.1, h⟩
  · rintro (⟨s, h⟩ | ⟨s, h⟩)
    · exact Or.inl ⟨(s, false), h⟩
    · exact Or.inr ⟨(s, false), h⟩

theorem biReadOnly_single {e : BiEnv σ V} (h : e.ReadOnly) : (singleBiEnv e).ReadOnly := by
  constructor
  · intro f hf s t i x
    simp only [singleBiEnv, Option.map_eq_some_iff] at hf
    obtain ⟨f', hf', rfl⟩ := hf
    exact h.1 f' hf' _ _ _ _
  · intro f hf s a i b j x
    simp only [singleBiEnv, Option.some.injEq] at hf
    subst hf
    dsimp only
    cases hc : e.bridgeCallback with
    | none => rfl
    | some f' => exact h.2 f' hc _ _ _ _ _ _

theorem bisingle_cases {e : BiEnv σ V} {fuel : Nat} {a₀ b₀ a b : Tree V} {s s' : σ} {o : Res (List V × BiStats)}
    (h : biRRTPlanSinglePath e fuel a₀ b₀ s = some ((a, b, s'), o)) :
    ∃ s1 o', biRRTPlanMultiPath (singleBiEnv e) fuel a₀ b₀ (s, false) = some ((a, b, s1), o') ∧ s' = s1.1 ∧
      ((∃ r, o' = .ok r ∧ ((∃ p ps, r.paths = p :: ps ∧ o = .ok (p, r.stats)) ∨ (r.paths = [] ∧ o = .ok ([], r.stats)))) ∨
       (∃ y, o' = .throw y ∧ o = .throw y) ∨ (o' = .ub ∧ o = .ub)) := by
  unfold biRRTPlanSinglePath at h
  cases hm : biRRTPlanMultiPath (singleBiEnv e) fuel a₀ b₀ (s, false) with
  | none => rw [hm] at h; cases h
  | some r =>
    obtain ⟨⟨a', b', s1⟩, o'⟩ := r
    rw [hm] at h
    cases o' with
    | ok r =>
      simp only [Option.some.injEq, Prod.mk.injEq] at h
      obtain ⟨⟨rfl, rfl, rfl⟩, rfl⟩ := h
      refine ⟨s1, _, rfl, rfl, Or.inl ⟨r, rfl, ?_⟩⟩
      cases hp : r.paths with
      | nil => exact Or.inr ⟨rfl, rfl⟩
      | cons p ps => exact Or.inl ⟨p, ps, rfl, rfl⟩
    | throw x =>
      simp only [Option.some.injEq, Prod.mk.injEq] at h
      obtain ⟨⟨rfl, rfl, rfl⟩, rfl⟩ := h
      exact ⟨s1, _, rfl, rfl, Or.inr (Or.inl ⟨x, rfl, rfl⟩)⟩
    | ub =>
      simp only [Option.some.injEq, Prod.mk.injEq] at h
      obtain ⟨⟨rfl, rfl, rfl⟩, rfl⟩ := h
      exact ⟨s1, _, rfl, rfl, Or.inr (Or.inr ⟨rfl, rfl⟩)⟩

/-- C39, single path. A non-empty result is a start chain followed by a reversed goal chain joined by a checked pair; both
trees keep valid linkage; missing callbacks are accepted. -/
theorem C39_single_sound (e : BiEnv σ V) (hro : e.ReadOnly) (fuel : Nat) (a₀ b₀ a b : Tree V) (s s' : σ)
    (o : Res (List V × BiStats)) (ha : Linked a₀) (hb : Linked b₀)
    (h : biRRTPlanSinglePath e fuel a₀ b₀ s = some ((a, b, s'), o)) :
    Linked a ∧ Linked b ∧ GrownFrom (ProducedOn e .start) a₀ a ∧ GrownFrom (ProducedOn e .goal) b₀ b ∧
    o ≠ .throw .badFunctionCall ∧
    ∀ p st, o = .ok (p, st) → p ≠ [] → ∃ ps pg, p = ps ++ pg ∧
      (∃ (i : Nat) (n : Node V), a₀[i]? = some n ∧ n.parent < 0 ∧ ps.head? = some n.value) ∧
      (∃ (i : Nat) (n : Node V), b₀[i]? = some n ∧ n.parent < 0 ∧ pg.getLast? = some n.value) ∧
      (∃ u v, ps.getLast? = some u ∧ pg.head? = some v ∧ Joined e u v) ∧
      Consecutive (fun x y => TreeEdge a₀ x y ∨ ProducedOn e .start x y) ps ∧
      Consecutive (fun x y => TreeEdge b₀ y x ∨ ProducedOn e .goal y x) pg := by
  obtain ⟨s1, o', hm, -, ho⟩ := bisingle_cases h
  have hro' := biReadOnly_single hro
  obtain ⟨h1, h2, -, -, h3, h4⟩ := C39_trees _ hro' _ _ _ _ _ _ _ _ ha hb hm
  refine ⟨h1, h2, h3.mono fun _ _ => producedOn_single.1, h4.mono fun _ _ => producedOn_single.1, ?_, ?_⟩
  · rintro rfl
    obtain ⟨x1, x2⟩ := C39_exceptions _ hro' _ _ _ _ _ _ _ _ ha hb hm
    rcases ho with ⟨r, rfl, ⟨p', ps, hps, ho⟩ | ⟨_, ho⟩⟩ | ⟨y, rfl, ho⟩ | ⟨rfl, ho⟩
    · cases ho
    · cases ho
    · cases ho
      by_cases h0 : a₀ = [] ∨ b₀ = []
      · have := x1 h0; cases this
      · rcases x2 (by simpa using h0) with ⟨r, h, -⟩ | h | ⟨-, h⟩
        · cases h
        · cases h
        · cases h
    · cases ho
  · intro p st hp hne
    rcases ho with ⟨r, rfl, ⟨p', ps, hps, rfl⟩ | ⟨_, rfl⟩⟩ | ⟨y, rfl, rfl⟩ | ⟨rfl, rfl⟩
    · simp only [Res.ok.injEq, Prod.mk.injEq] at hp
      obtain ⟨rfl, -⟩ := hp
      obtain ⟨us, ug, k1, k2, k3, ⟨u, v, k4, k5, k6⟩, k7, k8⟩ :=
        C39_sound _ hro' _ _ _ _ _ _ _ _ ha hb hm p' (by rw [hps]; simp)
      exact ⟨us, ug, k1, k2, k3, ⟨u, v, k4, k5, joined_single.1 k6⟩, k7.imp fun _ _ h => h.imp id producedOn_single.1,
        k8.imp fun _ _ h => h.imp id producedOn_single.1⟩
    · simp only [Res.ok.injEq, Prod.mk.injEq] at hp
      exact absurd hp.1.symm hne
    · cases hp
    · cases hp

/-- C39, single path. The result is empty exactly when the states-connected check never answered yes. -/
theorem C39_single_empty (e : BiEnv σ V) (hro : e.ReadOnly) (cnt : σ → Nat) (hc : e.Counts yes cnt) (fuel : Nat)
    (a₀ b₀ a b : Tree V) (s s' : σ) (p : List V) (st : BiStats) (ha : Linked a₀) (hb : Linked b₀)
    (h : biRRTPlanSinglePath e fuel a₀ b₀ s = some ((a, b, s'), .ok (p, st))) : p = [] ↔ cnt s' = cnt s := by
  obtain ⟨s1, o', hm, rfl, ho⟩ := bisingle_cases h
  have hc' : (singleBiEnv e).Counts yes (fun s => cnt s.1) := by
    refine ⟨fun _ _ _ _ => hc.selectSample _ _ _ _, fun _ => hc.stateSample _, fun _ _ _ => hc.treeSample _ _ _,
      fun _ _ _ _ => hc.nearest _ _ _ _, fun _ _ _ _ => hc.propagate _ _ _ _, ?_, fun _ _ _ _ => hc.connected _ _ _ _, ?_,
      fun _ _ _ _ => hc.selectActive _ _ _ _, ?_⟩
    · intro f hf s t i x
      simp only [singleBiEnv, Option.map_eq_some_iff] at hf
      obtain ⟨f', hf', rfl⟩ := hf
      exact hc.stateAdded f' hf' _ _ _ _
    · intro f hf s a i b j x
      simp only [singleBiEnv, Option.some.injEq] at hf
      subst hf
      dsimp only
      cases hcb : e.bridgeCallback with
      | none => rfl
      | some f' => exact hc.bridgeCallback f' hcb _ _ _ _ _ _
    · intro s m n
      simp only [singleBiEnv]
      split
      · rfl
      · exact hc.terminate _ _ _
  rcases ho with ⟨r, rfl, ho⟩ | ⟨y, rfl, ho⟩ | ⟨rfl, ho⟩
  · have hlen := C39_all_bridges _ _ hc' _ _ _ _ _ _ _ _ hm
    dsimp only at hlen
    rcases ho with ⟨p', ps, hps, ho⟩ | ⟨hps, ho⟩
    · simp only [Res.ok.injEq, Prod.mk.injEq] at ho
      obtain ⟨rfl, -⟩ := ho
      rw [hps] at hlen
      simp at hlen
      constructor
      · intro h0
        obtain ⟨us, ug, k1, ⟨i, n, -, -, k2⟩, -⟩ := C39_sound _ (biReadOnly_single hro) _ _ _ _ _ _ _ _ ha hb hm p
          (by rw [hps]; simp)
        rw [h0] at k1
        have : us = [] := by
          cases us with
          | nil => rfl
          | cons _ _ => simp at k1
        rw [this] at k2
        simp at k2
      · intro h0; omega
    · simp only [Res.ok.injEq, Prod.mk.injEq] at ho
      rw [hps] at hlen
      simp at hlen
      exact ⟨fun _ => hlen.symm, fun _ => ho.1⟩
  · cases ho
  · cases ho

example : biRRTPlanSinglePath (lineBiEnv none) 9 [⟨3, -1, []⟩] [⟨3, -1, []⟩] 2 =
    some (([⟨3, -1, []⟩], [⟨3, -1, []⟩], 2), .ok ([3, 3], {})) := by rfl

example : biRRTPlanSinglePath (lineBiEnv none) 9 [⟨1, -1, []⟩] [⟨3, -1, []⟩] 5 =
    some (([⟨1, -1, [1]⟩, ⟨2, 0, [2]⟩, ⟨3, 1, []⟩], [⟨3, -1, []⟩], 4), .ok ([1, 2, 3, 3], ⟨1, 0, 1, 1, 0, 1⟩)) := by rfl

end CRU.Rrt
