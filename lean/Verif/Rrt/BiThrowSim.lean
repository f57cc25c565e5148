import Verif.Rrt.BiThrowProps
import Verif.Rrt.ThrowSim
/-
  C104: as long as no user-supplied function throws, the bidirectional planner with throwing functions is the planner of
  `Rrt.BiModel`, so that C39 holds of its results.
-/
namespace CRU.Rrt.Throw

variable {V σ ε W α β : Type}

/-- Functions that never throw and do what those of `e` do whenever these return. -/
structure BiFollows (d : Rrt.BiEnv σ V) (e : BiEnv σ ε V) : Prop where
  selectSample : ∀ s t u x a, (e.selectSample s t u x).1 = .ok a → d.selectSample s t u x = (a, (e.selectSample s t u x).2)
  stateSample : ∀ s a, (e.stateSample s).1 = .ok a → d.stateSample s = (a, (e.stateSample s).2)
  treeSample : ∀ s t x a, (e.treeSample s t x).1 = .ok a → d.treeSample s t x = (a, (e.treeSample s t x).2)
  nearest : ∀ s t v x a, (e.nearest s t v x).1 = .ok a → d.nearest s t v x = (a, (e.nearest s t v x).2)
  propagate : ∀ s q v x a, (e.propagate s q v x).1 = .ok a → d.propagate s q v x = (a, (e.propagate s q v x).2)
  stateAdded : match e.stateAdded, d.stateAdded with
    | some f, some g => ∀ s t i x, (f s t i x).1.1 = none → g s t i x = ((f s t i x).1.2, (f s t i x).2)
    | none, none => True
    | _, _ => False
  connected : ∀ s u v x a, (e.connected s u v x).1 = .ok a → d.connected s u v x = (a, (e.connected s u v x).2)
  bridgeCallback : match e.bridgeCallback, d.bridgeCallback with
    | some f, some g => ∀ s t i u j x, (f s t i u j x).1.1 = none → g s t i u j x = ((f s t i u j x).1.2, (f s t i u j x).2)
    | none, none => True
    | _, _ => False
  selectActive : ∀ s t u x a, (e.selectActive s t u x).1 = .ok a → d.selectActive s t u x = (a, (e.selectActive s t u x).2)
  terminate : ∀ s m n a, (e.terminate s m n).1 = .ok a → d.terminate s m n = (a, (e.terminate s m n).2)

/-- Variables and environment as in `Rrt.BiModel`. (simple_rrt_planner.hpp:905-946) -/
def bst (w : BiVars V) (s : σ) : BiSt σ V := ⟨w.start, w.goal, w.bridges, w.active, w.stats, s⟩

/-- The outcome `o` of the program with throwing functions is matched by the outcome `r` of the one without, unless a
user-supplied function threw. -/
def BiMatches (o : Option (Except (Thrown ε) Unit × BiVars V × σ)) (r : Option (Out (BiSt σ V))) : Prop :=
  match o with
  | none => r = none
  | some (.ok _, w, s) => r = some (bst w s, none)
  | some (.error (.lib x), w, s) => r = some (bst w s, some x)
  | some (.error (.user _), _, _) => True

variable {d : Rrt.BiEnv σ V} {e : BiEnv σ ε V}

theorem goalBridge_not_ub {a b : Int} : goalBridge a b ≠ .ub := by
  unfold goalBridge
  split
  · simp
  · split <;> simp

theorem goalBridge_ok {a b : Int} {br : Int × Int} (h : goalBridge a b = .ok br) : br = (a, b) := by
  unfold goalBridge at h
  split at h
  · cases h
  · split at h
    · cases h
    · cases h; rfl

theorem initialBridges_sim (hf : BiFollows d e) (fuel : Nat) : ∀ i j w s,
    BiMatches (initialBridges e fuel i j w s) (Rrt.initialBridges d fuel i j (bst w s)) := by
  induction fuel with
  | zero => intro i j w s; rfl
  | succ fuel ih =>
    intro i j w s
    unfold initialBridges Rrt.initialBridges
    simp only [bind_seq, seq, look]
    by_cases hi : i < (w.start.length : Int)
    · rw [if_pos hi, if_pos (show i < ((bst w s).start.length : Int) from hi)]
      by_cases hj : j < (w.goal.length : Int)
      · rw [if_pos hj, if_pos (show j < ((bst w s).goal.length : Int) from hj)]
        simp only [bst]
        cases hn : getNode w.start i with
        | ub => exact absurd hn getNode_not_ub
        | throw x => rfl
        | ok n =>
          cases hm : getNode w.goal j with
          | ub => exact absurd hm getNode_not_ub
          | throw x => rfl
          | ok m =>
            simp only [seq, lib, ret]
            rcases call_cases (W := BiVars V) (fun s => e.connected s n.value m.value w.active) w s with ⟨a, h1, h2⟩ | ⟨x, h1, h2⟩
            · rw [h2, hf.connected s n.value m.value w.active a h1]
              cases a with
              | false => exact ih _ _ _ _
              | true =>
                simp only [seq, if_true]
                cases hb : goalBridge i j with
                | ub => exact absurd hb goalBridge_not_ub
                | throw x => rfl
                | ok br =>
                  simp only [lib, ret, update]
                  have hcb := hf.bridgeCallback
                  cases hg : e.bridgeCallback with
                  | none =>
                    cases hd : d.bridgeCallback with
                    | none => rfl
                    | some cb => rw [hg, hd] at hcb; exact hcb.elim
                  | some f =>
                    cases hd : d.bridgeCallback with
                    | none => rw [hg, hd] at hcb; exact hcb.elim
                    | some cb =>
                      rw [hg, hd] at hcb
                      have := hcb (e.connected s n.value m.value w.active).2 w.start i w.goal j w.active
                      simp only [untestedBridge, callBridge, bind_seq, seq, look, callRef]
                      rcases hq : f (e.connected s n.value m.value w.active).2 w.start i w.goal j w.active with ⟨⟨r, t⟩, s1⟩
                      rw [hq] at this
                      cases r with
                      | some x => trivial
                      | none =>
                        simp only [this rfl]
                        exact ih _ _ _ _
            · rw [h2]; trivial
      · rw [if_neg hj, if_neg (show ¬ j < ((bst w s).goal.length : Int) from hj)]
        exact ih _ _ _ _
    · rw [if_neg hi, if_neg (show ¬ i < ((bst w s).start.length : Int) from hi)]
      rfl

theorem bst_tree (w : BiVars V) (s : σ) (x : Side) : (bst w s).tree x = w.tree x := by cases x <;> rfl

theorem bst_set (w : BiVars V) (s : σ) (x : Side) (t : Tree V) : (bst w s).setTree x t = bst (w.setTree x t) s := by
  cases x <;> rfl

theorem addedBi_cases (hf : BiFollows d e) (i : Int) (w : BiVars V) (s : σ) :
    addedBi e i w s = some (.ok (), w.setTree w.active (callBiStateAdded d s (w.tree w.active) i w.active).1,
      (callBiStateAdded d s (w.tree w.active) i w.active).2) ∨
    ∃ x w' s', addedBi e i w s = some (.error (.user x), w', s') := by
  have h := hf.stateAdded
  simp only [addedBi, bind_seq, seq, look, callBiStateAdded]
  cases he : e.stateAdded <;> cases hd : d.stateAdded <;> rw [he, hd] at h <;> simp only at h
  · left
    obtain ⟨a, b, c, x, y⟩ := w
    cases x <;> rfl
  · rename_i f g
    have := h s (w.tree w.active) i w.active
    simp only [callRef]
    rcases hq : f s (w.tree w.active) i w.active with ⟨⟨r, t⟩, s1⟩
    rw [hq] at this
    cases r with
    | none => rw [this rfl]; exact .inl rfl
    | some x => exact .inr ⟨_, _, _, rfl⟩

theorem optionalBridge_cases (hf : BiFollows d e) (br : Int × Int) (w : BiVars V) (s : σ) :
    (∃ w' s', optionalBridge e.bridgeCallback br w s = some (.ok (), w', s') ∧ Rrt.callBridge d (bst w s) br = bst w' s') ∨
    ∃ x w' s', optionalBridge e.bridgeCallback br w s = some (.error (.user x), w', s') := by
  have h := hf.bridgeCallback
  unfold optionalBridge Rrt.callBridge
  cases he : e.bridgeCallback <;> cases hd : d.bridgeCallback <;> rw [he, hd] at h <;> simp only at h
  · exact .inl ⟨w, s, rfl, rfl⟩
  · rename_i f g
    have := h s w.start br.1 w.goal br.2 w.active
    simp only [callBridge, bind_seq, seq, look, callRef]
    rcases hq : f s w.start br.1 w.goal br.2 w.active with ⟨⟨r, t⟩, s1⟩
    rw [hq] at this
    cases r with
    | none =>
      refine .inl ⟨_, _, rfl, ?_⟩
      simp only [bst, this rfl]
    | some x => exact .inr ⟨_, _, _, rfl⟩

theorem tryBridge_sim (hf : BiFollows d e) (ts : Bool) (ti : Int) (tv : V) (ni : Int) (w : BiVars V) (s : σ) :
    BiMatches (tryBridge e ts ti tv ni w s) (some (Rrt.tryBridge d ts ti tv ni (bst w s))) := by
  unfold tryBridge Rrt.tryBridge
  cases ts with
  | false => rfl
  | true =>
    simp only [if_true, bind_seq, seq, look]
    have ht : (bst w s).tree (bst w s).active = w.tree w.active := bst_tree w s _
    rw [ht]
    cases hn : getNode (w.tree w.active) ni with
    | ub => exact absurd hn getNode_not_ub
    | throw x => rfl
    | ok n =>
      simp only [lib, ret]
      rcases call_cases (W := BiVars V) (fun s => e.connected s n.value tv w.active) w s with ⟨a, h1, h2⟩ | ⟨x, h1, h2⟩
      · rw [h2, show d.connected (bst w s).env n.value tv (bst w s).active = _ from hf.connected s n.value tv w.active a h1]
        cases a with
        | false => rfl
        | true =>
          simp only [seq, if_true]
          have hg : ∃ r, r ≠ Res.ub ∧
              (if w.active = Side.start then goalBridge ni ti else goalBridge ti ni) = r ∧
              (if (bst w s).active = Side.start then goalBridge ni ti else goalBridge ti ni) = r := by
            refine ⟨_, ?_, rfl, rfl⟩
            split <;> exact goalBridge_not_ub
          obtain ⟨r, hr, hg1, hg2⟩ := hg
          rw [hg1, hg2]
          cases r with
          | ub => exact absurd rfl hr
          | throw x => rfl
          | ok br =>
            simp only [lib, ret, update]
            rcases optionalBridge_cases hf br { w with bridges := w.bridges ++ [br] } (e.connected s n.value tv w.active).2 with
              ⟨w', s', h3, h4⟩ | ⟨x, w', s', h3⟩
            · rw [h3]
              simp only [BiMatches]
              rw [← h4]
              rfl
            · rw [h3]; trivial
      · rw [h2]; trivial

theorem addAllBi_sim (hf : BiFollows d e) (ts : Bool) (ti : Int) (tv : V) (nearest : Int) (ps : Propagation V) :
    ∀ mapping w s, BiMatches (addAllBi e ts ti tv nearest ps mapping w s)
      (some (Rrt.addAllBi d ts ti tv nearest ps mapping (bst w s))) := by
  induction ps with
  | nil => intro mapping w s; rfl
  | cons p ps ih =>
    intro mapping w s
    obtain ⟨v, rel⟩ := p
    unfold addAllBi Rrt.addAllBi insertBi
    simp only [bind_seq, seq, look, update]
    rw [show (bst w s).tree (bst w s).active = w.tree w.active from bst_tree w s _]
    rcases hp : addPropagated (w.tree w.active) nearest mapping v rel with ⟨t1, r⟩
    have hub : r ≠ .ub := by
      have := addPropagated_not_ub (t := w.tree w.active) (nearest := nearest) (mapping := mapping) (v := v) (rel := rel)
      rwa [hp] at this
    cases r with
    | ub => exact absurd rfl hub
    | throw x =>
      simp only [lib, BiMatches, bst_set]
      rfl
    | ok i =>
      simp only [lib, ret]
      have hset : ∀ t, (w.setTree w.active t).active = w.active := by
        intro t; obtain ⟨_, _, _, x, _⟩ := w; cases x <;> rfl
      have htr : (w.setTree w.active t1).tree (w.setTree w.active t1).active = t1 := tree_setTree w t1
      rcases addedBi_cases hf i (w.setTree w.active t1) s with h1 | ⟨x, w', s', h1⟩
      · rw [htr, hset] at h1
        have hss : ∀ t, (w.setTree w.active t1).setTree w.active t = w.setTree w.active t := by
          intro t; obtain ⟨_, _, _, x, _⟩ := w; cases x <;> rfl
        rw [hss] at h1
        rw [h1]
        simp only
        have h2 := tryBridge_sim hf ts ti tv i (w.setTree w.active (callBiStateAdded d s t1 i w.active).1)
          (callBiStateAdded d s t1 i w.active).2
        have h3 : ({ (bst w s).setTree (bst w s).active (callBiStateAdded d (bst w s).env t1 i (bst w s).active).1 with
            env := (callBiStateAdded d (bst w s).env t1 i (bst w s).active).2 } : BiSt σ V) =
            bst (w.setTree w.active (callBiStateAdded d s t1 i w.active).1) (callBiStateAdded d s t1 i w.active).2 := by
          rw [bst_set]; rfl
        rw [h3]
        rcases h4 : tryBridge e ts ti tv i (w.setTree w.active (callBiStateAdded d s t1 i w.active).1)
          (callBiStateAdded d s t1 i w.active).2 with _ | ⟨(x | x) | u, w2, s2⟩ <;> rw [h4] at h2 <;>
          simp only [BiMatches, Option.some.injEq, reduceCtorEq] at h2
        · rw [h2]; rfl
        · trivial
        · rw [h2]; exact ih _ _ _
      · rw [h1]; trivial

theorem selectActiveBi_cases (hf : BiFollows d e) (w : BiVars V) (s : σ) :
    (∃ w' s', selectActiveBi e w s = some (.ok (), w', s') ∧ Rrt.selectActive d (bst w s) = bst w' s') ∨
    ∃ x w' s', selectActiveBi e w s = some (.error (.user x), w', s') := by
  simp only [selectActiveBi, bind_seq, seq, look, update]
  rcases call_cases (W := BiVars V) (fun s => e.selectActive s w.start w.goal w.active) w s with ⟨a, h1, h2⟩ | ⟨x, h1, h2⟩
  · rw [h2]
    refine .inl ⟨_, _, rfl, ?_⟩
    simp only [Rrt.selectActive]
    rw [show d.selectActive (bst w s).env (bst w s).start (bst w s).goal (bst w s).active = _ from
      hf.selectActive s w.start w.goal w.active a h1]
    rfl
  · rw [h2]; exact .inr ⟨_, _, _, rfl⟩

/-- Outcome of `chooseTarget`. -/
theorem chooseTarget_cases (hf : BiFollows d e) (ts : Bool) (w : BiVars V) (s : σ) :
    (∃ k v s', chooseTarget e ts w s = some (.ok (k, v), w, s') ∧ Rrt.chooseTarget d ts (bst w s) = .ok (k, v, s')) ∨
    (∃ x s', chooseTarget e ts w s = some (.error (.lib x), w, s') ∧ Rrt.chooseTarget d ts (bst w s) = .throw x) ∨
    ∃ x w' s', chooseTarget e ts w s = some (.error (.user x), w', s') := by
  unfold chooseTarget Rrt.chooseTarget
  cases ts with
  | true =>
    simp only [if_true, bind_seq, seq, look]
    rw [show (bst w s).tree (bst w s).active.other = w.tree w.active.other from bst_tree w s _]
    rcases call_cases (W := BiVars V) (fun s => e.treeSample s (w.tree w.active.other) w.active) w s with ⟨a, h1, h2⟩ | ⟨x, h1, h2⟩
    · rw [h2, show d.treeSample (bst w s).env (w.tree w.active.other) (bst w s).active = _ from hf.treeSample s _ w.active a h1]
      simp only
      cases hn : getNode (w.tree w.active.other) a with
      | ub => exact absurd hn getNode_not_ub
      | throw x => exact .inr (.inl ⟨_, _, rfl, rfl⟩)
      | ok n => exact .inl ⟨_, _, _, rfl, rfl⟩
    · rw [h2]; exact .inr (.inr ⟨_, _, _, rfl⟩)
  | false =>
    simp only [Bool.false_eq_true, if_false, bind_seq, seq]
    rcases call_cases (W := BiVars V) e.stateSample w s with ⟨a, h1, h2⟩ | ⟨x, h1, h2⟩
    · rw [h2, show d.stateSample (bst w s).env = _ from hf.stateSample s a h1]
      exact .inl ⟨_, _, _, rfl, rfl⟩
    · rw [h2]; exact .inr (.inr ⟨_, _, _, rfl⟩)

/-- The exceptions of `chooseTarget` in the model without throwing functions leave the environment of the sampling function
unrecorded, so environments are compared only after normal ends; see `C104_bi_normal`. -/
def BiMatchesOk (o : Option (Except (Thrown ε) Unit × BiVars V × σ)) (r : Option (Out (BiSt σ V))) : Prop :=
  match o with
  | none => r = none
  | some (.ok _, w, s) => r = some (bst w s, none)
  | some (.error (.lib x), w, _) => ∃ s', r = some (bst w s', some x)
  | some (.error (.user _), _, _) => True

theorem BiMatches.toOk {o : Option (Except (Thrown ε) Unit × BiVars V × σ)} {r : Option (Out (BiSt σ V))}
    (h : BiMatches o r) : BiMatchesOk o r := by
  rcases o with _ | ⟨(x | x) | u, w, s⟩
  · exact h
  · exact ⟨s, h⟩
  · trivial
  · exact h

theorem tree_mk (w : BiVars V) (br : List (Int × Int)) (ac : Side) (c : BiStats) (s : σ) (x : Side) :
    BiSt.tree ⟨w.start, w.goal, br, ac, c, s⟩ x = w.tree x := by cases x <;> rfl

theorem vars_tree_mk (w : BiVars V) (br : List (Int × Int)) (ac : Side) (c : BiStats) (x : Side) :
    BiVars.tree ⟨w.start, w.goal, br, ac, c⟩ x = w.tree x := by cases x <;> rfl

theorem biStep_sim (hf : BiFollows d e) (w : BiVars V) (s : σ) :
    BiMatchesOk (biStep e w s) (some (Rrt.biStep d (bst w s))) := by
  unfold biStep Rrt.biStep
  simp only [bind_seq, seq, look, update, bst, tree_mk, vars_tree_mk]
  generalize countActive w.active w.stats = c
  rcases call_cases (W := BiVars V) (fun s => e.selectSample s w.start w.goal w.active)
    { w with stats := c } s with ⟨ty, h1, h2⟩ | ⟨x, h1, h2⟩
  · rw [h2, hf.selectSample s w.start w.goal w.active ty h1]
    simp only
    generalize (e.selectSample s w.start w.goal w.active).2 = s0
    rcases chooseTarget_cases hf ty { w with stats := c } s0 with ⟨k, v, s', h3, h4⟩ | ⟨x, s', h3, h4⟩ | ⟨x, w', s', h3⟩
    · simp only [bst] at h4
      rw [h3, h4]
      simp only
      rcases call_cases (W := BiVars V) (fun s => e.nearest s (w.tree w.active) v w.active)
        { w with stats := { c with total := c.total + 1 } } s' with ⟨nn, h5, h6⟩ | ⟨y, h5, h6⟩
      · rw [h6, hf.nearest s' (w.tree w.active) v w.active nn h5]
        simp only
        generalize (e.nearest s' (w.tree w.active) v w.active).2 = s1
        cases hn : getNode (w.tree w.active) nn with
        | ub => exact absurd hn getNode_not_ub
        | throw x => exact ⟨_, rfl⟩
        | ok q =>
          simp only [lib, ret]
          rcases call_cases (W := BiVars V) (fun s => e.propagate s q.value v w.active)
            { w with stats := { c with total := c.total + 1 } } s1 with ⟨ps, h7, h8⟩ | ⟨y, h7, h8⟩
          · rw [h8, hf.propagate s1 q.value v w.active ps h7]
            generalize (e.propagate s1 q.value v w.active).2 = s2
            cases ps with
            | nil =>
              simp only [grow, update]
              rcases selectActiveBi_cases hf { w with stats := { c with total := c.total + 1, failed := c.failed + 1 } } s2 with
                ⟨w2, s3, h9, h10⟩ | ⟨x, w2, s3, h9⟩
              · rw [h9]
                simp only [BiMatchesOk]
                rw [← h10]
                rfl
              · rw [h9]; trivial
            | cons p rest =>
              simp only [grow, update, bind_seq, seq]
              have h9 := addAllBi_sim hf ty k v nn (p :: rest) []
                { w with stats := { c with total := c.total + 1, successful := c.successful + 1 } } s2
              simp only [bst] at h9
              generalize addAllBi e ty k v nn (p :: rest) []
                { w with stats := { c with total := c.total + 1, successful := c.successful + 1 } } s2 = r at h9 ⊢
              rcases r with _ | ⟨(x | x) | u, w2, s3⟩ <;>
                simp only [BiMatches, Option.some.injEq, reduceCtorEq] at h9
              · refine ⟨s3, ?_⟩
                rw [h9]
              · trivial
              · rw [h9]
                simp only
                rcases selectActiveBi_cases hf w2 s3 with ⟨w3, s4, h11, h12⟩ | ⟨x, w3, s4, h11⟩
                · rw [h11]
                  simp only [BiMatchesOk]
                  rw [← h12]
                · rw [h11]; trivial
          · rw [h8]; trivial
      · rw [h6]; trivial
    · simp only [bst] at h4
      rw [h3, h4]
      exact ⟨_, rfl⟩
    · rw [h3]; trivial
  · rw [h2]; trivial

theorem biLoop_sim (hf : BiFollows d e) (fuel : Nat) : ∀ w s,
    BiMatchesOk (biLoop e fuel w s) (Rrt.biLoop d fuel (bst w s)) := by
  induction fuel with
  | zero => intro w s; rfl
  | succ fuel ih =>
    intro w s
    unfold biLoop Rrt.biLoop
    simp only [bind_seq, seq, look]
    rcases call_cases (W := BiVars V) (fun s => e.terminate s (w.start.length : Int) (w.goal.length : Int)) w s with ⟨b, h1, h2⟩ | ⟨x, h1, h2⟩
    · rw [h2, show d.terminate (bst w s).env ((bst w s).start.length : Int) ((bst w s).goal.length : Int) = _ from hf.terminate s _ _ b h1]
      cases b with
      | true => rfl
      | false =>
        simp only [seq, Bool.false_eq_true, if_false]
        have := biStep_sim hf w (e.terminate s (w.start.length : Int) (w.goal.length : Int)).2
        rcases hp : biStep e w (e.terminate s (w.start.length : Int) (w.goal.length : Int)).2 with _ | ⟨(x | x) | u, w1, s1⟩ <;>
          rw [hp] at this <;> simp only [BiMatchesOk, Option.some.injEq, reduceCtorEq] at this
        · obtain ⟨s2, h3⟩ := this
          simp only [bst] at h3 ⊢
          rw [h3]
          exact ⟨s2, rfl⟩
        · trivial
        · simp only [bst] at this ⊢
          rw [this]
          exact ih _ _
    · rw [h2]; trivial

theorem bridgePaths_not_ub {a b : Tree V} {fuel : Nat} : ∀ {brs : List (Int × Int)}, bridgePaths fuel a b brs ≠ some .ub := by
  have h2 : ∀ (t : Tree V) g, extractSolutionPath fuel t g ≠ some .ub := by
    intro t g h
    exact extract_not_ub (t := t) (fuel := fuel) (gs := [g]) (by unfold extractSolutionPaths; rw [h])
  have h3 : ∀ br, bridgePath fuel a b br ≠ some .ub := by
    intro br
    unfold bridgePath
    split
    · split
      · simp
      · exact h2 _ _
    · exact h2 _ _
  intro brs
  induction brs with
  | nil => simp [bridgePaths]
  | cons br brs ih =>
    unfold bridgePaths
    split
    · split
      · simp
      · exact ih
    · simp
    · exact absurd ‹_› (h3 br)
    · simp

/-- C104. Runs of the bidirectional planner in which no function given to it throws are the runs of the planner of C39: for
functions `d` that never throw and do what those of `e` do whenever these return, results, the planner's own exceptions and
the final trees are the same. -/
theorem C104_bi_normal (hf : BiFollows d e) (fuel : Nat) (a b : Tree V) (s : σ) :
    (∀ a' b' s' r, biRRTPlanMultiPath e fuel a b s = some (.ok r, (a', b'), s') →
      Rrt.biRRTPlanMultiPath d fuel a b s = some ((a', b', s'), .ok r)) ∧
    (∀ a' b' s' x, biRRTPlanMultiPath e fuel a b s = some (.error (.lib x), (a', b'), s') →
      ∃ s'', Rrt.biRRTPlanMultiPath d fuel a b s = some ((a', b', s''), .throw x)) ∧
    (biRRTPlanMultiPath e fuel a b s = none → Rrt.biRRTPlanMultiPath d fuel a b s = none) := by
  suffices h : match biRRTPlanMultiPath e fuel a b s with
      | none => Rrt.biRRTPlanMultiPath d fuel a b s = none
      | some (.ok r, (a', b'), s') => Rrt.biRRTPlanMultiPath d fuel a b s = some ((a', b', s'), .ok r)
      | some (.error (.lib x), (a', b'), s') => ∃ s'', Rrt.biRRTPlanMultiPath d fuel a b s = some ((a', b', s''), .throw x)
      | some (.error (.user _), _, _) => True by
    refine ⟨fun a' b' s' r h1 => ?_, fun a' b' s' x h1 => ?_, fun h1 => ?_⟩ <;> rw [h1] at h <;> exact h
  unfold biRRTPlanMultiPath biBody Rrt.biRRTPlanMultiPath biRun
  simp only [bind_seq, seq, look]
  by_cases he : a.isEmpty = true
  · rw [if_pos he, if_pos he]; exact ⟨_, rfl⟩
  · rw [if_neg he, if_neg he]
    by_cases hg : b.isEmpty = true
    · rw [if_pos hg, if_pos hg]; exact ⟨_, rfl⟩
    · rw [if_neg hg, if_neg hg]
      simp only [seq]
      have h1 := initialBridges_sim hf fuel 0 0 { start := a, goal := b } s
      change BiMatches _ (Rrt.initialBridges d fuel 0 0 { start := a, goal := b, env := s }) at h1
      rcases h2 : initialBridges e fuel 0 0 { start := a, goal := b } s with _ | ⟨(x | x) | u, w1, s1⟩ <;>
        rw [h2] at h1 <;> simp only [BiMatches] at h1
      · rw [h1]; rfl
      · rw [h1]; exact ⟨_, rfl⟩
      · trivial
      · rw [h1]
        simp only
        have h3 := biLoop_sim hf fuel w1 s1
        rcases h4 : biLoop e fuel w1 s1 with _ | ⟨(x | x) | u, w2, s2⟩ <;> rw [h4] at h3 <;> simp only [BiMatchesOk] at h3
        · rw [h3]; rfl
        · obtain ⟨s3, h3⟩ := h3
          rw [h3]; exact ⟨_, rfl⟩
        · trivial
        · rw [h3]
          simp only [extractBi, bind_seq, seq, look, bst]
          rcases h5 : bridgePaths fuel w2.start w2.goal w2.bridges with _ | (ps | x | _)
          · rfl
          · rfl
          · exact ⟨_, rfl⟩
          · exact absurd h5 bridgePaths_not_ub

/-- The functions of `meetEnv` without the exception. -/
def neverMeetEnv : Rrt.BiEnv (Option Nat) Nat where
  selectSample s _ _ _ := (true, s)
  stateSample s := (0, s)
  treeSample s t _ := (t.length - 1, s)
  nearest s t _ _ := (t.length - 1, s)
  propagate s q _ _ := ([(q + 1, -1)], s)
  stateAdded := none
  connected s _ _ _ := (false, s)
  bridgeCallback := none
  selectActive s _ _ x := (x.other, s)
  terminate s _ _ := (false, s)

example : BiFollows neverMeetEnv meetEnv := by
  refine ⟨?_, ?_, ?_, ?_, ?_, trivial, ?_, trivial, ?_, ?_⟩
  · intro s t u x a h; cases h; rfl
  · intro s a h; cases h; rfl
  · intro s t x a h; cases h; rfl
  · intro s t v x a h; cases h; rfl
  · intro s t v x a h; cases h; rfl
  · intro s u v x a h
    by_cases hu : u = 11
    · simp [meetEnv, hu] at h
    · simp only [meetEnv, hu, if_false] at h ⊢; cases h; rfl
  · intro s t u x a h; cases h; rfl
  · intro s m n a h; cases h; rfl

end CRU.Rrt.Throw
