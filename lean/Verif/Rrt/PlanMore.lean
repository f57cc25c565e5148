import Verif.Rrt.Plan
/-
  C38: completeness of the returned solutions, statistics, termination, and the single-path planner.
-/
namespace CRU.Rrt

variable {V S σ : Type}

/-! ### Which solutions are returned -/

/-- Node `i` of `t` exists and its state satisfies `g`. -/
def acceptsAt (g : V → Bool) (t : Tree V) (i : Nat) : Bool := (t[i]?).any fun n => g n.value

/-- Indices below `m` of the nodes of `t` whose states satisfy `g`, in increasing order. -/
def goalNodes (g : V → Bool) (t : Tree V) (m : Nat) : List Int :=
  ((List.range m).filter (acceptsAt g t)).map fun i : Nat => (i : Int)

theorem goalNodes_succ (g : V → Bool) (t : Tree V) (m : Nat) :
    goalNodes g t (m + 1) = goalNodes g t m ++ (if acceptsAt g t m then [(m : Int)] else []) := by
  unfold goalNodes
  rw [List.range_succ, List.filter_append, List.map_append]
  congr 1
  cases h : acceptsAt g t m <;> simp [h]

theorem goalNodes_congr {g : V → Bool} {t t' : Tree V} {m : Nat} (h : ∀ i, i < m → acceptsAt g t i = acceptsAt g t' i) :
    goalNodes g t m = goalNodes g t' m := by
  unfold goalNodes
  congr 1
  apply List.filter_congr
  intro i hi
  exact h i (List.mem_range.1 hi)

theorem goalNodes_connect (g : V → Bool) {t : Tree V} (hl : Linked t) {v : V} {parent : Int} {p : Node V}
    (hp : getNode t parent = .ok p) :
    goalNodes g (addNodeAndConnect t v parent).1 (addNodeAndConnect t v parent).1.length =
      goalNodes g t t.length ++ (if g v then [(t.length : Int)] else []) := by
  obtain ⟨h0, hp'⟩ := getNode_ok.1 hp
  have h1 : parent < (t.length : Int) := by have := lt_of_get hp'; omega
  obtain ⟨-, -, -, hlen, hnew, hold⟩ := C36_connect_partial t v parent h0 h1 hl
  rw [hlen, goalNodes_succ]
  congr 1
  · apply goalNodes_congr
    intro i hi
    obtain ⟨m, hm, hv, -⟩ := hold i t[i] (by simp [hi])
    simp [acceptsAt, hm, hi, hv]
  · simp [acceptsAt, hnew]

/-- The goal check answers by the state alone. -/
def Env.PureGoal (e : Env σ V S) (g : V → Bool) : Prop := ∀ s v, (e.goalReached s v).1 = g v

theorem addAll_goals {e : Env σ V S} (hro : e.ReadOnly) {g : V → Bool} (hg : e.PureGoal g) {q : V} {nearest : Int}
    {base : Nat} (ps : Propagation V) : ∀ (done : Propagation V) (mapping : List Int) (s : St σ V), Linked s.tree →
      Mid q nearest done base mapping s.tree → s.goals = goalNodes g s.tree s.tree.length →
      (addAll e nearest ps mapping s).1.goals =
        goalNodes g (addAll e nearest ps mapping s).1.tree (addAll e nearest ps mapping s).1.tree.length ∧
      (addAll e nearest ps mapping s).1.stats = s.stats := by
  induction ps with
  | nil => intro done mapping s _ _ h; exact ⟨h, rfl⟩
  | cons x ps ih =>
    intro done mapping s hl hm hgo
    obtain ⟨v, rel⟩ := x
    rcases addPropagated_spec hm hl v rel ps with ⟨hbad, heq⟩ | ⟨hrel, parent, p, hp, heq, hpar, hm'⟩
    · have : addAll e nearest ((v, rel) :: ps) mapping s = (s, some .outOfRange) := by
        unfold addAll; rw [heq]
      rw [this]
      exact ⟨hgo, rfl⟩
    · obtain ⟨h0, hp'⟩ := getNode_ok.1 hp
      have h1 : parent < (s.tree.length : Int) := by have := lt_of_get hp'; omega
      obtain ⟨cl, -, -, clen, cnew, -⟩ := C36_connect_partial s.tree v parent h0 h1 hl
      have hgc := goalNodes_connect g hl (v := v) hp
      have hnode : getNode (addNodeAndConnect s.tree v parent).1 ((base + done.length : Nat) : Int) =
          .ok ⟨v, parent, []⟩ := getNode_nat (by rw [← hm.len]; exact cnew)
      unfold addAll
      rw [heq]
      dsimp only
      rw [callStateAdded_tree hro.1, hnode]
      dsimp only
      have hb := hg (callStateAdded e.stateAdded s.env (addNodeAndConnect s.tree v parent).1
        ((base + done.length : Nat) : Int)).2 v
      cases hg' : e.goalReached (callStateAdded e.stateAdded s.env (addNodeAndConnect s.tree v parent).1
        ((base + done.length : Nat) : Int)).2 v with
      | mk b s2 =>
        rw [hg'] at hb
        dsimp only at hb
        rw [← hb] at hgc
        cases b
        · dsimp only
          exact ih (done ++ [(v, rel)]) _ { s with tree := (addNodeAndConnect s.tree v parent).1, env := s2 } cl hm'
            (by dsimp only; rw [hgc, hgo]; simp)
        · dsimp only
          rw [callStateAdded_tree hro.2]
          exact ih (done ++ [(v, rel)]) _ { s with
            tree := (addNodeAndConnect s.tree v parent).1,
            goals := s.goals ++ [((base + done.length : Nat) : Int)],
            env := (callStateAdded e.goalCallback s2 (addNodeAndConnect s.tree v parent).1
              ((base + done.length : Nat) : Int)).2 } cl hm'
            (by dsimp only; rw [hgc, hgo]; simp [hm.len])

/-- Samples are either successful or failed. -/
def Stats.Balanced (s : Stats) : Prop := s.total = s.successful + s.failed

theorem planStep_goals {e : Env σ V S} (hro : e.ReadOnly) {g : V → Bool} (hg : e.PureGoal g) {s : St σ V}
    (hl : Linked s.tree) (hgo : s.goals = goalNodes g s.tree s.tree.length) (hb : s.stats.Balanced) :
    (planStep e s).1.goals = goalNodes g (planStep e s).1.tree (planStep e s).1.tree.length ∧
    ((planStep e s).2 = none → (planStep e s).1.stats.Balanced) := by
  unfold planStep
  dsimp only
  cases hn : getNode s.tree (e.nearest (e.sample s.env).2 s.tree (e.sample s.env).1).1 with
  | ok q =>
    dsimp only
    cases hp : (e.propagate (e.nearest (e.sample s.env).2 s.tree (e.sample s.env).1).2 q.value (e.sample s.env).1).1 with
    | nil => exact ⟨hgo, fun _ => by simp only [Stats.Balanced] at hb ⊢; omega⟩
    | cons x rest =>
      obtain ⟨a, b⟩ := addAll_goals hro hg (q := q.value) (base := s.tree.length) (x :: rest) [] []
        { s with
          stats := { total := s.stats.total + 1, successful := s.stats.successful + 1, failed := s.stats.failed },
          env := (e.propagate (e.nearest (e.sample s.env).2 s.tree (e.sample s.env).1).2 q.value (e.sample s.env).1).2 }
        hl (Mid.start hn rfl) hgo
      refine ⟨a, fun _ => ?_⟩
      dsimp only at b ⊢
      rw [b]
      simp only [Stats.Balanced] at hb ⊢; omega
  | throw x => exact ⟨hgo, fun h => by cases h⟩
  | ub => exact absurd hn (getNode_ne_ub _ _)

theorem planLoop_goals {e : Env σ V S} (hro : e.ReadOnly) {g : V → Bool} (hg : e.PureGoal g) {t₀ : Tree V} :
    ∀ (fuel : Nat) (s s' : St σ V), Inv e t₀ s → s.goals = goalNodes g s.tree s.tree.length → s.stats.Balanced →
      planLoop e fuel s = some (s', none) →
      s'.goals = goalNodes g s'.tree s'.tree.length ∧ s'.stats.Balanced := by
  intro fuel
  induction fuel with
  | zero => intro s s' _ _ _ h; cases h
  | succ fuel ih =>
    intro s s' hi hgo hb h
    unfold planLoop at h
    cases ht : e.terminate s.env (s.tree.length : Int) with
    | mk b s1 =>
      rw [ht] at h
      cases b
      · dsimp only at h
        have hi' : Inv e t₀ { s with env := s1 } := hi.withEnv rfl rfl
        have h1 := (planStep_inv hro hi').1
        obtain ⟨h2, h3⟩ := planStep_goals hro hg hi'.linked hgo hb
        cases hps : planStep e { s with env := s1 } with
        | mk s2 o =>
          rw [hps] at h h1 h2 h3
          cases o with
          | none => exact ih _ _ h1 h2 (h3 rfl) h
          | some y => simp at h
      · simp only [Option.some.injEq, Prod.mk.injEq, and_true] at h
        subst h
        exact ⟨hgo, hb⟩

theorem initialCheck_goals {e : Env σ V S} (hro : e.ReadOnly) {g : V → Bool} (hg : e.PureGoal g) :
    ∀ (fuel idx : Nat) (s s' : St σ V), idx ≤ s.tree.length → s.goals = goalNodes g s.tree idx →
      initialCheck e fuel (idx : Int) s = some (s', none) →
      s'.goals = goalNodes g s.tree s.tree.length ∧ s'.stats = s.stats ∧ s'.tree = s.tree := by
  intro fuel
  induction fuel with
  | zero => intro idx s s' _ _ h; cases h
  | succ fuel ih =>
    intro idx s s' hle hgo h
    unfold initialCheck at h
    split at h
    · rename_i hlt
      obtain ⟨n, hn, hn'⟩ := getNode_in (t := s.tree) (i := (idx : Int)) (by omega) hlt
      rw [hn] at h
      have hacc : acceptsAt g s.tree idx = g n.value := by
        simp at hn'; simp [acceptsAt, hn']
      have hs := goalNodes_succ g s.tree idx
      rw [hacc] at hs
      dsimp only at h
      have hb := hg s.env n.value
      cases hgr : e.goalReached s.env n.value with
      | mk b s1 =>
        rw [hgr] at h hb
        dsimp only at hb
        rw [← hb] at hs
        have hcast : ((idx : Int) + 1) = ((idx + 1 : Nat) : Int) := by omega
        rw [hcast] at h
        cases b
        · exact ih (idx + 1) { s with env := s1 } s' (by dsimp only; omega) (by dsimp only; rw [hs, hgo]; simp) h
        · dsimp only at h
          cases hcb : e.goalCallback with
          | none => rw [hcb] at h; simp at h
          | some f =>
            rw [hcb] at h
            dsimp only at h
            rw [hro.2 f hcb] at h
            exact ih (idx + 1) { s with tree := s.tree, goals := s.goals ++ [(idx : Int)], env := (f s1 s.tree idx).2 } s'
              (by dsimp only; omega) (by dsimp only; rw [hs, hgo]; simp) h
    · rename_i hge
      simp only [Option.some.injEq, Prod.mk.injEq, and_true] at h
      subst h
      have : idx = s.tree.length := by omega
      subst this
      exact ⟨hgo, rfl, rfl⟩

/-- C38. With a goal check that depends on the state only, the returned paths are exactly those to the nodes of the final
tree whose states satisfy it, one path per node in order of index; the counters add up. -/
theorem C38_all_goals (e : Env σ V S) (hro : e.ReadOnly) (g : V → Bool) (hg : e.PureGoal g) (fuel : Nat)
    (t₀ t : Tree V) (s s' : σ) (r : Result V) (hl : Linked t₀)
    (h : rrtPlanMultiPath e fuel t₀ s = some ((t, s'), .ok r)) :
    r.paths.length = (goalNodes g t t.length).length ∧
    (∀ (k : Nat) (p : List V) (i : Int), r.paths[k]? = some p → (goalNodes g t t.length)[k]? = some i →
      ∃ idxs, RootChain t idxs i.toNat ∧ ValuesAt t idxs p) ∧
    r.stats.total = r.stats.successful + r.stats.failed ∧ r.totalStates = t.length ∧ r.solutions = r.paths.length := by
  rcases multi_cases h with ⟨-, -, h'⟩ | ⟨-, s2, x, hr, rfl, h'⟩
  · cases h'
  · rcases h' with ⟨y, -, h'⟩ | ⟨rfl, ⟨ps, hx, h'⟩ | ⟨y, -, h'⟩ | ⟨-, h'⟩⟩
    · cases h'
    · cases h'
      have hi := (rrtRun_inv hro hl hr).1
      have hgs : s2.goals = goalNodes g s2.tree s2.tree.length ∧ s2.stats.Balanced := by
        have h0 : Inv e t₀ { tree := t₀, env := s } := ⟨hl, id, GrownFrom.refl _ _, by simp⟩
        unfold rrtRun at hr
        cases hc : initialCheck e fuel 0 { tree := t₀, env := s } with
        | none => rw [hc] at hr; cases hr
        | some q =>
          obtain ⟨s1, o⟩ := q
          rw [hc] at hr
          cases o with
          | none =>
            obtain ⟨a, b, -⟩ := initialCheck_inv hro _ _ _ _ _ (by omega) h0 hc
            obtain ⟨c, d, f⟩ := initialCheck_goals hro hg fuel 0 _ _ (by simp) (by simp [goalNodes]) hc
            exact planLoop_goals hro hg _ _ _ a (by rw [b]; exact c) (by rw [d]; rfl) hr
          | some y => simp at hr
      obtain ⟨hlen, hps⟩ := extractPaths_ok hx
      refine ⟨by rw [← hgs.1]; exact hlen, ?_, hgs.2, rfl, rfl⟩
      intro k p i hk hik
      rw [← hgs.1] at hik
      obtain ⟨idxs, -, -, hc, hv⟩ := extract_chain hi.linked (hps k p i hk hik)
      exact ⟨idxs, hc, hv⟩
    · cases h'
    · cases h'

/-! ### Termination -/

/-- The termination check eventually answers yes: some measure of the environment drops at every call that answers no and
is not raised by the other functions. -/
structure Env.Bounded (e : Env σ V S) (rank : σ → Nat) : Prop where
  sample : ∀ s, rank (e.sample s).2 ≤ rank s
  nearest : ∀ s t x, rank (e.nearest s t x).2 ≤ rank s
  propagate : ∀ s q x, rank (e.propagate s q x).2 ≤ rank s
  stateAdded : ∀ f, e.stateAdded = some f → ∀ s t i, rank (f s t i).2 ≤ rank s
  goalReached : ∀ s v, rank (e.goalReached s v).2 ≤ rank s
  goalCallback : ∀ f, e.goalCallback = some f → ∀ s t i, rank (f s t i).2 ≤ rank s
  terminate : ∀ s n, (e.terminate s n).1 = false → rank (e.terminate s n).2 < rank s

/-- The nearest neighbour function answers with an existing node and propagations list parents before children. -/
structure Env.WellFormed (e : Env σ V S) : Prop where
  nearest : ∀ s t x, t ≠ [] → 0 ≤ (e.nearest s t x).1 ∧ (e.nearest s t x).1 < (t.length : Int)
  propagate : ∀ s q x (k : Nat) (v : V) (rel : Int), (e.propagate s q x).1[k]? = some (v, rel) → rel < k

theorem callStateAdded_rank {rank : σ → Nat} {cb : Option (σ → Tree V → Int → Tree V × σ)}
    (h : ∀ f, cb = some f → ∀ s t i, rank (f s t i).2 ≤ rank s) (s : σ) (t : Tree V) (i : Int) :
    rank (callStateAdded cb s t i).2 ≤ rank s := by
  unfold callStateAdded
  cases cb with
  | none => exact Nat.le_refl _
  | some f => exact h f rfl s t i

theorem addAll_rank {e : Env σ V S} {rank : σ → Nat} (hb : e.Bounded rank) (nearest : Int) (ps : Propagation V) :
    ∀ (mapping : List Int) (s : St σ V), rank (addAll e nearest ps mapping s).1.env ≤ rank s.env := by
  induction ps with
  | nil => intro mapping s; exact Nat.le_refl _
  | cons x ps ih =>
    intro mapping s
    obtain ⟨v, rel⟩ := x
    unfold addAll
    cases hadd : addPropagated s.tree nearest mapping v rel with
    | mk t1 o =>
      cases o with
      | throw x => exact Nat.le_refl _
      | ub => exact Nat.le_refl _
      | ok newIdx =>
        dsimp only
        have h1 := callStateAdded_rank hb.stateAdded s.env t1 newIdx
        cases hn : getNode (callStateAdded e.stateAdded s.env t1 newIdx).1 newIdx with
        | throw x => exact h1
        | ub => exact h1
        | ok n =>
          dsimp only
          have h2 := hb.goalReached (callStateAdded e.stateAdded s.env t1 newIdx).2 n.value
          cases hg : e.goalReached (callStateAdded e.stateAdded s.env t1 newIdx).2 n.value with
          | mk b s2 =>
            rw [hg] at h2
            cases b
            · exact Nat.le_trans (ih _ _) (Nat.le_trans h2 h1)
            · have h3 := callStateAdded_rank hb.goalCallback s2 (callStateAdded e.stateAdded s.env t1 newIdx).1 newIdx
              exact Nat.le_trans (ih _ _) (Nat.le_trans h3 (Nat.le_trans h2 h1))

theorem planStep_ok {e : Env σ V S} (hro : e.ReadOnly) (hw : e.WellFormed) {rank : σ → Nat} (hb : e.Bounded rank)
    {t₀ : Tree V} {s : St σ V} (hi : Inv e t₀ s) (hne : s.tree ≠ []) :
    ∃ s', planStep e s = (s', none) ∧ rank s'.env ≤ rank s.env ∧ s'.tree ≠ [] := by
  have hlen : ∀ s' : St σ V, Inv e s.tree s' → s'.tree ≠ [] := by
    intro s' h' h0
    have := h'.grown.length_le
    rw [h0] at this
    cases ht : s.tree with
    | nil => exact hne ht
    | cons _ _ => rw [ht] at this; simp at this
  have hi0 : Inv e s.tree { s with goals := [] } := ⟨hi.linked, id, GrownFrom.refl _ _, by simp⟩
  have hr1 := hb.sample s.env
  have hr2 := hb.nearest (e.sample s.env).2 s.tree (e.sample s.env).1
  obtain ⟨w1, w2⟩ := hw.nearest (e.sample s.env).2 s.tree (e.sample s.env).1 hne
  obtain ⟨q, hn, -⟩ := getNode_in w1 w2
  have hr3 := hb.propagate (e.nearest (e.sample s.env).2 s.tree (e.sample s.env).1).2 q.value (e.sample s.env).1
  have hw2 := hw.propagate (e.nearest (e.sample s.env).2 s.tree (e.sample s.env).1).2 q.value (e.sample s.env).1
  unfold planStep
  dsimp only
  rw [hn]
  dsimp only
  cases hp : (e.propagate (e.nearest (e.sample s.env).2 s.tree (e.sample s.env).1).2 q.value (e.sample s.env).1).1 with
  | nil => exact ⟨_, rfl, by dsimp only; omega, hne⟩
  | cons x rest =>
    obtain ⟨a, b⟩ := addAll_inv hro (t₀ := t₀) (q := q.value) (base := s.tree.length) ⟨_, _, hp⟩ (x :: rest) [] []
      { s with
        stats := { total := s.stats.total + 1, successful := s.stats.successful + 1, failed := s.stats.failed },
        env := (e.propagate (e.nearest (e.sample s.env).2 s.tree (e.sample s.env).1).2 q.value (e.sample s.env).1).2 }
      rfl (hi.withEnv rfl rfl) (Mid.start hn rfl)
    have hrk := addAll_rank hb (e.nearest (e.sample s.env).2 s.tree (e.sample s.env).1).1 (x :: rest) []
      { s with
        stats := { total := s.stats.total + 1, successful := s.stats.successful + 1, failed := s.stats.failed },
        env := (e.propagate (e.nearest (e.sample s.env).2 s.tree (e.sample s.env).1).2 q.value (e.sample s.env).1).2 }
    rcases b with ⟨b1, b2⟩ | ⟨-, k, v, rel, b3, b4⟩
    · refine ⟨_, Prod.ext rfl b1, Nat.le_trans hrk (Nat.le_trans hr3 (Nat.le_trans hr2 hr1)), ?_⟩
      intro h0
      rw [h0] at b2
      simp at b2
    · have := hw2 k v rel (by rw [hp]; exact b3)
      omega

theorem planLoop_returns {e : Env σ V S} (hro : e.ReadOnly) (hw : e.WellFormed) {rank : σ → Nat} (hb : e.Bounded rank)
    {t₀ : Tree V} : ∀ (k : Nat) (s : St σ V), rank s.env < k → Inv e t₀ s → s.tree ≠ [] →
    ∃ s', planLoop e k s = some (s', none) := by
  intro k
  induction k with
  | zero => intro s h; omega
  | succ k ih =>
    intro s hk hi hne
    unfold planLoop
    cases ht : e.terminate s.env (s.tree.length : Int) with
    | mk b s1 =>
      cases b
      · dsimp only
        have hlt := hb.terminate s.env (s.tree.length : Int) (by rw [ht])
        rw [ht] at hlt
        dsimp only at hlt
        have hi' : Inv e t₀ { s with env := s1 } := hi.withEnv rfl rfl
        obtain ⟨s2, h1, h2, h3⟩ := planStep_ok hro hw hb hi' hne
        have h4 := (planStep_inv hro hi').1
        rw [h1] at h4 ⊢
        exact ih s2 (by dsimp only at h2; omega) h4 h3
      · exact ⟨_, rfl⟩

theorem planLoop_mono {e : Env σ V S} : ∀ {fuel fuel' : Nat} {s : St σ V} {r},
    planLoop e fuel s = some r → fuel ≤ fuel' → planLoop e fuel' s = some r := by
  intro fuel
  induction fuel with
  | zero => intro f' s r h; cases h
  | succ fuel ih =>
    intro f' s r h hle
    obtain ⟨f, rfl⟩ : ∃ f, f' = f + 1 := ⟨f' - 1, by omega⟩
    unfold planLoop at h ⊢
    cases ht : e.terminate s.env (s.tree.length : Int) with
    | mk b s1 =>
      rw [ht] at h
      cases b
      · dsimp only at h ⊢
        cases hps : planStep e { s with env := s1 } with
        | mk s2 o =>
          rw [hps] at h
          cases o with
          | none => exact ih h (by omega)
          | some y => exact h
      · exact h

theorem initialCheck_returns {e : Env σ V S} (hro : e.ReadOnly) {rank : σ → Nat} (hb : e.Bounded rank) :
    ∀ (k idx : Nat) (s : St σ V), s.tree.length < idx + k → idx ≤ s.tree.length →
      (e.goalCallback ≠ none ∨ ∀ n ∈ s.tree, ¬ Accepted e n.value) →
      ∃ s', initialCheck e k (idx : Int) s = some (s', none) ∧ rank s'.env ≤ rank s.env := by
  intro k
  induction k with
  | zero => intro idx s h1 h2; omega
  | succ k ih =>
    intro idx s h1 h2 hcb
    unfold initialCheck
    by_cases hlt : (idx : Int) < (s.tree.length : Int)
    · rw [if_pos hlt]
      obtain ⟨n, hn, hn'⟩ := getNode_in (t := s.tree) (i := (idx : Int)) (by omega) hlt
      rw [hn]
      dsimp only
      have hrk := hb.goalReached s.env n.value
      have hcast : ((idx : Int) + 1) = ((idx + 1 : Nat) : Int) := by omega
      rw [hcast]
      cases hg : e.goalReached s.env n.value with
      | mk b s1 =>
        rw [hg] at hrk
        cases b
        · obtain ⟨s', h3, h4⟩ := ih (idx + 1) { s with env := s1 } (by dsimp only; omega) (by dsimp only; omega) hcb
          exact ⟨s', h3, Nat.le_trans h4 hrk⟩
        · dsimp only
          cases hc : e.goalCallback with
          | none =>
            exfalso
            rcases hcb with h | h
            · exact h hc
            · exact h n (List.mem_of_getElem? hn') ⟨_, by rw [hg]⟩
          | some f =>
            dsimp only
            rw [hro.2 f hc]
            obtain ⟨s', h3, h4⟩ := ih (idx + 1) { s with goals := s.goals ++ [(idx : Int)], env := (f s1 s.tree idx).2 }
              (by dsimp only; omega) (by dsimp only; omega) (Or.inl (by rw [hc]; simp))
            exact ⟨s', h3, Nat.le_trans h4 (Nat.le_trans (hb.goalCallback f hc _ _ _) hrk)⟩
    · rw [if_neg hlt]
      exact ⟨s, rfl, Nat.le_refl _⟩

theorem initialCheck_mono {e : Env σ V S} : ∀ {fuel fuel' : Nat} {idx : Int} {s : St σ V} {r},
    initialCheck e fuel idx s = some r → fuel ≤ fuel' → initialCheck e fuel' idx s = some r := by
  intro fuel
  induction fuel with
  | zero => intro f' idx s r h; cases h
  | succ fuel ih =>
    intro f' idx s r h hle
    obtain ⟨f, rfl⟩ : ∃ f, f' = f + 1 := ⟨f' - 1, by omega⟩
    unfold initialCheck at h ⊢
    split
    · rename_i hp
      rw [if_pos hp] at h
      cases hn : getNode s.tree idx with
      | throw x => rw [hn] at h; exact h
      | ub => rw [hn] at h; exact h
      | ok n =>
        rw [hn] at h
        dsimp only at h ⊢
        cases hg : e.goalReached s.env n.value with
        | mk b s1 =>
          rw [hg] at h
          cases b
          · exact ih (s := { s with env := s1 }) h (by omega)
          · dsimp only at h ⊢
            cases hc : e.goalCallback with
            | none => rw [hc] at h; exact h
            | some cb =>
              rw [hc] at h
              exact ih (s := { s with
                tree := (cb s1 s.tree idx).1, goals := s.goals ++ [idx], env := (cb s1 s.tree idx).2 }) h (by omega)
    · rename_i hp
      rw [if_neg hp] at h; exact h

theorem extractPaths_returns {t : Tree V} (hl : Linked t) {fuel : Nat} (hf : t.length < fuel) : ∀ {gs : List Int},
    (∀ g ∈ gs, ∃ n, getNode t g = .ok n) → ∃ ps, extractSolutionPaths fuel t gs = some (.ok ps) := by
  intro gs
  induction gs with
  | nil => intro _; exact ⟨[], rfl⟩
  | cons g gs ih =>
    intro h
    obtain ⟨n, hn⟩ := h g (by simp)
    obtain ⟨h0, hn'⟩ := getNode_ok.1 hn
    obtain ⟨idxs, vs, he, -, -⟩ := C37_extraction t hl g.toNat (lt_of_get hn') fuel hf
    rw [show ((g.toNat : Nat) : Int) = g by omega] at he
    obtain ⟨ps, hps⟩ := ih (fun g hg => h g (by simp [hg]))
    exact ⟨vs :: ps, by unfold extractSolutionPaths; rw [he]; dsimp only; rw [hps]⟩

/-- C38. Planning from a non-empty tree with valid linkage returns normally as soon as the termination check eventually
answers yes, if nearest neighbours exist, propagations list parents first, and a goal callback is supplied or no node of
the given tree is already at the goal. -/
theorem C38_returns (e : Env σ V S) (hro : e.ReadOnly) (hw : e.WellFormed) (rank : σ → Nat) (hb : e.Bounded rank)
    (t₀ : Tree V) (s : σ) (hl : Linked t₀) (hne : t₀ ≠ [])
    (hcb : e.goalCallback ≠ none ∨ ∀ n ∈ t₀, ¬ Accepted e n.value) :
    ∃ fuel t s' r, rrtPlanMultiPath e fuel t₀ s = some ((t, s'), .ok r) := by
  have h0 : Inv e t₀ { tree := t₀, env := s } := ⟨hl, id, GrownFrom.refl _ _, by simp⟩
  obtain ⟨s1, hc, hrk⟩ := initialCheck_returns hro hb (t₀.length + 1) 0 { tree := t₀, env := s } (by simp) (by simp) hcb
  obtain ⟨i1, ht1, -⟩ := initialCheck_inv hro _ _ _ _ _ (by omega) h0 hc
  obtain ⟨s2, hp⟩ := planLoop_returns hro hw hb (rank s + 1) s1 (by dsimp only at hrk; omega) i1 (by rw [ht1]; exact hne)
  obtain ⟨i2, -⟩ := planLoop_inv hro _ _ _ _ i1 hp
  let fuel := (t₀.length + 1) + (rank s + 1) + (s2.tree.length + 1)
  obtain ⟨ps, hps⟩ := extractPaths_returns i2.linked (fuel := fuel) (by omega) (gs := s2.goals)
    (fun g hg => by obtain ⟨n, hn, -⟩ := i2.goals g hg; exact ⟨n, hn⟩)
  have hrun : rrtRun e fuel t₀ s = some (s2, none) := by
    unfold rrtRun
    rw [show (0 : Int) = ((0 : Nat) : Int) from rfl, initialCheck_mono hc (by omega : t₀.length + 1 ≤ fuel)]
    exact planLoop_mono hp (by omega)
  refine ⟨fuel, s2.tree, s2.env, ⟨ps, s2.stats, s2.tree.length, ps.length⟩, ?_⟩
  unfold rrtPlanMultiPath
  have : t₀.isEmpty = false := by cases t₀ with
    | nil => exact absurd rfl hne
    | cons _ _ => rfl
  rw [this, hrun]
  dsimp only
  rw [hps]
  rfl

/-! ### Failures of the documented behaviour -/

/-- An environment for states on the integer line. -/
def lineEnv (cb : Option (Nat → Tree Int → Int → Tree Int × Nat)) (nn : Int) : Env Nat Int Int where
  sample s := (10, s)
  nearest s _ _ := (nn, s)
  propagate s q x := (if q < x then [(q + 1, -1), (q + 2, 0)] else [], s)
  stateAdded := none
  goalReached s v := (decide (v = 3), s)
  goalCallback := cb
  terminate s _ := (decide (s = 0), s - 1)

/-- C38 fails as stated: a default-constructed goal callback is not accepted when a node of the given tree already
satisfies the goal check; the planner throws `std::bad_function_call`. -/
theorem C38_false :
    rrtPlanMultiPath (lineEnv none 0) 5 [⟨3, -1, []⟩] 2 = some (([⟨3, -1, []⟩], 2), .throw .badFunctionCall) ∧
    (∃ r, rrtPlanMultiPath (lineEnv (some fun s t _ => (t, s)) 0) 5 [⟨3, -1, []⟩] 0 =
      some (([⟨3, -1, []⟩], 0), .ok r) ∧ r.paths = [[3]]) :=
  ⟨by rfl, ⟨_, rfl, rfl⟩⟩

/-- C38. The documentation says that a negative nearest neighbour index terminates planning; it throws
`std::out_of_range` instead, whatever else is supplied. -/
theorem C38_negative_neighbour (e : Env σ V S) (s : St σ V)
    (h : (e.nearest (e.sample s.env).2 s.tree (e.sample s.env).1).1 < 0) :
    (planStep e s).2 = some .outOfRange := by
  unfold planStep
  dsimp only
  rw [getNode_throw (Or.inl h)]

/-- The hypotheses of the C38 theorems are met by a planner that grows a tree and finds a path. -/
example : (lineEnv none 0).ReadOnly ∧ (lineEnv none 0).WellFormed ∧ (lineEnv none 0).Bounded id ∧
    (lineEnv none 0).PureGoal (fun v => decide (v = 3)) ∧ Linked [(⟨1, -1, []⟩ : Node Int)] ∧
    rrtPlanMultiPath (lineEnv none 0) 9 [⟨1, -1, []⟩] 1 =
      some (([⟨1, -1, [1]⟩, ⟨2, 0, [2]⟩, ⟨3, 1, []⟩], 0), .ok ⟨[[1, 2, 3]], ⟨1, 1, 0⟩, 3, 1⟩) := by
  refine ⟨⟨by simp [lineEnv], by simp [lineEnv]⟩, ⟨?_, ?_⟩, ⟨?_, ?_, ?_, ?_, ?_, ?_, ?_⟩, ?_, ?_, by rfl⟩
  · intro s t x h
    cases t with
    | nil => exact absurd rfl h
    | cons a b => simp [lineEnv]
  · intro s q x k v rel h
    simp only [lineEnv] at h
    split at h
    · match k, h with
      | 0, h => simp at h; omega
      | 1, h => simp at h; omega
      | k + 2, h => simp at h
    · simp at h
  · intro s; exact Nat.le_refl _
  · intro s _ _; exact Nat.le_refl _
  · intro s _ _; exact Nat.le_refl _
  · intro f hf; simp [lineEnv] at hf
  · intro s _; exact Nat.le_refl _
  · intro f hf; simp [lineEnv] at hf
  · intro s n h
    simp only [lineEnv, decide_eq_false_iff_not, id_eq] at h ⊢
    omega
  · intro s v; rfl
  · intro i n hn
    have := lt_of_get hn
    simp at this
    subst this
    simp at hn; subst hn
    exact ⟨by simp, by simp, by simp⟩

/-! ### Single path -/

theorem produced_single {e : Env σ V S} {a b : V} : Produced (singleEnv e) a b ↔ Produced e a b :=
  ⟨fun ⟨s, q, x, h⟩ => ⟨s.1, q, x, h⟩, fun ⟨s, q, x, h⟩ => ⟨(s, false), q, x, h⟩⟩

theorem accepted_single {e : Env σ V S} {v : V} : Accepted (singleEnv e) v ↔ Accepted e v :=
  ⟨fun ⟨s, h⟩ => ⟨s.1, h⟩, fun ⟨s, h⟩ => ⟨(s, false), h⟩⟩

theorem readOnly_single {e : Env σ V S} (h : e.ReadOnly) : (singleEnv e).ReadOnly := by
  constructor
  · intro f hf s t i
    simp only [singleEnv, Option.map_eq_some_iff] at hf
    obtain ⟨f', hf', rfl⟩ := hf
    exact h.1 f' hf' _ _ _
  · intro f hf s t i
    simp only [singleEnv, Option.some.injEq] at hf
    subst hf
    dsimp only
    cases hc : e.goalCallback with
    | none => rfl
    | some f' => exact h.2 f' hc _ _ _

theorem single_cases {e : Env σ V S} {fuel : Nat} {t₀ t : Tree V} {s s' : σ} {o : Res (List V × Stats)}
    (h : rrtPlanSinglePath e fuel t₀ s = some ((t, s'), o)) :
    ∃ s1 o', rrtPlanMultiPath (singleEnv e) fuel t₀ (s, false) = some ((t, s1), o') ∧
      ((∃ r, o' = .ok r ∧ ((∃ p ps, r.paths = p :: ps ∧ o = .ok (p, r.stats)) ∨ (r.paths = [] ∧ o = .ok ([], r.stats)))) ∨
       (∃ y, o' = .throw y ∧ o = .throw y) ∨ (o' = .ub ∧ o = .ub)) := by
  unfold rrtPlanSinglePath at h
  cases hm : rrtPlanMultiPath (singleEnv e) fuel t₀ (s, false) with
  | none => rw [hm] at h; cases h
  | some r =>
    obtain ⟨⟨t', s1⟩, o'⟩ := r
    rw [hm] at h
    cases o' with
    | ok r =>
      simp only [Option.some.injEq, Prod.mk.injEq] at h
      obtain ⟨⟨rfl, rfl⟩, rfl⟩ := h
      refine ⟨s1, _, rfl, Or.inl ⟨r, rfl, ?_⟩⟩
      cases hp : r.paths with
      | nil => exact Or.inr ⟨rfl, rfl⟩
      | cons p ps => exact Or.inl ⟨p, ps, rfl, rfl⟩
    | throw x =>
      simp only [Option.some.injEq, Prod.mk.injEq] at h
      obtain ⟨⟨rfl, rfl⟩, rfl⟩ := h
      exact ⟨s1, _, rfl, Or.inr (Or.inl ⟨x, rfl, rfl⟩)⟩
    | ub =>
      simp only [Option.some.injEq, Prod.mk.injEq] at h
      obtain ⟨⟨rfl, rfl⟩, rfl⟩ := h
      exact ⟨s1, _, rfl, Or.inr (Or.inr ⟨rfl, rfl⟩)⟩

/-- C38, single path. A non-empty result begins at a root of the given tree, ends in an accepted state and each step is an
edge of the given tree or was produced by the propagation function; the tree keeps valid linkage however planning ends. -/
theorem C38_single_sound (e : Env σ V S) (hro : e.ReadOnly) (fuel : Nat) (t₀ t : Tree V) (s s' : σ)
    (o : Res (List V × Stats)) (hl : Linked t₀) (h : rrtPlanSinglePath e fuel t₀ s = some ((t, s'), o)) :
    Linked t ∧ GrownFrom (Produced e) t₀ t ∧
    ∀ p st, o = .ok (p, st) → p ≠ [] →
      (∃ (i : Nat) (n : Node V), t₀[i]? = some n ∧ n.parent < 0 ∧ p.head? = some n.value) ∧
      (∃ v, p.getLast? = some v ∧ Accepted e v) ∧
      Consecutive (fun a b => TreeEdge t₀ a b ∨ Produced e a b) p := by
  obtain ⟨s1, o', hm, ho⟩ := single_cases h
  have hro' := readOnly_single hro
  obtain ⟨h1, -, h3⟩ := C38_tree _ hro' _ _ _ _ _ _ hl hm
  refine ⟨h1, h3.mono fun a b => produced_single.1, ?_⟩
  intro p st hp hne
  rcases ho with ⟨r, rfl, ⟨p', ps, hps, rfl⟩ | ⟨_, rfl⟩⟩ | ⟨y, rfl, rfl⟩ | ⟨rfl, rfl⟩
  · simp only [Res.ok.injEq, Prod.mk.injEq] at hp
    obtain ⟨rfl, -⟩ := hp
    obtain ⟨a, ⟨v, hv, hacc⟩, c⟩ := C38_sound _ hro' _ _ _ _ _ _ hl hm p' (by rw [hps]; simp)
    exact ⟨a, ⟨v, hv, accepted_single.1 hacc⟩, c.imp fun _ _ h => h.imp id produced_single.1⟩
  · simp only [Res.ok.injEq, Prod.mk.injEq] at hp
    exact absurd hp.1.symm hne
  · cases hp
  · cases hp

/-- C38, single path. Missing callbacks are accepted: `std::bad_function_call` is never thrown. -/
theorem C38_single_callbacks (e : Env σ V S) (hro : e.ReadOnly) (fuel : Nat) (t₀ t : Tree V) (s s' : σ)
    (o : Res (List V × Stats)) (hl : Linked t₀) (h : rrtPlanSinglePath e fuel t₀ s = some ((t, s'), o)) :
    o ≠ .throw .badFunctionCall := by
  obtain ⟨s1, o', hm, ho⟩ := single_cases h
  obtain ⟨h1, h2⟩ := C38_exceptions _ (readOnly_single hro) _ _ _ _ _ _ hl hm
  rintro rfl
  rcases ho with ⟨r, rfl, ⟨p', ps, hps, ho⟩ | ⟨_, ho⟩⟩ | ⟨y, rfl, ho⟩ | ⟨rfl, ho⟩
  · cases ho
  · cases ho
  · cases ho
    by_cases h0 : t₀ = []
    · have := h1 h0; cases this
    · rcases h2 h0 with ⟨r, h⟩ | h | ⟨-, h⟩
      · cases h
      · cases h
      · cases h
  · cases ho

/-- C38, single path. With a goal check that depends on the state only, the result is empty exactly when no node of the
final tree satisfies it; otherwise it is the path to the node of least index that does. -/
theorem C38_single_first (e : Env σ V S) (hro : e.ReadOnly) (g : V → Bool) (hg : e.PureGoal g) (fuel : Nat)
    (t₀ t : Tree V) (s s' : σ) (p : List V) (st : Stats) (hl : Linked t₀)
    (h : rrtPlanSinglePath e fuel t₀ s = some ((t, s'), .ok (p, st))) :
    (p = [] ∧ ∀ n ∈ t, g n.value = false) ∨
    (∃ (i : Nat) (idxs : List Nat), RootChain t idxs i ∧ ValuesAt t idxs p ∧ acceptsAt g t i = true ∧
      ∀ j, j < i → acceptsAt g t j = false) := by
  obtain ⟨s1, o', hm, ho⟩ := single_cases h
  have hg' : (singleEnv e).PureGoal g := fun s v => hg s.1 v
  rcases ho with ⟨r, rfl, ho⟩ | ⟨y, rfl, ho⟩ | ⟨rfl, ho⟩
  · obtain ⟨hlen, hch, -⟩ := C38_all_goals _ (readOnly_single hro) g hg' _ _ _ _ _ _ hl hm
    rcases ho with ⟨p', ps, hps, ho⟩ | ⟨hps, ho⟩
    · right
      simp only [Res.ok.injEq, Prod.mk.injEq] at ho
      obtain ⟨rfl, -⟩ := ho
      cases hgn : goalNodes g t t.length with
      | nil => rw [hgn, hps] at hlen; simp at hlen
      | cons i is =>
        obtain ⟨idxs, h1, h2⟩ := hch 0 p i (by rw [hps]; rfl) (by rw [hgn]; rfl)
        refine ⟨i.toNat, idxs, h1, h2, ?_⟩
        unfold goalNodes at hgn
        obtain ⟨j, js, hj, rfl, -⟩ := List.map_eq_cons_iff.1 hgn
        rw [List.filter_eq_cons_iff] at hj
        obtain ⟨l1, l2, hl1, hl2, hl3, -⟩ := hj
        simp only [Int.toNat_natCast]
        refine ⟨hl3, ?_⟩
        intro k hk
        have hmem : k ∈ l1 := by
          have hjl : j = l1.length := by
            have : (List.range t.length)[l1.length]? = some j := by rw [hl1]; simp
            have hlt := lt_of_get this
            simp at hlt
            rw [List.getElem?_range hlt] at this
            simpa using this.symm
          have : (List.range t.length)[k]? = l1[k]? := by rw [hl1, List.getElem?_append_left (by omega)]
          have hkt : k < t.length := by
            have : l1.length ≤ t.length := by
              have := congrArg List.length hl1
              simp at this; omega
            omega
          rw [List.getElem?_range hkt] at this
          exact List.mem_of_getElem? this.symm
        have := hl2 k hmem
        simpa using this
    · left
      simp only [Res.ok.injEq, Prod.mk.injEq] at ho
      refine ⟨ho.1, ?_⟩
      rw [hps] at hlen
      have hnil : goalNodes g t t.length = [] := List.eq_nil_of_length_eq_zero hlen.symm
      unfold goalNodes at hnil
      simp only [List.map_eq_nil_iff, List.filter_eq_nil_iff, List.mem_range] at hnil
      intro n hn
      obtain ⟨i, hi⟩ := List.getElem?_of_mem hn
      have := hnil i (lt_of_get hi)
      simp only [acceptsAt, hi, Option.any_some] at this
      simpa using this
  · cases ho
  · cases ho

/-- C38, single path. If a node of the given tree is already at the goal, no sample is drawn and the tree is returned as
it was given. -/
theorem C38_single_at_goal (e : Env σ V S) (hro : e.ReadOnly) (g : V → Bool) (hg : e.PureGoal g) (fuel : Nat)
    (t₀ t : Tree V) (s s' : σ) (p : List V) (st : Stats) (hl : Linked t₀) (hgoal : ∃ n ∈ t₀, g n.value = true)
    (h : rrtPlanSinglePath e fuel t₀ s = some ((t, s'), .ok (p, st))) : t = t₀ ∧ st.total = 0 := by
  obtain ⟨s1, o', hm, ho⟩ := single_cases h
  have hg' : (singleEnv e).PureGoal g := fun s v => hg s.1 v
  have hro' := readOnly_single hro
  rcases ho with ⟨r, rfl, ho⟩ | ⟨y, rfl, ho⟩ | ⟨rfl, ho⟩
  · have hst : st = r.stats := by
      rcases ho with ⟨_, _, _, ho⟩ | ⟨_, ho⟩ <;> · simp only [Res.ok.injEq, Prod.mk.injEq] at ho; exact ho.2
    rcases multi_cases hm with ⟨-, -, h'⟩ | ⟨-, s2, x, hr, rfl, h'⟩
    · cases h'
    · rcases h' with ⟨y, -, h'⟩ | ⟨rfl, ⟨ps, hx, h'⟩ | ⟨y, -, h'⟩ | ⟨-, h'⟩⟩
      · cases h'
      · cases h'
        dsimp only at hst
        -- the flag is set once a goal has been recorded
        have flag : ∀ (fuel : Nat) (idx : Int) (a b : St (σ × Bool) V), 0 ≤ idx → (a.goals ≠ [] → a.env.2 = true) →
            initialCheck (singleEnv e) fuel idx a = some (b, none) → (b.goals ≠ [] → b.env.2 = true) := by
          intro fuel
          induction fuel with
          | zero => intro idx a b _ _ h; cases h
          | succ fuel ih =>
            intro idx a b h0 hf h
            unfold initialCheck at h
            split at h
            · rename_i hlt
              obtain ⟨n, hn, -⟩ := getNode_in h0 hlt
              rw [hn] at h
              dsimp only at h
              cases hgr : (singleEnv e).goalReached a.env n.value with
              | mk b' s1' =>
                rw [hgr] at h
                have hs1 : s1'.2 = a.env.2 := by
                  have := congrArg (fun z => z.2.2) hgr
                  exact this.symm
                cases b'
                · exact ih (idx + 1) { a with env := s1' } b (by omega) (fun hne => by dsimp only; rw [hs1]; exact hf hne) h
                · refine ih _ _ b (by omega : (0 : Int) ≤ idx + 1) ?_ h
                  intro _
                  dsimp only
                  cases hc : e.goalCallback <;> rfl
            · simp only [Option.some.injEq, Prod.mk.injEq, and_true] at h
              subst h; exact hf
        unfold rrtRun at hr
        cases hc : initialCheck (singleEnv e) fuel 0 { tree := t₀, env := (s, false) } with
        | none => rw [hc] at hr; cases hr
        | some q =>
          obtain ⟨s3, o⟩ := q
          rw [hc] at hr
          cases o with
          | some y => simp at hr
          | none =>
            obtain ⟨c1, c2, c3⟩ := initialCheck_goals hro' hg' fuel 0 _ _ (by simp) (by simp [goalNodes]) hc
            have hne : s3.goals ≠ [] := by
              rw [c1]
              obtain ⟨n, hn, hgn⟩ := hgoal
              obtain ⟨i, hi⟩ := List.getElem?_of_mem hn
              intro hnil
              unfold goalNodes at hnil
              simp only [List.map_eq_nil_iff, List.filter_eq_nil_iff, List.mem_range] at hnil
              have := hnil i (lt_of_get hi)
              simp [acceptsAt, hi, hgn] at this
            have hflag := flag _ _ _ _ (by omega) (by simp) hc hne
            dsimp only at hr
            cases fuel with
            | zero => cases hc
            | succ fuel =>
              unfold planLoop at hr
              have hterm : (singleEnv e).terminate s3.env (s3.tree.length : Int) = (true, s3.env) := by
                simp [singleEnv, hflag]
              rw [hterm] at hr
              simp only [Option.some.injEq, Prod.mk.injEq, and_true] at hr
              subst hr
              exact ⟨c3, by rw [hst]; dsimp only; rw [c2]⟩
      · cases h'
      · cases h'
  · cases ho
  · cases ho

example : rrtPlanSinglePath (lineEnv none 0) 5 [⟨3, -1, []⟩] 2 =
    some (([⟨3, -1, []⟩], 2), .ok ([3], ⟨0, 0, 0⟩)) := by rfl

example : rrtPlanSinglePath (lineEnv none 0) 9 [⟨1, -1, []⟩] 7 =
    some (([⟨1, -1, [1]⟩, ⟨2, 0, [2]⟩, ⟨3, 1, []⟩], 6), .ok ([1, 2, 3], ⟨1, 1, 0⟩)) := by rfl

end CRU.Rrt
