import Verif.Rrt.PlanMore
import Verif.Rrt.BiModel
/-
  C39: soundness of the bidirectional planner.
-/
namespace CRU.Rrt

variable {V σ : Type}

/-- The callbacks that get mutable references to the trees do not change them. -/
def BiEnv.ReadOnly (e : BiEnv σ V) : Prop :=
  (∀ f, e.stateAdded = some f → ∀ s t i x, (f s t i x).1 = t) ∧
  (∀ f, e.bridgeCallback = some f → ∀ s a i b j x, (f s a i b j x).1 = (a, b))

/-- Some call of the propagation function for the tree on that side returned `b` as a child of `a`. -/
def ProducedOn (e : BiEnv σ V) (side : Side) (a b : V) : Prop := ∃ s q x, ParentIn q (e.propagate s q x side).1 a b

/-- The states-connected check answered yes for start-tree state `a` and goal-tree state `b`, asked from one of the two
sides. -/
def Joined (e : BiEnv σ V) (a b : V) : Prop :=
  (∃ s, (e.connected s a b .start).1 = true) ∨ (∃ s, (e.connected s b a .goal).1 = true)

/-! ### Trees by side -/

@[simp] theorem tree_setTree_same (s : BiSt σ V) (x : Side) (t : Tree V) : (s.setTree x t).tree x = t := by cases x <;> rfl
@[simp] theorem tree_setTree_other (s : BiSt σ V) (x : Side) (t : Tree V) :
    (s.setTree x t).tree x.other = s.tree x.other := by cases x <;> rfl
@[simp] theorem setTree_bridges (s : BiSt σ V) (x : Side) (t : Tree V) : (s.setTree x t).bridges = s.bridges := by
  cases x <;> rfl
@[simp] theorem setTree_active (s : BiSt σ V) (x : Side) (t : Tree V) : (s.setTree x t).active = s.active := by
  cases x <;> rfl
@[simp] theorem setTree_stats (s : BiSt σ V) (x : Side) (t : Tree V) : (s.setTree x t).stats = s.stats := by
  cases x <;> rfl

theorem side_cases (x y : Side) : y = x ∨ y = x.other := by cases x <;> cases y <;> simp [Side.other]

/-! ### Invariant -/

/-- What holds throughout planning from the trees `t₀`. -/
structure BInv (e : BiEnv σ V) (t₀ : Side → Tree V) (s : BiSt σ V) : Prop where
  linked : ∀ x, Linked (s.tree x)
  once : ∀ x, ChildrenOnce (t₀ x) → ChildrenOnce (s.tree x)
  grown : ∀ x, GrownFrom (ProducedOn e x) (t₀ x) (s.tree x)
  bridges : ∀ br ∈ s.bridges, ∃ n m, getNode s.start br.1 = .ok n ∧ getNode s.goal br.2 = .ok m ∧ Joined e n.value m.value

theorem BInv.withEnv {e : BiEnv σ V} {t₀ : Side → Tree V} {s s' : BiSt σ V} (h : BInv e t₀ s) (h1 : s'.start = s.start)
    (h2 : s'.goal = s.goal) (h3 : s'.bridges = s.bridges) : BInv e t₀ s' := by
  have ht : ∀ x, s'.tree x = s.tree x := by intro x; cases x <;> simp [BiSt.tree, h1, h2]
  exact ⟨fun x => by rw [ht]; exact h.linked x, fun x => by rw [ht]; exact h.once x, fun x => by rw [ht]; exact h.grown x,
    by rw [h1, h2, h3]; exact h.bridges⟩

/-- Old nodes are found at the same index with the same state after an insertion. -/
theorem getNode_connect {t : Tree V} (hl : Linked t) {v : V} {parent : Int} {p : Node V} (hp : getNode t parent = .ok p)
    {g : Int} {n : Node V} (hn : getNode t g = .ok n) :
    ∃ m, getNode (addNodeAndConnect t v parent).1 g = .ok m ∧ m.value = n.value := by
  obtain ⟨h0, hp'⟩ := getNode_ok.1 hp
  have h1 : parent < (t.length : Int) := by have := lt_of_get hp'; omega
  obtain ⟨-, -, -, -, -, hold⟩ := C36_connect_partial t v parent h0 h1 hl
  obtain ⟨hg0, hn'⟩ := getNode_ok.1 hn
  obtain ⟨m, hm, hv, -⟩ := hold _ n hn'
  exact ⟨m, getNode_ok.2 ⟨hg0, hm⟩, hv⟩

theorem BInv.connect {e : BiEnv σ V} {t₀ : Side → Tree V} {s : BiSt σ V} (h : BInv e t₀ s) {side : Side} {v : V}
    {parent : Int} {p : Node V} (hp : getNode (s.tree side) parent = .ok p) (hr : ProducedOn e side p.value v) :
    BInv e t₀ (s.setTree side (addNodeAndConnect (s.tree side) v parent).1) := by
  obtain ⟨h0, hp'⟩ := getNode_ok.1 hp
  have h1 : parent < ((s.tree side).length : Int) := by have := lt_of_get hp'; omega
  obtain ⟨cl, co, -⟩ := C36_connect_partial (s.tree side) v parent h0 h1 (h.linked side)
  have cg := (h.grown side).connect (h.linked side) hp hr
  refine ⟨?_, ?_, ?_, ?_⟩
  · intro x
    rcases side_cases side x with rfl | rfl
    · rw [tree_setTree_same]; exact cl
    · rw [tree_setTree_other]; exact h.linked _
  · intro x hx
    rcases side_cases side x with rfl | rfl
    · rw [tree_setTree_same]; exact co (h.once _ hx)
    · rw [tree_setTree_other]; exact h.once _ hx
  · intro x
    rcases side_cases side x with rfl | rfl
    · rw [tree_setTree_same]; exact cg
    · rw [tree_setTree_other]; exact h.grown _
  · intro br hbr
    rw [setTree_bridges] at hbr
    obtain ⟨n, m, hn, hm, hj⟩ := h.bridges br hbr
    cases side with
    | start =>
      obtain ⟨n', hn', hv⟩ := getNode_connect (h.linked .start) (v := v) hp hn
      exact ⟨n', m, hn', hm, by rw [hv]; exact hj⟩
    | goal =>
      obtain ⟨m', hm', hv⟩ := getNode_connect (h.linked .goal) (v := v) hp hm
      exact ⟨n, m', hn, hm', by rw [hv]; exact hj⟩

theorem callBiStateAdded_tree {e : BiEnv σ V} (hro : e.ReadOnly) (s : σ) (t : Tree V) (i : Int) (x : Side) :
    (callBiStateAdded e s t i x).1 = t := by
  unfold callBiStateAdded
  cases h : e.stateAdded with
  | none => rfl
  | some f => exact hro.1 f h _ _ _ _

theorem callBridge_same {e : BiEnv σ V} (hro : e.ReadOnly) (s : BiSt σ V) (br : Int × Int) :
    (callBridge e s br).start = s.start ∧ (callBridge e s br).goal = s.goal ∧ (callBridge e s br).bridges = s.bridges ∧
    (callBridge e s br).active = s.active ∧ (callBridge e s br).stats = s.stats := by
  unfold callBridge
  cases h : e.bridgeCallback with
  | none => exact ⟨rfl, rfl, rfl, rfl, rfl⟩
  | some f =>
    have := hro.2 f h s.env s.start br.1 s.goal br.2 s.active
    refine ⟨?_, ?_, rfl, rfl, rfl⟩ <;> simp [this]

/-- The test for a bridge changes no tree, and a recorded bridge passed the check. -/
theorem tryBridge_inv {e : BiEnv σ V} (hro : e.ReadOnly) {t₀ : Side → Tree V} {s : BiSt σ V} (hi : BInv e t₀ s)
    {ts : Bool} {targetIdx : Int} {target : V} {newIdx : Int} {n : Node V}
    (hn : getNode (s.tree s.active) newIdx = .ok n)
    (ht : ts = true → ∃ m, getNode (s.tree s.active.other) targetIdx = .ok m ∧ m.value = target) :
    BInv e t₀ (tryBridge e ts targetIdx target newIdx s).1 ∧
    (tryBridge e ts targetIdx target newIdx s).2 = none ∧
    (tryBridge e ts targetIdx target newIdx s).1.start = s.start ∧
    (tryBridge e ts targetIdx target newIdx s).1.goal = s.goal ∧
    (tryBridge e ts targetIdx target newIdx s).1.active = s.active ∧
    (tryBridge e ts targetIdx target newIdx s).1.stats = s.stats := by
  unfold tryBridge
  cases ts with
  | false => exact ⟨hi, rfl, rfl, rfl, rfl, rfl⟩
  | true =>
    rw [if_pos rfl, hn]
    dsimp only
    obtain ⟨m, hm, hv⟩ := ht rfl
    cases hc : e.connected s.env n.value target s.active with
    | mk b s1 =>
      cases b
      · exact ⟨hi.withEnv rfl rfl rfl, rfl, rfl, rfl, rfl, rfl⟩
      · dsimp only
        have hn0 := (getNode_ok.1 hn).1
        have hm0 := (getNode_ok.1 hm).1
        have hbr : ∃ br, (if s.active = .start then goalBridge newIdx targetIdx else goalBridge targetIdx newIdx) = .ok br ∧
            ∃ n m, getNode s.start br.1 = .ok n ∧ getNode s.goal br.2 = .ok m ∧ Joined e n.value m.value := by
          cases ha : s.active with
          | start =>
            rw [ha] at hn hm hc
            refine ⟨(newIdx, targetIdx), ?_, n, m, hn, hm, Or.inl ⟨s.env, ?_⟩⟩
            · rw [if_pos rfl]; unfold goalBridge; rw [if_neg (by omega), if_neg (by omega)]
            · rw [hv, hc]
          | goal =>
            rw [ha] at hn hm hc
            refine ⟨(targetIdx, newIdx), ?_, m, n, hm, hn, Or.inr ⟨s.env, ?_⟩⟩
            · rw [if_neg (by simp)]; unfold goalBridge; rw [if_neg (by omega), if_neg (by omega)]
            · rw [hv, hc]
        obtain ⟨br, hbr, hj⟩ := hbr
        rw [hbr]
        dsimp only
        obtain ⟨c1, c2, c3, c4, c5⟩ := callBridge_same hro { s with bridges := s.bridges ++ [br], env := s1 } br
        refine ⟨?_, rfl, c1, c2, c4, c5⟩
        have h' : BInv e t₀ { s with bridges := s.bridges ++ [br], env := s1 } := by
          refine ⟨fun x => hi.linked x, fun x => hi.once x, fun x => hi.grown x, ?_⟩
          intro b hb
          rcases List.mem_append.1 hb with h | h
          · exact hi.bridges b h
          · simp only [List.mem_singleton] at h
            subst h
            exact hj
        exact h'.withEnv c1 c2 c3

/-- The loop over a propagation keeps the invariant; it throws only `std::out_of_range` for a relative parent that is not
an earlier entry. -/
theorem addAllBi_inv {e : BiEnv σ V} (hro : e.ReadOnly) {t₀ : Side → Tree V} {q : V} {nearest : Int} {base : Nat}
    {side : Side} {ts : Bool} {targetIdx : Int} {target : V}
    {all : Propagation V} (hall : ∃ s x, (e.propagate s q x side).1 = all) (ps : Propagation V) :
    ∀ (done : Propagation V) (mapping : List Int) (s : BiSt σ V), all = done ++ ps → BInv e t₀ s → s.active = side →
      Mid q nearest done base mapping (s.tree side) →
      (ts = true → ∃ m, getNode (s.tree side.other) targetIdx = .ok m ∧ m.value = target) →
      BInv e t₀ (addAllBi e ts targetIdx target nearest ps mapping s).1 ∧
      (addAllBi e ts targetIdx target nearest ps mapping s).1.stats = s.stats ∧
      (addAllBi e ts targetIdx target nearest ps mapping s).1.active = side ∧
      ((addAllBi e ts targetIdx target nearest ps mapping s).2 = none ∨
        (addAllBi e ts targetIdx target nearest ps mapping s).2 = some .outOfRange ∧
          ∃ (k : Nat) (v : V) (rel : Int), all[k]? = some (v, rel) ∧ (k : Int) ≤ rel) := by
  induction ps with
  | nil =>
    intro done mapping s _ hi ha _ _
    exact ⟨hi, rfl, ha, Or.inl rfl⟩
  | cons x ps ih =>
    intro done mapping s hs hi ha hm ht
    obtain ⟨v, rel⟩ := x
    subst ha
    rcases addPropagated_spec hm (hi.linked s.active) v rel ps with ⟨hbad, heq⟩ | ⟨hrel, parent, p, hp, heq, hpar, hm'⟩
    · have : addAllBi e ts targetIdx target nearest ((v, rel) :: ps) mapping s =
          (s.setTree s.active (s.tree s.active), some .outOfRange) := by
        unfold addAllBi; rw [heq]
      rw [this]
      refine ⟨?_, by simp, by simp, Or.inr ⟨rfl, done.length, v, rel, by rw [hs]; simp, hbad⟩⟩
      refine hi.withEnv ?_ ?_ (by simp)
      · cases ha : s.active <;> simp [BiSt.setTree, BiSt.tree]
      · cases ha : s.active <;> simp [BiSt.setTree, BiSt.tree]
    · obtain ⟨h0, hp'⟩ := getNode_ok.1 hp
      have h1 : parent < ((s.tree s.active).length : Int) := by have := lt_of_get hp'; omega
      obtain ⟨cl, co, -, clen, cnew, -⟩ := C36_connect_partial (s.tree s.active) v parent h0 h1 (hi.linked _)
      have hprod : ProducedOn e s.active p.value v := by
        obtain ⟨s0, x0, h⟩ := hall
        exact ⟨s0, q, x0, by rw [h, hs]; exact hpar⟩
      have hi1 := hi.connect (v := v) hp hprod
      have hnode : getNode (addNodeAndConnect (s.tree s.active) v parent).1 ((base + done.length : Nat) : Int) =
          .ok ⟨v, parent, []⟩ := getNode_nat (by rw [← hm.len]; exact cnew)
      unfold addAllBi
      rw [heq]
      dsimp only
      rw [callBiStateAdded_tree hro]
      have hi2 : BInv e t₀ { s.setTree s.active (addNodeAndConnect (s.tree s.active) v parent).1 with
          env := (callBiStateAdded e s.env (addNodeAndConnect (s.tree s.active) v parent).1
            ((base + done.length : Nat) : Int) s.active).2 } := hi1.withEnv rfl rfl rfl
      have hact : ({ s.setTree s.active (addNodeAndConnect (s.tree s.active) v parent).1 with
          env := (callBiStateAdded e s.env (addNodeAndConnect (s.tree s.active) v parent).1
            ((base + done.length : Nat) : Int) s.active).2 } : BiSt σ V).active = s.active := by simp
      have htr : ∀ x, ({ s.setTree s.active (addNodeAndConnect (s.tree s.active) v parent).1 with
          env := (callBiStateAdded e s.env (addNodeAndConnect (s.tree s.active) v parent).1
            ((base + done.length : Nat) : Int) s.active).2 } : BiSt σ V).tree x =
          (s.setTree s.active (addNodeAndConnect (s.tree s.active) v parent).1).tree x := by
        intro x; cases x <;> rfl
      obtain ⟨b1, b2, b3, b4, b5, b6⟩ := tryBridge_inv hro hi2 (ts := ts) (targetIdx := targetIdx) (target := target)
        (newIdx := ((base + done.length : Nat) : Int)) (n := ⟨v, parent, []⟩)
        (by rw [hact, htr, tree_setTree_same]; exact hnode)
        (by rw [hact, htr, tree_setTree_other]; exact ht)
      generalize hG : tryBridge e ts targetIdx target ((base + done.length : Nat) : Int)
        { s.setTree s.active (addNodeAndConnect (s.tree s.active) v parent).1 with
          env := (callBiStateAdded e s.env (addNodeAndConnect (s.tree s.active) v parent).1
            ((base + done.length : Nat) : Int) s.active).2 } = G at b1 b2 b3 b4 b5 b6 ⊢
      obtain ⟨s2, o⟩ := G
      dsimp only at b1 b2 b3 b4 b5 b6
      subst b2
      dsimp only
      have htr2 : ∀ x, s2.tree x = (s.setTree s.active (addNodeAndConnect (s.tree s.active) v parent).1).tree x := by
        intro x
        rw [← htr]
        cases x
        · exact b3
        · exact b4
      have := ih (done ++ [(v, rel)]) (mapping ++ [((base + done.length : Nat) : Int)]) s2 (by simp [hs]) b1
        (by rw [b5]; simp) (by rw [htr2, tree_setTree_same]; exact hm') (by rw [htr2, tree_setTree_other]; exact ht)
      obtain ⟨c1, c2, c3, c4⟩ := this
      exact ⟨c1, by rw [c2, b6]; simp, c3, c4⟩

/-- Every iteration is counted for one side and as a success or a failure. -/
def BiStats.Balanced (s : BiStats) : Prop :=
  s.total = s.successful + s.failed ∧ s.total = s.startActive + s.goalActive ∧ s.swaps ≤ s.total

theorem chooseTarget_ok {e : BiEnv σ V} {ts : Bool} {s : BiSt σ V} {k : Int} {v : V} {s' : σ}
    (h : chooseTarget e ts s = .ok (k, v, s')) :
    ts = true → ∃ m, getNode (s.tree s.active.other) k = .ok m ∧ m.value = v := by
  rintro rfl
  unfold chooseTarget at h
  rw [if_pos rfl] at h
  dsimp only at h
  cases hn : getNode (s.tree s.active.other) (e.treeSample s.env (s.tree s.active.other) s.active).1 with
  | ok n =>
    rw [hn] at h
    simp only [Res.ok.injEq, Prod.mk.injEq] at h
    obtain ⟨rfl, rfl, -⟩ := h
    exact ⟨n, hn, rfl⟩
  | throw x => rw [hn] at h; cases h
  | ub => rw [hn] at h; cases h

theorem getNode_throw_only {t : Tree V} {i : Int} {x : Exc} (h : getNode t i = .throw x) : x = .outOfRange := by
  rcases Int.lt_or_le i 0 with h0 | h0
  · rw [getNode_throw (Or.inl h0)] at h; cases h; rfl
  · rcases Int.lt_or_le i (t.length : Int) with h1 | h1
    · obtain ⟨n, hn, -⟩ := getNode_in h0 h1
      rw [hn] at h; cases h
    · rw [getNode_throw (Or.inr h1)] at h; cases h; rfl

theorem chooseTarget_throw {e : BiEnv σ V} {ts : Bool} {s : BiSt σ V} :
    (∃ r, chooseTarget e ts s = .ok r) ∨ chooseTarget e ts s = .throw .outOfRange := by
  unfold chooseTarget
  cases ts with
  | false => exact Or.inl ⟨_, rfl⟩
  | true =>
    rw [if_pos rfl]
    dsimp only
    cases hn : getNode (s.tree s.active.other) (e.treeSample s.env (s.tree s.active.other) s.active).1 with
    | ok n => exact Or.inl ⟨_, rfl⟩
    | throw x => rw [getNode_throw_only hn]; exact Or.inr rfl
    | ub => exact absurd hn (getNode_ne_ub _ _)

theorem selectActive_inv {e : BiEnv σ V} {t₀ : Side → Tree V} {s : BiSt σ V} (h : BInv e t₀ s) :
    BInv e t₀ (selectActive e s) := h.withEnv rfl rfl rfl

theorem selectActive_stats {e : BiEnv σ V} {s : BiSt σ V} (h1 : s.stats.total = s.stats.successful + s.stats.failed)
    (h2 : s.stats.total = s.stats.startActive + s.stats.goalActive) (h3 : s.stats.swaps + 1 ≤ s.stats.total) :
    (selectActive e s).stats.Balanced := by
  unfold selectActive BiStats.Balanced
  dsimp only
  refine ⟨h1, h2, ?_⟩
  split <;> omega

/-- One iteration keeps the invariant, also when it throws. -/
theorem biStep_inv {e : BiEnv σ V} (hro : e.ReadOnly) {t₀ : Side → Tree V} {s : BiSt σ V} (hi : BInv e t₀ s) :
    BInv e t₀ (biStep e s).1 ∧ ((biStep e s).2 = none ∨ (biStep e s).2 = some .outOfRange) ∧
    ((biStep e s).2 = none → s.stats.Balanced → (biStep e s).1.stats.Balanced) := by
  have hcount : ∀ (side : Side) (st : BiStats), (countActive side st).startActive + (countActive side st).goalActive =
      st.startActive + st.goalActive + 1 ∧ (countActive side st).total = st.total ∧
      (countActive side st).successful = st.successful ∧ (countActive side st).failed = st.failed ∧
      (countActive side st).swaps = st.swaps := by
    intro side st
    cases side <;> simp [countActive] <;> omega
  obtain ⟨k1, k2, k3, k4, k5⟩ := hcount s.active s.stats
  unfold biStep
  dsimp only
  generalize hty : e.selectSample s.env s.start s.goal s.active = ty
  cases hct : chooseTarget e ty.1 { s with stats := countActive s.active s.stats, env := ty.2 } with
  | throw x =>
    rcases chooseTarget_throw (e := e) (ts := ty.1)
      (s := { s with stats := countActive s.active s.stats, env := ty.2 }) with ⟨r, h⟩ | h
    · rw [h] at hct; cases hct
    · rw [h] at hct; cases hct
      exact ⟨hi.withEnv rfl rfl rfl, Or.inr rfl, fun h => by cases h⟩
  | ub =>
    rcases chooseTarget_throw (e := e) (ts := ty.1)
      (s := { s with stats := countActive s.active s.stats, env := ty.2 }) with ⟨r, h⟩ | h
    · rw [h] at hct; cases hct
    · rw [h] at hct; cases hct
  | ok r =>
    obtain ⟨targetIdx, target, env1⟩ := r
    have htar := chooseTarget_ok hct
    dsimp only
    generalize hnn : e.nearest env1 (BiSt.tree { s with stats := countActive s.active s.stats } s.active) target
      s.active = nn
    cases hn : getNode (BiSt.tree { s with
        stats := { countActive s.active s.stats with total := (countActive s.active s.stats).total + 1 },
        env := nn.2 } s.active) nn.1 with
    | throw x =>
      rw [getNode_throw_only hn]
      exact ⟨hi.withEnv rfl rfl rfl, Or.inr rfl, fun h => by cases h⟩
    | ub => exact absurd hn (getNode_ne_ub _ _)
    | ok q =>
      dsimp only
      generalize hps : e.propagate nn.2 q.value target s.active = pr
      cases hpl : pr.1 with
      | nil =>
        refine ⟨selectActive_inv (hi.withEnv rfl rfl rfl), Or.inl rfl, fun _ hb => ?_⟩
        obtain ⟨b1, b2, b3⟩ := hb
        apply selectActive_stats <;> dsimp only <;> omega
      | cons x rest =>
        dsimp only
        have hside : ∀ (st : BiStats) (en : σ) (y : Side), BiSt.tree { s with stats := st, env := en } y = s.tree y := by
          intro st en y; cases y <;> rfl
        have hi' : BInv e t₀ { s with
            stats := { countActive s.active s.stats with
              total := (countActive s.active s.stats).total + 1,
              successful := (countActive s.active s.stats).successful + 1 },
            env := pr.2 } := hi.withEnv rfl rfl rfl
        obtain ⟨a1, a2, a3, a4⟩ := addAllBi_inv hro (t₀ := t₀) (q := q.value) (base := (s.tree s.active).length)
          (side := s.active) (ts := ty.1) (targetIdx := targetIdx) (target := target) (all := x :: rest) (nearest := nn.1)
          ⟨_, _, by rw [hps]; exact hpl⟩ (x :: rest) [] [] _ rfl hi' rfl
          (by rw [hside] at hn ⊢; exact Mid.start hn rfl) (by rw [hside] at htar ⊢; exact htar)
        generalize hG : addAllBi e ty.1 targetIdx target nn.1 (x :: rest) [] { s with
            stats := { countActive s.active s.stats with
              total := (countActive s.active s.stats).total + 1,
              successful := (countActive s.active s.stats).successful + 1 },
            env := pr.2 } = G at a1 a2 a3 a4
        obtain ⟨s2, o⟩ := G
        dsimp only at a1 a2 a3 a4
        rcases a4 with rfl | ⟨rfl, -⟩
        · refine ⟨selectActive_inv a1, Or.inl rfl, fun _ hb => ?_⟩
          obtain ⟨b1, b2, b3⟩ := hb
          apply selectActive_stats <;> rw [a2] <;> dsimp only <;> omega
        · exact ⟨a1, Or.inr rfl, fun h => by cases h⟩

theorem biLoop_inv {e : BiEnv σ V} (hro : e.ReadOnly) {t₀ : Side → Tree V} : ∀ (fuel : Nat) (s s' : BiSt σ V)
    (x : Option Exc), BInv e t₀ s → biLoop e fuel s = some (s', x) →
    BInv e t₀ s' ∧ (x = none ∨ x = some .outOfRange) ∧ (x = none → s.stats.Balanced → s'.stats.Balanced) := by
  intro fuel
  induction fuel with
  | zero => intro s s' x _ h; cases h
  | succ fuel ih =>
    intro s s' x hi h
    unfold biLoop at h
    cases ht : e.terminate s.env (s.start.length : Int) (s.goal.length : Int) with
    | mk b s1 =>
      rw [ht] at h
      cases b
      · dsimp only at h
        obtain ⟨hs, hx, hb⟩ := biStep_inv hro (s := { s with env := s1 }) (hi.withEnv rfl rfl rfl)
        cases hps : biStep e { s with env := s1 } with
        | mk s2 o =>
          rw [hps] at h hs hx hb
          cases o with
          | none =>
            obtain ⟨r1, r2, r3⟩ := ih _ _ _ hs h
            exact ⟨r1, r2, fun h0 h1 => r3 h0 (hb rfl h1)⟩
          | some y =>
            simp only [Option.some.injEq, Prod.mk.injEq] at h
            obtain ⟨rfl, rfl⟩ := h
            exact ⟨hs, hx, fun h => by cases h⟩
      · simp only [Option.some.injEq, Prod.mk.injEq] at h
        obtain ⟨rfl, rfl⟩ := h
        exact ⟨hi.withEnv rfl rfl rfl, Or.inl rfl, fun _ h => h⟩

theorem initialBridges_inv {e : BiEnv σ V} (hro : e.ReadOnly) {t₀ : Side → Tree V} : ∀ (fuel : Nat) (i j : Int)
    (s s' : BiSt σ V) (x : Option Exc), 0 ≤ i → 0 ≤ j → s.active = .start → BInv e t₀ s →
    initialBridges e fuel i j s = some (s', x) →
    BInv e t₀ s' ∧ s'.start = s.start ∧ s'.goal = s.goal ∧ s'.stats = s.stats ∧
      (x = none ∨ (x = some .badFunctionCall ∧ e.bridgeCallback = none)) := by
  intro fuel
  induction fuel with
  | zero => intro i j s s' x _ _ _ _ h; cases h
  | succ fuel ih =>
    intro i j s s' x hi0 hj0 ha hi h
    unfold initialBridges at h
    split at h
    · rename_i hlt
      split at h
      · rename_i hlt2
        obtain ⟨a, hna, -⟩ := getNode_in hi0 hlt
        obtain ⟨b, hnb, -⟩ := getNode_in hj0 hlt2
        rw [hna, hnb] at h
        dsimp only at h
        cases hc : e.connected s.env a.value b.value s.active with
        | mk c s1 =>
          rw [hc] at h
          cases c
          · exact ih i (j + 1) { s with env := s1 } s' x hi0 (by omega) ha (hi.withEnv rfl rfl rfl) h
          · dsimp only at h
            have hbr : goalBridge i j = .ok (i, j) := by
              unfold goalBridge; rw [if_neg (by omega), if_neg (by omega)]
            rw [hbr] at h
            dsimp only at h
            have hi' : BInv e t₀ { s with bridges := s.bridges ++ [(i, j)], env := s1 } := by
              refine ⟨fun y => hi.linked y, fun y => hi.once y, fun y => hi.grown y, ?_⟩
              intro br hb
              rcases List.mem_append.1 hb with h | h
              · exact hi.bridges br h
              · simp only [List.mem_singleton] at h
                subst h
                exact ⟨a, b, hna, hnb, Or.inl ⟨s.env, by rw [ha] at hc; rw [hc]⟩⟩
            cases hcb : e.bridgeCallback with
            | none =>
              rw [hcb] at h
              simp only [Option.some.injEq, Prod.mk.injEq] at h
              obtain ⟨rfl, rfl⟩ := h
              exact ⟨hi', rfl, rfl, rfl, Or.inr ⟨rfl, rfl⟩⟩
            | some f =>
              rw [hcb] at h
              dsimp only at h
              rw [hro.2 f hcb] at h
              obtain ⟨r1, r2, r3, r4, r5⟩ := ih i (j + 1) { s with
                  start := s.start, goal := s.goal, bridges := s.bridges ++ [(i, j)],
                  env := (f s1 s.start i s.goal j s.active).2 } s' x hi0 (by omega) ha (hi'.withEnv rfl rfl rfl) h
              exact ⟨r1, r2, r3, r4, by rw [hcb] at r5; exact r5⟩
      · exact ih (i + 1) 0 s s' x (by omega) (by omega) ha hi h
    · simp only [Option.some.injEq, Prod.mk.injEq] at h
      obtain ⟨rfl, rfl⟩ := h
      exact ⟨hi, rfl, rfl, rfl, Or.inl rfl⟩

/-- The given trees, by side. -/
def treesOf (start goal : Tree V) : Side → Tree V
  | .start => start
  | .goal => goal

theorem biRun_inv {e : BiEnv σ V} (hro : e.ReadOnly) {a b : Tree V} (ha : Linked a) (hb : Linked b) {fuel : Nat} {env : σ}
    {s' : BiSt σ V} {x : Option Exc} (h : biRun e fuel a b env = some (s', x)) :
    BInv e (treesOf a b) s' ∧ (x = none ∨ x = some .outOfRange ∨ (x = some .badFunctionCall ∧ e.bridgeCallback = none)) ∧
    (x = none → s'.stats.Balanced) := by
  have h0 : BInv e (treesOf a b) { start := a, goal := b, env := env } :=
    ⟨by intro y; cases y <;> assumption, by intro y h; cases y <;> exact h, by intro y; cases y <;> exact GrownFrom.refl _ _,
      by simp⟩
  unfold biRun at h
  cases hc : initialBridges e fuel 0 0 { start := a, goal := b, env := env } with
  | none => rw [hc] at h; cases h
  | some r =>
    obtain ⟨s1, o⟩ := r
    obtain ⟨i1, -, -, i4, i5⟩ := initialBridges_inv hro _ _ _ _ _ _ (by omega) (by omega) rfl h0 hc
    rw [hc] at h
    cases o with
    | none =>
      obtain ⟨r1, r2, r3⟩ := biLoop_inv hro _ _ _ _ i1 h
      exact ⟨r1, r2.elim Or.inl (fun h => Or.inr (Or.inl h)), fun h => r3 h (by rw [i4]; exact ⟨rfl, rfl, by simp⟩)⟩
    | some y =>
      simp only [Option.some.injEq, Prod.mk.injEq] at h
      obtain ⟨rfl, rfl⟩ := h
      exact ⟨i1, Or.inr (Or.inr (by simpa using i5)), fun h => by cases h⟩

/-! ### Extraction -/

theorem bridgePath_ok {start goal : Tree V} {fuel : Nat} {br : Int × Int} {p : List V}
    (h : bridgePath fuel start goal br = some (.ok p)) :
    ∃ ps pg, extractSolutionPath fuel start br.1 = some (.ok ps) ∧ extractSolutionPath fuel goal br.2 = some (.ok pg) ∧
      p = ps ++ pg.reverse := by
  unfold bridgePath at h
  cases hs : extractSolutionPath fuel start br.1 with
  | none => rw [hs] at h; cases h
  | some r =>
    rw [hs] at h
    cases r with
    | throw x => simp at h
    | ub => simp at h
    | ok ps =>
      dsimp only at h
      cases hg : extractSolutionPath fuel goal br.2 with
      | none => rw [hg] at h; cases h
      | some r =>
        rw [hg] at h
        cases r with
        | throw x => simp at h
        | ub => simp at h
        | ok pg =>
          simp only [Option.some.injEq, Res.ok.injEq] at h
          exact ⟨ps, pg, rfl, rfl, h.symm⟩

theorem bridgePaths_ok {start goal : Tree V} : ∀ {brs : List (Int × Int)} {fuel : Nat} {ps : List (List V)},
    bridgePaths fuel start goal brs = some (.ok ps) →
    ps.length = brs.length ∧ ∀ (k : Nat) (p : List V) (br : Int × Int), ps[k]? = some p → brs[k]? = some br →
      bridgePath fuel start goal br = some (.ok p) := by
  intro brs
  induction brs with
  | nil =>
    intro fuel ps h
    unfold bridgePaths at h
    simp only [Option.some.injEq, Res.ok.injEq] at h
    subst h
    exact ⟨rfl, by simp⟩
  | cons g gs ih =>
    intro fuel ps h
    unfold bridgePaths at h
    cases hp : bridgePath fuel start goal g with
    | none => rw [hp] at h; cases h
    | some r =>
      rw [hp] at h
      cases r with
      | throw x => simp at h
      | ub => simp at h
      | ok p =>
        dsimp only at h
        cases hps : bridgePaths fuel start goal gs with
        | none => rw [hps] at h; cases h
        | some r =>
          rw [hps] at h
          cases r with
          | throw x => simp at h
          | ub => simp at h
          | ok ps' =>
            simp only [Option.some.injEq, Res.ok.injEq] at h
            subst h
            obtain ⟨a, b⟩ := ih hps
            refine ⟨by simp [a], ?_⟩
            intro k p' g' h1 h2
            cases k with
            | zero => simp at h1 h2; subst h1; subst h2; exact hp
            | succ k => simp at h1 h2; exact b k p' g' h1 h2

theorem bridgePaths_normal {start goal : Tree V} (hls : Linked start) (hlg : Linked goal) {fuel : Nat} :
    ∀ {brs : List (Int × Int)} {r : Res (List (List V))},
    (∀ br ∈ brs, ∃ n m, getNode start br.1 = .ok n ∧ getNode goal br.2 = .ok m) →
    bridgePaths fuel start goal brs = some r → ∃ ps, r = .ok ps := by
  intro brs
  induction brs with
  | nil => intro r _ h; unfold bridgePaths at h; cases h; exact ⟨_, rfl⟩
  | cons br brs ih =>
    intro r hbrs h
    obtain ⟨n, m, hn, hm⟩ := hbrs br (by simp)
    unfold bridgePaths at h
    cases hp : bridgePath fuel start goal br with
    | none => rw [hp] at h; cases h
    | some q =>
      have hq : ∃ p, q = .ok p := by
        unfold bridgePath at hp
        cases hs : extractSolutionPath fuel start br.1 with
        | none => rw [hs] at hp; cases hp
        | some z =>
          obtain ⟨ps, rfl⟩ := extract_normal hls hn hs
          rw [hs] at hp
          dsimp only at hp
          cases hg : extractSolutionPath fuel goal br.2 with
          | none => rw [hg] at hp; cases hp
          | some z =>
            obtain ⟨pg, rfl⟩ := extract_normal hlg hm hg
            rw [hg] at hp
            simp only [Option.some.injEq] at hp
            exact ⟨_, hp.symm⟩
      obtain ⟨p, rfl⟩ := hq
      rw [hp] at h
      dsimp only at h
      cases hps : bridgePaths fuel start goal brs with
      | none => rw [hps] at h; cases h
      | some q =>
        obtain ⟨ps, rfl⟩ := ih (fun br hbr => hbrs br (by simp [hbr])) hps
        rw [hps] at h
        simp only [Option.some.injEq] at h
        exact ⟨_, h.symm⟩

theorem bimulti_cases {e : BiEnv σ V} {fuel : Nat} {a₀ b₀ a b : Tree V} {s s' : σ} {o : Res (BiResult V)}
    (h : biRRTPlanMultiPath e fuel a₀ b₀ s = some ((a, b, s'), o)) :
    ((a₀ = [] ∨ b₀ = []) ∧ a = a₀ ∧ b = b₀ ∧ o = .throw .invalidArgument) ∨
    (a₀ ≠ [] ∧ b₀ ≠ [] ∧ ∃ s2 x, biRun e fuel a₀ b₀ s = some (s2, x) ∧ s2.start = a ∧ s2.goal = b ∧
      ((∃ y, x = some y ∧ o = .throw y) ∨
       (x = none ∧ ∃ q, bridgePaths fuel a b s2.bridges = some q ∧
        ((∃ ps, q = .ok ps ∧ o = .ok ⟨ps, s2.stats, a.length + b.length, ps.length⟩) ∨
         (∃ y, q = .throw y ∧ o = .throw y) ∨ (q = .ub ∧ o = .ub))))) := by
  unfold biRRTPlanMultiPath at h
  split at h
  · rename_i he
    simp only [Option.some.injEq, Prod.mk.injEq] at h
    obtain ⟨⟨rfl, rfl, rfl⟩, rfl⟩ := h
    exact Or.inl ⟨Or.inl (by simpa using he), rfl, rfl, rfl⟩
  · rename_i he
    split at h
    · rename_i he2
      simp only [Option.some.injEq, Prod.mk.injEq] at h
      obtain ⟨⟨rfl, rfl, rfl⟩, rfl⟩ := h
      exact Or.inl ⟨Or.inr (by simpa using he2), rfl, rfl, rfl⟩
    · rename_i he2
      refine Or.inr ⟨by simpa using he, by simpa using he2, ?_⟩
      cases hr : biRun e fuel a₀ b₀ s with
      | none => rw [hr] at h; cases h
      | some r =>
        obtain ⟨s2, x⟩ := r
        rw [hr] at h
        refine ⟨s2, x, rfl, ?_⟩
        cases x with
        | some y =>
          simp only [Option.some.injEq, Prod.mk.injEq] at h
          obtain ⟨⟨rfl, rfl, rfl⟩, rfl⟩ := h
          exact ⟨rfl, rfl, Or.inl ⟨y, rfl, rfl⟩⟩
        | none =>
          dsimp only at h
          cases hx : bridgePaths fuel s2.start s2.goal s2.bridges with
          | none => rw [hx] at h; cases h
          | some r =>
            rw [hx] at h
            cases r with
            | ok ps =>
              simp only [Option.some.injEq, Prod.mk.injEq] at h
              obtain ⟨⟨rfl, rfl, rfl⟩, rfl⟩ := h
              exact ⟨rfl, rfl, Or.inr ⟨rfl, _, hx, Or.inl ⟨ps, rfl, rfl⟩⟩⟩
            | throw y =>
              simp only [Option.some.injEq, Prod.mk.injEq] at h
              obtain ⟨⟨rfl, rfl, rfl⟩, rfl⟩ := h
              exact ⟨rfl, rfl, Or.inr ⟨rfl, _, hx, Or.inr (Or.inl ⟨y, rfl, rfl⟩)⟩⟩
            | ub =>
              simp only [Option.some.injEq, Prod.mk.injEq] at h
              obtain ⟨⟨rfl, rfl, rfl⟩, rfl⟩ := h
              exact ⟨rfl, rfl, Or.inr ⟨rfl, _, hx, Or.inr (Or.inr ⟨rfl, rfl⟩)⟩⟩

/-! ### Theorems -/

/-- C39. However planning ends, both trees keep valid linkage, given nodes keep states and parents, and every added node
hangs below an earlier node as the propagation function said for that side. -/
theorem C39_trees (e : BiEnv σ V) (hro : e.ReadOnly) (fuel : Nat) (a₀ b₀ a b : Tree V) (s s' : σ) (o : Res (BiResult V))
    (ha : Linked a₀) (hb : Linked b₀) (h : biRRTPlanMultiPath e fuel a₀ b₀ s = some ((a, b, s'), o)) :
    Linked a ∧ Linked b ∧ (ChildrenOnce a₀ → ChildrenOnce a) ∧ (ChildrenOnce b₀ → ChildrenOnce b) ∧
    GrownFrom (ProducedOn e .start) a₀ a ∧ GrownFrom (ProducedOn e .goal) b₀ b := by
  rcases bimulti_cases h with ⟨-, rfl, rfl, -⟩ | ⟨-, -, s2, x, hr, rfl, rfl, -⟩
  · exact ⟨ha, hb, id, id, GrownFrom.refl _ _, GrownFrom.refl _ _⟩
  · have := (biRun_inv hro ha hb hr).1
    exact ⟨this.linked .start, this.linked .goal, this.once .start, this.once .goal, this.grown .start, this.grown .goal⟩

/-- A list read backwards. -/
theorem Consecutive.reverse {R : V → V → Prop} {l : List V} (h : Consecutive R l) :
    Consecutive (fun a b => R b a) l.reverse := by
  intro i a b ha hb
  have h1 := lt_of_get hb
  simp at h1
  rw [List.getElem?_reverse (by omega)] at ha hb
  refine h (l.length - 1 - (i + 1)) b a hb ?_
  rw [← ha]; congr 1; omega

/-- C39. Every returned path is a chain from a root of the given start tree followed by a chain to a root of the given
goal tree; the joining pair passed the states-connected check; each step on the start side is an edge of the given start
tree or a propagation on that side, and each step on the goal side is one of the goal tree or its propagations, reversed. -/
theorem C39_sound (e : BiEnv σ V) (hro : e.ReadOnly) (fuel : Nat) (a₀ b₀ a b : Tree V) (s s' : σ) (r : BiResult V)
    (ha : Linked a₀) (hb : Linked b₀) (h : biRRTPlanMultiPath e fuel a₀ b₀ s = some ((a, b, s'), .ok r)) :
    ∀ p ∈ r.paths, ∃ ps pg, p = ps ++ pg ∧
      (∃ (i : Nat) (n : Node V), a₀[i]? = some n ∧ n.parent < 0 ∧ ps.head? = some n.value) ∧
      (∃ (i : Nat) (n : Node V), b₀[i]? = some n ∧ n.parent < 0 ∧ pg.getLast? = some n.value) ∧
      (∃ u v, ps.getLast? = some u ∧ pg.head? = some v ∧ Joined e u v) ∧
      Consecutive (fun x y => TreeEdge a₀ x y ∨ ProducedOn e .start x y) ps ∧
      Consecutive (fun x y => TreeEdge b₀ y x ∨ ProducedOn e .goal y x) pg := by
  rcases bimulti_cases h with ⟨-, -, -, h'⟩ | ⟨-, -, s2, x, hr, rfl, rfl, h'⟩
  · cases h'
  · rcases h' with ⟨y, -, h'⟩ | ⟨rfl, q, hx, ⟨ps, rfl, h'⟩ | ⟨y, -, h'⟩ | ⟨-, h'⟩⟩
    · cases h'
    · cases h'
      have hi := (biRun_inv hro ha hb hr).1
      obtain ⟨hlen, hps⟩ := bridgePaths_ok hx
      intro p hp
      obtain ⟨k, hk⟩ := List.getElem?_of_mem hp
      have hkl : k < s2.bridges.length := by have := lt_of_get hk; dsimp only at this; omega
      have hg : s2.bridges[k]? = some s2.bridges[k] := by simp [hkl]
      obtain ⟨qs, qg, e1, e2, rfl⟩ := bridgePath_ok (hps k p _ hk hg)
      obtain ⟨n', m', j1, j2, j3⟩ := hi.bridges _ (List.mem_of_getElem? hg)
      obtain ⟨is, -, -, hcs, hvs⟩ := extract_chain (hi.linked .start) e1
      obtain ⟨ig, -, -, hcg, hvg⟩ := extract_chain (hi.linked .goal) e2
      obtain ⟨⟨r1, n1, f1, f2, f3⟩, ⟨m1, f4, f5⟩, f6⟩ := hcs.facts hvs
      obtain ⟨⟨r2, n2, g1, g2, g3⟩, ⟨m2, g4, g5⟩, g6⟩ := hcg.facts hvg
      refine ⟨qs, qg.reverse, rfl, ?_, ?_, ?_, ?_, ?_⟩
      · obtain ⟨w, w1, w2, w3⟩ := (hi.grown .start).root f1 f2
        exact ⟨r1, w, w1, w2, by rw [f3, w3]⟩
      · obtain ⟨w, w1, w2, w3⟩ := (hi.grown .goal).root g1 g2
        exact ⟨r2, w, w1, w2, by rw [List.getLast?_reverse, g3, w3]⟩
      · have h1 := (getNode_ok.1 j1).2
        have h2 := (getNode_ok.1 j2).2
        have h1' : n' = m1 := by
          have : s2.tree .start = s2.start := rfl
          rw [this, h1] at f4; exact Option.some.inj f4
        have h2' : m' = m2 := by
          have : s2.tree .goal = s2.goal := rfl
          rw [this, h2] at g4; exact Option.some.inj g4
        subst h1' h2'
        exact ⟨_, _, f5, by rw [List.head?_reverse, g5], j3⟩
      · exact f6.imp fun x y hxy => (hi.grown .start).edge (hi.linked .start) hxy
      · exact g6.reverse.imp fun x y hxy => (hi.grown .goal).edge (hi.linked .goal) hxy
    · cases h'
    · cases h'

/-- C39. An empty tree is rejected; otherwise the only exceptions are `std::out_of_range`, from an index that does not
exist, and `std::bad_function_call`, from a missing bridge callback. -/
theorem C39_exceptions (e : BiEnv σ V) (hro : e.ReadOnly) (fuel : Nat) (a₀ b₀ a b : Tree V) (s s' : σ)
    (o : Res (BiResult V)) (ha : Linked a₀) (hb : Linked b₀)
    (h : biRRTPlanMultiPath e fuel a₀ b₀ s = some ((a, b, s'), o)) :
    (a₀ = [] ∨ b₀ = [] → o = .throw .invalidArgument) ∧
    (a₀ ≠ [] ∧ b₀ ≠ [] →
      (∃ r, o = .ok r ∧ r.stats.total = r.stats.successful + r.stats.failed ∧
        r.stats.total = r.stats.startActive + r.stats.goalActive ∧ r.stats.swaps ≤ r.stats.total ∧
        r.totalStates = a.length + b.length ∧ r.solutions = r.paths.length) ∨
      o = .throw .outOfRange ∨ (o = .throw .badFunctionCall ∧ e.bridgeCallback = none)) := by
  rcases bimulti_cases h with ⟨h0, -, -, h'⟩ | ⟨h0, h0', s2, x, hr, rfl, rfl, h'⟩
  · exact ⟨fun _ => h', fun h => absurd h0 (by simp [h.1, h.2])⟩
  · refine ⟨fun h => absurd h (by simp [h0, h0']), fun _ => ?_⟩
    obtain ⟨hi, hx, hbal⟩ := biRun_inv hro ha hb hr
    rcases h' with ⟨y, rfl, rfl⟩ | ⟨rfl, q, hq, h'⟩
    · rcases hx with h | h | ⟨h, hc⟩
      · cases h
      · cases h; exact Or.inr (Or.inl rfl)
      · cases h; exact Or.inr (Or.inr ⟨rfl, hc⟩)
    · obtain ⟨ps, rfl⟩ := bridgePaths_normal (hi.linked .start) (hi.linked .goal)
        (fun br hbr => by obtain ⟨n, m, h1, h2, -⟩ := hi.bridges br hbr; exact ⟨n, m, h1, h2⟩) hq
      obtain ⟨b1, b2, b3⟩ := hbal rfl
      rcases h' with ⟨ps', h1, rfl⟩ | ⟨y, h1, -⟩ | ⟨h1, -⟩
      · cases h1
        exact Or.inl ⟨_, rfl, b1, b2, b3, rfl, rfl⟩
      · cases h1
      · cases h1

end CRU.Rrt
