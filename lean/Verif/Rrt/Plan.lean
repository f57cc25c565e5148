import Verif.Rrt.Tree
/-
  C38: soundness of the single-direction planner.
-/
namespace CRU.Rrt

variable {V S σ : Type}

/-- The callbacks that get a mutable reference to the tree do not change it. -/
def Env.ReadOnly (e : Env σ V S) : Prop :=
  (∀ f, e.stateAdded = some f → ∀ s t i, (f s t i).1 = t) ∧
  (∀ f, e.goalCallback = some f → ∀ s t i, (f s t i).1 = t)

/-- Some call of the propagation function, from some state towards some target, returned `b` as a child of `a`. -/
def Produced (e : Env σ V S) (a b : V) : Prop := ∃ s q x, ParentIn q (e.propagate s q x).1 a b

/-- The goal check answered yes for `v`. -/
def Accepted (e : Env σ V S) (v : V) : Prop := ∃ s, (e.goalReached s v).1 = true

/-- `b` hangs directly below `a` in `t`. -/
def TreeEdge (t : Tree V) (a b : V) : Prop :=
  ∃ (i j : Nat) (n m : Node V), t[i]? = some n ∧ t[j]? = some m ∧ m.parent = i ∧ n.value = a ∧ m.value = b

/-! ### Growth -/

theorem GrownFrom.refl (R : V → V → Prop) (t : Tree V) : GrownFrom R t t :=
  ⟨fun i n h => ⟨n, h, rfl, rfl⟩, fun i n hi h => absurd (lt_of_get h) (by omega)⟩

theorem GrownFrom.length_le {R : V → V → Prop} {t₀ t : Tree V} (h : GrownFrom R t₀ t) : t₀.length ≤ t.length := by
  rcases Nat.lt_or_ge t.length t₀.length with hlt | hge
  · obtain ⟨m, hm, -⟩ := h.old t.length t₀[t.length] (by simp [hlt])
    exact absurd (lt_of_get hm) (by omega)
  · exact hge

theorem GrownFrom.mono {R Q : V → V → Prop} {t₀ t : Tree V} (h : GrownFrom R t₀ t) (hRQ : ∀ a b, R a b → Q a b) :
    GrownFrom Q t₀ t :=
  ⟨h.old, fun i n hi hn => by
    obtain ⟨a, b, p, hp, hr⟩ := h.new i n hi hn
    exact ⟨a, b, p, hp, hRQ _ _ hr⟩⟩

theorem GrownFrom.connect {R : V → V → Prop} {t₀ t : Tree V} (h : GrownFrom R t₀ t) (hl : Linked t) {v : V} {parent : Int}
    {p : Node V} (hp : getNode t parent = .ok p) (hr : R p.value v) :
    GrownFrom R t₀ (addNodeAndConnect t v parent).1 := by
  obtain ⟨h0, hp'⟩ := getNode_ok.1 hp
  have h1 : parent < (t.length : Int) := by have := lt_of_get hp'; omega
  obtain ⟨-, -, -, hlen, hnew, hold⟩ := C36_connect_partial t v parent h0 h1 hl
  constructor
  · intro i n hn
    obtain ⟨m, hm, hv, hpar⟩ := h.old i n hn
    obtain ⟨m', hm', hv', hpar', -⟩ := hold i m hm
    exact ⟨m', hm', hv'.trans hv, hpar'.trans hpar⟩
  · intro i n hi hn
    have hlt := lt_of_get hn
    rw [hlen] at hlt
    by_cases hq : i = t.length
    · subst hq
      rw [hnew] at hn; cases hn
      obtain ⟨m, hm, hv, -⟩ := hold _ p hp'
      exact ⟨h0, by simpa using h1, m, hm, by rw [hv]; exact hr⟩
    · have hlt' : i < t.length := by omega
      have hti : t[i]? = some t[i] := by simp [hlt']
      obtain ⟨m, hm, hv, hpar, -⟩ := hold i _ hti
      rw [hm] at hn; cases hn
      obtain ⟨a, b, p', hp'', hr'⟩ := h.new i _ hi hti
      obtain ⟨m', hm', hv', -⟩ := hold _ p' hp''
      rw [hpar]
      exact ⟨a, b, m', hm', by rw [hv', hv]; exact hr'⟩

/-! ### One propagated state -/

/-- Progress through one propagation: `done` are the states already added, at consecutive indices from `base`. -/
structure Mid (q : V) (nearest : Int) (done : Propagation V) (base : Nat) (mapping : List Int) (t : Tree V) : Prop where
  len : t.length = base + done.length
  map : mapping = (List.range done.length).map (fun k : Nat => ((base + k : Nat) : Int))
  near : ∃ n, getNode t nearest = .ok n ∧ n.value = q
  vals : ∀ (k : Nat) (x : V × Int), done[k]? = some x → ∃ n, t[base + k]? = some n ∧ n.value = x.1

theorem Mid.start {q : V} {nearest : Int} {t : Tree V} {n : Node V} (h : getNode t nearest = .ok n) (hq : n.value = q) :
    Mid q nearest [] t.length [] t :=
  ⟨rfl, rfl, ⟨n, h, hq⟩, by simp⟩

theorem atInt_mapping {base n : Nat} {rel : Int} (h0 : 0 ≤ rel) :
    atInt ((List.range n).map (fun k : Nat => ((base + k : Nat) : Int))) rel =
      if rel < n then .ok ((base + rel.toNat : Nat) : Int) else .throw .outOfRange := by
  unfold atInt atChecked
  rw [if_neg (by omega), List.getElem?_map]
  by_cases h : rel < n
  · rw [if_pos h, List.getElem?_range (by omega)]; rfl
  · rw [if_neg h]
    have : (List.range n)[rel.toNat]? = none := by rw [List.getElem?_eq_none_iff]; simp; omega
    rw [this]; rfl

/-- Adding the next propagated state: either the relative parent is out of order and nothing changes, or the state is
added below the named parent. -/
theorem addPropagated_spec {q : V} {nearest : Int} {done : Propagation V} {base : Nat} {mapping : List Int} {t : Tree V}
    (hm : Mid q nearest done base mapping t) (hl : Linked t) (v : V) (rel : Int) (ps : Propagation V) :
    ((done.length : Int) ≤ rel ∧ addPropagated t nearest mapping v rel = (t, .throw .outOfRange)) ∨
    (rel < (done.length : Int) ∧ ∃ (parent : Int) (p : Node V), getNode t parent = .ok p ∧
      addPropagated t nearest mapping v rel = ((addNodeAndConnect t v parent).1, .ok ((base + done.length : Nat) : Int)) ∧
      ParentIn q (done ++ (v, rel) :: ps) p.value v ∧
      Mid q nearest (done ++ [(v, rel)]) base (mapping ++ [((base + done.length : Nat) : Int)]) (addNodeAndConnect t v parent).1) := by
  have finish : ∀ (parent : Int) (p : Node V), getNode t parent = .ok p →
      (addNodeAndConnect t v parent).2 = .ok ((base + done.length : Nat) : Int) ∧
      Mid q nearest (done ++ [(v, rel)]) base (mapping ++ [((base + done.length : Nat) : Int)])
        (addNodeAndConnect t v parent).1 := by
    intro parent p hp
    obtain ⟨h0, hp'⟩ := getNode_ok.1 hp
    have h1 : parent < (t.length : Int) := by have := lt_of_get hp'; omega
    obtain ⟨-, -, hret, hlen, hnew, hold⟩ := C36_connect_partial t v parent h0 h1 hl
    refine ⟨by rw [hret, hm.len], ?_, ?_, ?_, ?_⟩
    · rw [hlen, hm.len]; simp; omega
    · rw [hm.map]; simp [List.range_succ]
    · obtain ⟨n, hn, hv⟩ := hm.near
      obtain ⟨hn0, hn'⟩ := getNode_ok.1 hn
      obtain ⟨m, hmn, hv', -⟩ := hold _ n hn'
      exact ⟨m, getNode_ok.2 ⟨hn0, hmn⟩, hv'.trans hv⟩
    · intro k x hx
      by_cases hk : k < done.length
      · rw [List.getElem?_append_left hk] at hx
        obtain ⟨n, hn, hv⟩ := hm.vals k x hx
        obtain ⟨m, hmn, hv', -⟩ := hold _ n hn
        exact ⟨m, hmn, hv'.trans hv⟩
      · have hk' := lt_of_get hx
        simp at hk'
        have : k = done.length := by omega
        subst this
        rw [List.getElem?_append_right (Nat.le_refl _)] at hx
        simp at hx; subst hx
        exact ⟨⟨v, parent, []⟩, by rw [← hm.len]; exact hnew, rfl⟩
  have here : (done ++ (v, rel) :: ps)[done.length]? = some (v, rel) := by
    rw [List.getElem?_append_right (Nat.le_refl _)]; simp
  by_cases hrel : 0 ≤ rel
  · have hat := atInt_mapping (base := base) (n := done.length) hrel
    rw [← hm.map] at hat
    by_cases hlt : rel < (done.length : Int)
    · right
      rw [if_pos hlt] at hat
      have hd : done[rel.toNat]? = some done[rel.toNat] := by
        have : rel.toNat < done.length := by omega
        simp [this]
      obtain ⟨p, hp, hv⟩ := hm.vals _ _ hd
      have hpn : getNode t ((base + rel.toNat : Nat) : Int) = .ok p := getNode_nat hp
      obtain ⟨hf1, hf2⟩ := finish _ p hpn
      refine ⟨hlt, _, p, hpn, ?_, ?_, hf2⟩
      · unfold addPropagated
        rw [if_pos (by omega), hat]
        dsimp only
        rw [← hf1]
      · refine ⟨done.length, rel, here, Or.inr ⟨hrel, hlt, done[rel.toNat].2, ?_⟩⟩
        rw [List.getElem?_append_left (by omega), hd, hv]
    · left
      rw [if_neg hlt] at hat
      refine ⟨by omega, ?_⟩
      unfold addPropagated
      rw [if_pos (by omega), hat]
  · right
    obtain ⟨p, hp, hv⟩ := hm.near
    obtain ⟨hf1, hf2⟩ := finish _ p hp
    refine ⟨by omega, nearest, p, hp, ?_, ?_, hf2⟩
    · unfold addPropagated
      rw [if_neg (by omega)]
      dsimp only
      rw [← hf1]
    · exact ⟨done.length, rel, here, Or.inl ⟨by omega, hv⟩⟩

/-! ### Invariant of planning -/

/-- What holds throughout planning from tree `t₀`. -/
structure Inv (e : Env σ V S) (t₀ : Tree V) (s : St σ V) : Prop where
  linked : Linked s.tree
  once : ChildrenOnce t₀ → ChildrenOnce s.tree
  grown : GrownFrom (Produced e) t₀ s.tree
  goals : ∀ g ∈ s.goals, ∃ n, getNode s.tree g = .ok n ∧ Accepted e n.value

theorem callStateAdded_tree {cb : Option (σ → Tree V → Int → Tree V × σ)}
    (h : ∀ f, cb = some f → ∀ s t i, (f s t i).1 = t) (s : σ) (t : Tree V) (i : Int) : (callStateAdded cb s t i).1 = t := by
  unfold callStateAdded
  cases cb with
  | none => rfl
  | some f => exact h f rfl s t i

/-- Keeping the goals when a node is added. -/
theorem goals_connect {e : Env σ V S} {t : Tree V} (hl : Linked t) {gs : List Int}
    (h : ∀ g ∈ gs, ∃ n, getNode t g = .ok n ∧ Accepted e n.value) {v : V} {parent : Int} {p : Node V}
    (hp : getNode t parent = .ok p) :
    ∀ g ∈ gs, ∃ n, getNode (addNodeAndConnect t v parent).1 g = .ok n ∧ Accepted e n.value := by
  obtain ⟨h0, hp'⟩ := getNode_ok.1 hp
  have h1 : parent < (t.length : Int) := by have := lt_of_get hp'; omega
  obtain ⟨-, -, -, -, -, hold⟩ := C36_connect_partial t v parent h0 h1 hl
  intro g hg
  obtain ⟨n, hn, ha⟩ := h g hg
  obtain ⟨hg0, hn'⟩ := getNode_ok.1 hn
  obtain ⟨m, hm, hv, -⟩ := hold _ n hn'
  exact ⟨m, getNode_ok.2 ⟨hg0, hm⟩, by rw [hv]; exact ha⟩

/-- The loop over a propagation keeps the invariant, also when it throws; it throws only `std::out_of_range`, and only
when a relative parent index does not refer to an earlier entry. -/
theorem addAll_inv {e : Env σ V S} (hro : e.ReadOnly) {t₀ : Tree V} {q : V} {nearest : Int} {base : Nat}
    {all : Propagation V} (hall : ∃ s x, (e.propagate s q x).1 = all) (ps : Propagation V) :
    ∀ (done : Propagation V) (mapping : List Int) (s : St σ V), all = done ++ ps → Inv e t₀ s →
      Mid q nearest done base mapping s.tree →
      Inv e t₀ (addAll e nearest ps mapping s).1 ∧
      ((addAll e nearest ps mapping s).2 = none ∧ (addAll e nearest ps mapping s).1.tree.length = base + all.length ∨
        (addAll e nearest ps mapping s).2 = some .outOfRange ∧
          ∃ (k : Nat) (v : V) (rel : Int), all[k]? = some (v, rel) ∧ (k : Int) ≤ rel) := by
  induction ps with
  | nil =>
    intro done mapping s hs hi hm
    refine ⟨hi, Or.inl ⟨rfl, ?_⟩⟩
    simp at hs; subst hs; exact hm.len
  | cons x ps ih =>
    intro done mapping s hs hi hm
    obtain ⟨v, rel⟩ := x
    rcases addPropagated_spec hm hi.linked v rel ps with ⟨hbad, heq⟩ | ⟨hrel, parent, p, hp, heq, hpar, hm'⟩
    · have : addAll e nearest ((v, rel) :: ps) mapping s = (s, some .outOfRange) := by
        unfold addAll; rw [heq]
      rw [this]
      exact ⟨hi, Or.inr ⟨rfl, done.length, v, rel, by rw [hs]; simp, hbad⟩⟩
    · obtain ⟨h0, hp'⟩ := getNode_ok.1 hp
      have h1 : parent < (s.tree.length : Int) := by have := lt_of_get hp'; omega
      obtain ⟨cl, co, -, clen, cnew, -⟩ := C36_connect_partial s.tree v parent h0 h1 hi.linked
      have hprod : Produced e p.value v := by
        obtain ⟨s0, x0, h⟩ := hall
        exact ⟨s0, q, x0, by rw [h, hs]; exact hpar⟩
      have cg := hi.grown.connect hi.linked hp hprod
      have cgo := goals_connect hi.linked hi.goals (v := v) hp
      have hnode : getNode (addNodeAndConnect s.tree v parent).1 ((base + done.length : Nat) : Int) =
          .ok ⟨v, parent, []⟩ := getNode_nat (by rw [← hm.len]; exact cnew)
      unfold addAll
      rw [heq]
      dsimp only
      rw [callStateAdded_tree hro.1, hnode]
      dsimp only
      cases hg : e.goalReached (callStateAdded e.stateAdded s.env (addNodeAndConnect s.tree v parent).1
        ((base + done.length : Nat) : Int)).2 v with
      | mk b s2 =>
        cases b
        · dsimp only
          refine ih (done ++ [(v, rel)]) _ _ (by simp [hs]) ⟨cl, fun h => co (hi.once h), cg, cgo⟩ hm'
        · dsimp only
          rw [callStateAdded_tree hro.2]
          refine ih (done ++ [(v, rel)]) _ _ (by simp [hs]) ⟨cl, fun h => co (hi.once h), cg, ?_⟩ hm'
          intro g hgm
          rcases List.mem_append.1 hgm with h | h
          · exact cgo g h
          · simp only [List.mem_singleton] at h
            subst h
            exact ⟨_, hnode, _, by rw [hg]⟩

theorem Inv.withEnv {e : Env σ V S} {t₀ : Tree V} {s s' : St σ V} (h : Inv e t₀ s) (ht : s'.tree = s.tree)
    (hg : s'.goals = s.goals) : Inv e t₀ s' :=
  ⟨by rw [ht]; exact h.linked, by rw [ht]; exact h.once, by rw [ht]; exact h.grown, by rw [ht, hg]; exact h.goals⟩

/-- One iteration keeps the invariant, also when it throws. -/
theorem planStep_inv {e : Env σ V S} (hro : e.ReadOnly) {t₀ : Tree V} {s : St σ V} (hi : Inv e t₀ s) :
    Inv e t₀ (planStep e s).1 ∧ ((planStep e s).2 = none ∨ (planStep e s).2 = some .outOfRange) := by
  unfold planStep
  dsimp only
  cases hn : getNode s.tree (e.nearest (e.sample s.env).2 s.tree (e.sample s.env).1).1 with
  | ok q =>
    dsimp only
    cases hp : (e.propagate (e.nearest (e.sample s.env).2 s.tree (e.sample s.env).1).2 q.value (e.sample s.env).1).1 with
    | nil => exact ⟨hi.withEnv rfl rfl, Or.inl rfl⟩
    | cons x rest =>
      have hi' : Inv e t₀ { s with
          stats := { total := s.stats.total + 1, successful := s.stats.successful + 1, failed := s.stats.failed },
          env := (e.propagate (e.nearest (e.sample s.env).2 s.tree (e.sample s.env).1).2 q.value (e.sample s.env).1).2 } :=
        hi.withEnv rfl rfl
      obtain ⟨a, b⟩ := addAll_inv hro (t₀ := t₀) (q := q.value) (base := s.tree.length) ⟨_, _, hp⟩ (x :: rest) [] []
        _ rfl hi' (Mid.start hn rfl)
      refine ⟨a, ?_⟩
      rcases b with ⟨b, -⟩ | ⟨b, -⟩
      · exact Or.inl b
      · exact Or.inr b
  | throw x =>
    refine ⟨hi.withEnv rfl rfl, Or.inr ?_⟩
    rcases Int.lt_or_le (e.nearest (e.sample s.env).2 s.tree (e.sample s.env).1).1 0 with h | h
    · rw [getNode_throw (Or.inl h)] at hn; cases hn; rfl
    · rcases Int.lt_or_le (e.nearest (e.sample s.env).2 s.tree (e.sample s.env).1).1 (s.tree.length : Int) with h' | h'
      · obtain ⟨n, h2, -⟩ := getNode_in h h'
        rw [h2] at hn; cases hn
      · rw [getNode_throw (Or.inr h')] at hn; cases hn; rfl
  | ub => exact absurd hn (getNode_ne_ub _ _)

theorem planLoop_inv {e : Env σ V S} (hro : e.ReadOnly) {t₀ : Tree V} : ∀ (fuel : Nat) (s s' : St σ V) (x : Option Exc),
    Inv e t₀ s → planLoop e fuel s = some (s', x) → Inv e t₀ s' ∧ (x = none ∨ x = some .outOfRange) := by
  intro fuel
  induction fuel with
  | zero => intro s s' x _ h; cases h
  | succ fuel ih =>
    intro s s' x hi h
    unfold planLoop at h
    cases ht : e.terminate s.env (s.tree.length : Int) with
    | mk b s1 =>
      rw [ht] at h
      cases b
      · dsimp only at h
        obtain ⟨hs, hx⟩ := planStep_inv hro (s := { s with env := s1 }) (hi.withEnv rfl rfl)
        cases hps : planStep e { s with env := s1 } with
        | mk s2 o =>
          rw [hps] at h hs hx
          cases o with
          | none => exact ih _ _ _ hs h
          | some y =>
            simp only [Option.some.injEq, Prod.mk.injEq] at h
            obtain ⟨rfl, rfl⟩ := h
            exact ⟨hs, hx⟩
      · simp only [Option.some.injEq, Prod.mk.injEq] at h
        obtain ⟨rfl, rfl⟩ := h
        exact ⟨hi.withEnv rfl rfl, Or.inl rfl⟩

theorem initialCheck_inv {e : Env σ V S} (hro : e.ReadOnly) {t₀ : Tree V} : ∀ (fuel : Nat) (idx : Int) (s s' : St σ V)
    (x : Option Exc), 0 ≤ idx → Inv e t₀ s → initialCheck e fuel idx s = some (s', x) →
    Inv e t₀ s' ∧ s'.tree = s.tree ∧ (x = none ∨ (x = some .badFunctionCall ∧ e.goalCallback = none)) := by
  intro fuel
  induction fuel with
  | zero => intro idx s s' x _ _ h; cases h
  | succ fuel ih =>
    intro idx s s' x h0 hi h
    unfold initialCheck at h
    split at h
    · rename_i hlt
      obtain ⟨n, hn, -⟩ := getNode_in h0 hlt
      rw [hn] at h
      dsimp only at h
      cases hg : e.goalReached s.env n.value with
      | mk b s1 =>
        rw [hg] at h
        cases b
        · exact ih (idx + 1) { s with env := s1 } s' x (by omega) (hi.withEnv rfl rfl) h
        · dsimp only at h
          have hgoal : ∀ g ∈ s.goals ++ [idx], ∃ n, getNode s.tree g = .ok n ∧ Accepted e n.value := by
            intro g hgm
            rcases List.mem_append.1 hgm with h' | h'
            · exact hi.goals g h'
            · simp only [List.mem_singleton] at h'
              subst h'
              exact ⟨n, hn, _, by rw [hg]⟩
          cases hcb : e.goalCallback with
          | none =>
            rw [hcb] at h
            simp only [Option.some.injEq, Prod.mk.injEq] at h
            obtain ⟨rfl, rfl⟩ := h
            exact ⟨⟨hi.linked, hi.once, hi.grown, hgoal⟩, rfl, Or.inr ⟨rfl, rfl⟩⟩
          | some f =>
            rw [hcb] at h
            dsimp only at h
            rw [hro.2 f hcb] at h
            obtain ⟨a, b, c⟩ := ih (idx + 1)
              { s with tree := s.tree, goals := s.goals ++ [idx], env := (f s1 s.tree idx).2 } s' x (by omega)
              ⟨hi.linked, hi.once, hi.grown, hgoal⟩ h
            exact ⟨a, b, by rw [hcb] at c; exact c⟩
    · simp only [Option.some.injEq, Prod.mk.injEq] at h
      obtain ⟨rfl, rfl⟩ := h
      exact ⟨hi, rfl, Or.inl rfl⟩

theorem rrtRun_inv {e : Env σ V S} (hro : e.ReadOnly) {t₀ : Tree V} (hl : Linked t₀) {fuel : Nat} {env : σ} {s' : St σ V}
    {x : Option Exc} (h : rrtRun e fuel t₀ env = some (s', x)) :
    Inv e t₀ s' ∧ (x = none ∨ x = some .outOfRange ∨ (x = some .badFunctionCall ∧ e.goalCallback = none)) := by
  have h0 : Inv e t₀ { tree := t₀, env := env } := ⟨hl, id, GrownFrom.refl _ _, by simp⟩
  unfold rrtRun at h
  cases hc : initialCheck e fuel 0 { tree := t₀, env := env } with
  | none => rw [hc] at h; cases h
  | some r =>
    obtain ⟨s1, o⟩ := r
    obtain ⟨a, -, c⟩ := initialCheck_inv hro _ _ _ _ _ (by omega) h0 hc
    rw [hc] at h
    cases o with
    | none =>
      obtain ⟨r1, r2⟩ := planLoop_inv hro _ _ _ _ a h
      exact ⟨r1, r2.elim Or.inl (fun h => Or.inr (Or.inl h))⟩
    | some y =>
      simp only [Option.some.injEq, Prod.mk.injEq] at h
      obtain ⟨rfl, rfl⟩ := h
      exact ⟨a, Or.inr (Or.inr (by simpa using c))⟩

/-! ### Extraction of the solutions -/

theorem extractPaths_ok {t : Tree V} : ∀ {gs : List Int} {fuel : Nat} {ps : List (List V)},
    extractSolutionPaths fuel t gs = some (.ok ps) →
    ps.length = gs.length ∧ ∀ (k : Nat) (p : List V) (g : Int), ps[k]? = some p → gs[k]? = some g →
      extractSolutionPath fuel t g = some (.ok p) := by
  intro gs
  induction gs with
  | nil =>
    intro fuel ps h
    unfold extractSolutionPaths at h
    simp only [Option.some.injEq, Res.ok.injEq] at h
    subst h
    exact ⟨rfl, by simp⟩
  | cons g gs ih =>
    intro fuel ps h
    unfold extractSolutionPaths at h
    cases hp : extractSolutionPath fuel t g with
    | none => rw [hp] at h; cases h
    | some r =>
      rw [hp] at h
      cases r with
      | throw x => simp at h
      | ub => simp at h
      | ok p =>
        dsimp only at h
        cases hps : extractSolutionPaths fuel t gs with
        | none => rw [hps] at h; cases h
        | some r =>
          rw [hps] at h
          cases r with
          | throw x => simp at h
          | ub => simp at h
          | ok ps' =>
            simp only [Option.some.injEq, Res.ok.injEq] at h
            subst h
            obtain ⟨a, b⟩ := ih hps
            refine ⟨by simp [a], ?_⟩
            intro k p' g' h1 h2
            cases k with
            | zero => simp at h1 h2; subst h1; subst h2; exact hp
            | succ k => simp at h1 h2; exact b k p' g' h1 h2

/-- More fuel does not change a finished extraction. -/
theorem extractLoop_mono {t : Tree V} : ∀ {fuel fuel' : Nat} {p : Int} {acc : List V} {r},
    extractLoop t fuel p acc = some r → fuel ≤ fuel' → extractLoop t fuel' p acc = some r := by
  intro fuel
  induction fuel with
  | zero => intro f' p acc r h; cases h
  | succ fuel ih =>
    intro f' p acc r h hle
    obtain ⟨f, rfl⟩ : ∃ f, f' = f + 1 := ⟨f' - 1, by omega⟩
    unfold extractLoop at h ⊢
    split
    · rename_i hp
      rw [if_pos hp] at h
      cases hn : getNode t p with
      | ok n => rw [hn] at h; exact ih h (by omega)
      | throw x => rw [hn] at h; exact h
      | ub => rw [hn] at h; exact h
    · rename_i hp
      rw [if_neg hp] at h; exact h

theorem extractSolutionPath_mono {t : Tree V} {fuel fuel' : Nat} {g : Int} {r : Res (List V)}
    (h : extractSolutionPath fuel t g = some r) (hle : fuel ≤ fuel') : extractSolutionPath fuel' t g = some r := by
  unfold extractSolutionPath at h ⊢
  cases hn : getNode t g with
  | throw x => rw [hn] at h; exact h
  | ub => rw [hn] at h; exact h
  | ok n =>
    rw [hn] at h
    dsimp only at h ⊢
    cases hl : extractLoop t fuel n.parent [n.value] with
    | none => rw [hl] at h; cases h
    | some r => rw [extractLoop_mono hl hle]; rw [hl] at h; exact h

/-- A finished extraction from an existing node of a linked tree finished normally. -/
theorem extract_normal {t : Tree V} (hl : Linked t) {fuel : Nat} {g : Int} {n : Node V} {r : Res (List V)}
    (hn : getNode t g = .ok n) (h : extractSolutionPath fuel t g = some r) : ∃ p, r = .ok p := by
  obtain ⟨h0, hn'⟩ := getNode_ok.1 hn
  obtain ⟨idxs, vs, he, -, -⟩ := C37_extraction t hl g.toNat (lt_of_get hn') (fuel + t.length + 1) (by omega)
  rw [show ((g.toNat : Nat) : Int) = g by omega, extractSolutionPath_mono h (by omega)] at he
  simp only [Option.some.injEq] at he
  exact ⟨vs, he⟩

theorem extractPaths_normal {t : Tree V} (hl : Linked t) {fuel : Nat} : ∀ {gs : List Int} {r : Res (List (List V))},
    (∀ g ∈ gs, ∃ n, getNode t g = .ok n) → extractSolutionPaths fuel t gs = some r → ∃ ps, r = .ok ps := by
  intro gs
  induction gs with
  | nil => intro r _ h; unfold extractSolutionPaths at h; cases h; exact ⟨_, rfl⟩
  | cons g gs ih =>
    intro r hgs h
    obtain ⟨n, hn⟩ := hgs g (by simp)
    unfold extractSolutionPaths at h
    cases hp : extractSolutionPath fuel t g with
    | none => rw [hp] at h; cases h
    | some q =>
      rw [hp] at h
      obtain ⟨p, rfl⟩ := extract_normal hl hn hp
      dsimp only at h
      cases hps : extractSolutionPaths fuel t gs with
      | none => rw [hps] at h; cases h
      | some q =>
        obtain ⟨ps, rfl⟩ := ih (fun g hg => hgs g (by simp [hg])) hps
        rw [hps] at h
        simp only [Option.some.injEq] at h
        exact ⟨_, h.symm⟩

/-- A finished extraction from a linked tree is the chain of C37, whatever the fuel. -/
theorem extract_chain {t : Tree V} (hl : Linked t) {fuel : Nat} {g : Int} {p : List V}
    (h : extractSolutionPath fuel t g = some (.ok p)) :
    ∃ idxs, 0 ≤ g ∧ g < (t.length : Int) ∧ RootChain t idxs g.toNat ∧ ValuesAt t idxs p := by
  have hr : 0 ≤ g ∧ g < (t.length : Int) := by
    rcases Int.lt_or_le g 0 with h0 | h0
    · rw [C37_bad_goal t g (Or.inl h0)] at h; simp at h
    · rcases Int.lt_or_le g (t.length : Int) with h1 | h1
      · exact ⟨h0, h1⟩
      · rw [C37_bad_goal t g (Or.inr h1)] at h; simp at h
  obtain ⟨idxs, vs, he, hc, hv⟩ := C37_extraction t hl g.toNat (by omega) (fuel + t.length + 1) (by omega)
  rw [show ((g.toNat : Nat) : Int) = g by omega, extractSolutionPath_mono h (by omega)] at he
  simp only [Option.some.injEq, Res.ok.injEq] at he
  subst he
  exact ⟨idxs, hr.1, hr.2, hc, hv⟩

/-- Reading a chain of states. -/
theorem RootChain.facts {t : Tree V} {idxs : List Nat} {i : Nat} (h : RootChain t idxs i) :
    ∀ {vs : List V}, ValuesAt t idxs vs →
    (∃ (r : Nat) (n : Node V), t[r]? = some n ∧ n.parent < 0 ∧ vs.head? = some n.value) ∧
    (∃ n, t[i]? = some n ∧ vs.getLast? = some n.value) ∧
    Consecutive (TreeEdge t) vs := by
  induction h with
  | @root r n hr hn =>
    intro vs hv
    simp only [ValuesAt, List.map_cons, hr, Option.map_some, List.map_nil] at hv
    cases vs with
    | nil => simp at hv
    | cons v vs =>
      cases vs with
      | cons _ _ => simp at hv
      | nil =>
        simp only [List.map_cons, List.map_nil, List.cons.injEq, Option.some.injEq, and_true] at hv
        subst hv
        exact ⟨⟨r, n, hr, hn, rfl⟩, ⟨n, hr, rfl⟩, by intro k a b _ hb; simp at hb⟩
  | @step idxs p i n hc hi hpar ih =>
    intro vs hv
    have hne : vs ≠ [] := by
      rintro rfl
      simp [ValuesAt] at hv
    obtain ⟨ws, w, rfl⟩ : ∃ ws w, vs = ws ++ [w] := ⟨vs.dropLast, vs.getLast hne, (List.dropLast_append_getLast hne).symm⟩
    have hv' : ValuesAt t idxs ws ∧ n.value = w := by
      simp only [ValuesAt, List.map_append, List.map_cons, List.map_nil, hi, Option.map_some] at hv
      have := List.append_inj_right' hv rfl
      simp at this
      exact ⟨List.append_inj_left' hv rfl, this⟩
    obtain ⟨hv', rfl⟩ := hv'
    obtain ⟨⟨r, rn, h1, h2, h3⟩, ⟨pn, h4, h5⟩, h6⟩ := ih hv'
    have hws : ws ≠ [] := by rintro rfl; simp at h3
    refine ⟨⟨r, rn, h1, h2, ?_⟩, ⟨n, hi, by simp⟩, ?_⟩
    · cases ws with
      | nil => exact absurd rfl hws
      | cons a as => simpa using h3
    · intro k a b ha hb
      by_cases hk : k + 1 < ws.length
      · rw [List.getElem?_append_left (by omega)] at ha
        rw [List.getElem?_append_left hk] at hb
        exact h6 k a b ha hb
      · have hlt := lt_of_get hb
        simp at hlt
        have hke : k + 1 = ws.length := by omega
        rw [hke, List.getElem?_append_right (Nat.le_refl _)] at hb
        simp at hb; subst hb
        rw [List.getElem?_append_left (by omega)] at ha
        have : ws.getLast? = some a := by
          rw [List.getLast?_eq_getElem?, ← ha]; congr 1; omega
        rw [h5] at this
        simp at this; subst this
        exact ⟨p, i, pn, n, h4, hi, hpar, rfl, rfl⟩

/-- A root of the grown tree is a root of the original one. -/
theorem GrownFrom.root {R : V → V → Prop} {t₀ t : Tree V} (h : GrownFrom R t₀ t) {r : Nat} {n : Node V}
    (hr : t[r]? = some n) (hn : n.parent < 0) : ∃ m, t₀[r]? = some m ∧ m.parent < 0 ∧ m.value = n.value := by
  rcases Nat.lt_or_ge r t₀.length with hlt | hge
  · have hm : t₀[r]? = some t₀[r] := by simp [hlt]
    obtain ⟨m, h1, h2, h3⟩ := h.old r _ hm
    rw [hr] at h1; cases h1
    exact ⟨_, hm, by omega, h2.symm⟩
  · have := (h.new r n hge hr).1
    omega

/-- An edge of the grown tree is an edge of the original one or was added. -/
theorem GrownFrom.edge {R : V → V → Prop} {t₀ t : Tree V} (h : GrownFrom R t₀ t) (hl : Linked t) {a b : V}
    (he : TreeEdge t a b) : TreeEdge t₀ a b ∨ R a b := by
  obtain ⟨i, j, n, m, hi, hj, hp, rfl, rfl⟩ := he
  rcases Nat.lt_or_ge j t₀.length with hlt | hge
  · left
    have hij : i < j := by have := (hl j m hj).1; omega
    have hm : t₀[j]? = some t₀[j] := by simp [hlt]
    have hn : t₀[i]? = some t₀[i] := by simp [show i < t₀.length by omega]
    obtain ⟨m', h1, h2, h3⟩ := h.old j _ hm
    obtain ⟨n', h4, h5, -⟩ := h.old i _ hn
    rw [hj] at h1; cases h1
    rw [hi] at h4; cases h4
    exact ⟨i, j, _, _, hn, hm, by rw [← h3]; exact hp, h5.symm, h2.symm⟩
  · right
    obtain ⟨h0, h1, p, hp', hr⟩ := h.new j m hge hj
    rw [hp] at hp'
    simp at hp'
    rw [hi] at hp'; cases hp'
    exact hr

theorem Consecutive.imp {R Q : V → V → Prop} {l : List V} (h : Consecutive R l) (hRQ : ∀ a b, R a b → Q a b) :
    Consecutive Q l := fun i a b ha hb => hRQ _ _ (h i a b ha hb)

/-! ### Soundness -/

theorem multi_cases {e : Env σ V S} {fuel : Nat} {t₀ t : Tree V} {s s' : σ} {o : Res (Result V)}
    (h : rrtPlanMultiPath e fuel t₀ s = some ((t, s'), o)) :
    (t₀ = [] ∧ t = t₀ ∧ o = .throw .invalidArgument) ∨
    (t₀ ≠ [] ∧ ∃ s2 x, rrtRun e fuel t₀ s = some (s2, x) ∧ s2.tree = t ∧
      ((∃ y, x = some y ∧ o = .throw y) ∨
       (x = none ∧ ((∃ ps, extractSolutionPaths fuel t s2.goals = some (.ok ps) ∧
          o = .ok ⟨ps, s2.stats, t.length, ps.length⟩) ∨
        (∃ y, extractSolutionPaths fuel t s2.goals = some (.throw y) ∧ o = .throw y) ∨
        (extractSolutionPaths fuel t s2.goals = some .ub ∧ o = .ub))))) := by
  unfold rrtPlanMultiPath at h
  split at h
  · rename_i he
    simp only [Option.some.injEq, Prod.mk.injEq] at h
    obtain ⟨⟨rfl, rfl⟩, rfl⟩ := h
    exact Or.inl ⟨by simpa using he, rfl, rfl⟩
  · rename_i he
    refine Or.inr ⟨by simpa using he, ?_⟩
    cases hr : rrtRun e fuel t₀ s with
    | none => rw [hr] at h; cases h
    | some r =>
      obtain ⟨s2, x⟩ := r
      rw [hr] at h
      refine ⟨s2, x, rfl, ?_⟩
      cases x with
      | some y =>
        simp only [Option.some.injEq, Prod.mk.injEq] at h
        obtain ⟨⟨rfl, rfl⟩, rfl⟩ := h
        exact ⟨rfl, Or.inl ⟨y, rfl, rfl⟩⟩
      | none =>
        dsimp only at h
        cases hx : extractSolutionPaths fuel s2.tree s2.goals with
        | none => rw [hx] at h; cases h
        | some r =>
          rw [hx] at h
          cases r with
          | ok ps =>
            simp only [Option.some.injEq, Prod.mk.injEq] at h
            obtain ⟨⟨rfl, rfl⟩, rfl⟩ := h
            exact ⟨rfl, Or.inr ⟨rfl, Or.inl ⟨ps, hx, rfl⟩⟩⟩
          | throw y =>
            simp only [Option.some.injEq, Prod.mk.injEq] at h
            obtain ⟨⟨rfl, rfl⟩, rfl⟩ := h
            exact ⟨rfl, Or.inr ⟨rfl, Or.inr (Or.inl ⟨y, hx, rfl⟩)⟩⟩
          | ub =>
            simp only [Option.some.injEq, Prod.mk.injEq] at h
            obtain ⟨⟨rfl, rfl⟩, rfl⟩ := h
            exact ⟨rfl, Or.inr ⟨rfl, Or.inr (Or.inr ⟨hx, rfl⟩)⟩⟩

/-- C38. However planning ends, normally or by an exception, the tree keeps valid linkage, the nodes it was given keep
their states and parents, and every node added hangs below an earlier node as the propagation function said. -/
theorem C38_tree (e : Env σ V S) (hro : e.ReadOnly) (fuel : Nat) (t₀ t : Tree V) (s s' : σ) (o : Res (Result V))
    (hl : Linked t₀) (h : rrtPlanMultiPath e fuel t₀ s = some ((t, s'), o)) :
    Linked t ∧ (ChildrenOnce t₀ → ChildrenOnce t) ∧ GrownFrom (Produced e) t₀ t := by
  rcases multi_cases h with ⟨-, rfl, -⟩ | ⟨-, s2, x, hr, rfl, -⟩
  · exact ⟨hl, id, GrownFrom.refl _ _⟩
  · have := (rrtRun_inv hro hl hr).1
    exact ⟨this.linked, this.once, this.grown⟩

/-- C38. Every returned path begins at a root of the given tree, ends in a state accepted by the goal check, and each
step is an edge of the given tree or was produced by the propagation function. -/
theorem C38_sound (e : Env σ V S) (hro : e.ReadOnly) (fuel : Nat) (t₀ t : Tree V) (s s' : σ) (r : Result V)
    (hl : Linked t₀) (h : rrtPlanMultiPath e fuel t₀ s = some ((t, s'), .ok r)) :
    ∀ p ∈ r.paths,
      (∃ (i : Nat) (n : Node V), t₀[i]? = some n ∧ n.parent < 0 ∧ p.head? = some n.value) ∧
      (∃ v, p.getLast? = some v ∧ Accepted e v) ∧
      Consecutive (fun a b => TreeEdge t₀ a b ∨ Produced e a b) p := by
  rcases multi_cases h with ⟨-, -, h'⟩ | ⟨-, s2, x, hr, rfl, h'⟩
  · cases h'
  · rcases h' with ⟨y, -, h'⟩ | ⟨rfl, ⟨ps, hx, h'⟩ | ⟨y, -, h'⟩ | ⟨-, h'⟩⟩
    · cases h'
    · cases h'
      have hi := (rrtRun_inv hro hl hr).1
      obtain ⟨hlen, hps⟩ := extractPaths_ok hx
      intro p hp
      obtain ⟨k, hk⟩ := List.getElem?_of_mem hp
      have hkl : k < s2.goals.length := by have := lt_of_get hk; dsimp only at this; omega
      have hg : s2.goals[k]? = some s2.goals[k] := by simp [hkl]
      have hpath := hps k p _ hk hg
      obtain ⟨idxs, h0, h1, hc, hv⟩ := extract_chain hi.linked hpath
      obtain ⟨⟨r, n, f1, f2, f3⟩, ⟨m, f4, f5⟩, f6⟩ := hc.facts hv
      refine ⟨?_, ?_, ?_⟩
      · obtain ⟨m', g1, g2, g3⟩ := hi.grown.root f1 f2
        exact ⟨r, m', g1, g2, by rw [f3, g3]⟩
      · obtain ⟨n', g1, g2⟩ := hi.goals _ (List.mem_of_getElem? hg)
        have := (getNode_ok.1 g1).2
        rw [f4] at this; cases this
        exact ⟨_, f5, g2⟩
      · exact f6.imp fun a b hab => hi.grown.edge hi.linked hab
    · cases h'
    · cases h'

/-- C38. An empty tree is rejected; otherwise the only exceptions are `std::out_of_range`, from a nearest neighbour index
or a relative parent index that does not exist, and `std::bad_function_call`, from a missing goal callback. -/
theorem C38_exceptions (e : Env σ V S) (hro : e.ReadOnly) (fuel : Nat) (t₀ t : Tree V) (s s' : σ) (o : Res (Result V))
    (hl : Linked t₀) (h : rrtPlanMultiPath e fuel t₀ s = some ((t, s'), o)) :
    (t₀ = [] → o = .throw .invalidArgument) ∧
    (t₀ ≠ [] → (∃ r, o = .ok r) ∨ o = .throw .outOfRange ∨ (o = .throw .badFunctionCall ∧ e.goalCallback = none)) := by
  rcases multi_cases h with ⟨h0, -, h'⟩ | ⟨h0, s2, x, hr, rfl, h'⟩
  · exact ⟨fun _ => h', fun h => absurd h0 h⟩
  · refine ⟨fun h => absurd h h0, fun _ => ?_⟩
    obtain ⟨hi, hx⟩ := rrtRun_inv hro hl hr
    rcases h' with ⟨y, rfl, rfl⟩ | ⟨rfl, ⟨ps, hx, rfl⟩ | ⟨y, hy, rfl⟩ | ⟨hy, rfl⟩⟩
    · rcases hx with h | h | ⟨h, hc⟩
      · cases h
      · cases h; exact Or.inr (Or.inl rfl)
      · cases h; exact Or.inr (Or.inr ⟨rfl, hc⟩)
    · exact Or.inl ⟨_, rfl⟩
    · obtain ⟨ps, h⟩ := extractPaths_normal hi.linked
        (fun g hg => by obtain ⟨n, hn, -⟩ := hi.goals g hg; exact ⟨n, hn⟩) hy
      cases h
    · obtain ⟨ps, h⟩ := extractPaths_normal hi.linked
        (fun g hg => by obtain ⟨n, hn, -⟩ := hi.goals g hg; exact ⟨n, hn⟩) hy
      cases h

end CRU.Rrt
