import Verif.Rrt.BiThrow
import Verif.Rrt.ThrowProps
/-
  C104 for the bidirectional planners.
-/
namespace CRU.Rrt.Throw

variable {V σ ε W α β : Type}

/-- Whether they return or throw, the callbacks leave linked trees behind, related by `K` to those they were given. -/
structure BiEnv.Keeps (K : Tree V → Tree V → Prop) (e : BiEnv σ ε V) : Prop where
  stateAdded : ∀ f, e.stateAdded = some f → ∀ s t i x, Linked t → Linked (f s t i x).1.2 ∧ K t (f s t i x).1.2
  bridgeCallback : ∀ f, e.bridgeCallback = some f → ∀ s a i b j x, Linked a → Linked b →
    (Linked (f s a i b j x).1.2.1 ∧ K a (f s a i b j x).1.2.1) ∧ Linked (f s a i b j x).1.2.2 ∧ K b (f s a i b j x).1.2.2

/-- Every function given to the planner notes the exception it throws. -/
structure BiEnv.Notes (e : BiEnv σ ε V) (noted : σ → Option ε) : Prop where
  selectSample : ∀ a b x, Throw.Notes noted (fun s => e.selectSample s a b x)
  stateSample : Throw.Notes noted e.stateSample
  treeSample : ∀ t x, Throw.Notes noted (fun s => e.treeSample s t x)
  nearest : ∀ t v x, Throw.Notes noted (fun s => e.nearest s t v x)
  propagate : ∀ q v x, Throw.Notes noted (fun s => e.propagate s q v x)
  stateAdded : ∀ f, e.stateAdded = some f → ∀ i x, NotesRef noted (fun s t => f s t i x)
  connected : ∀ a b x, Throw.Notes noted (fun s => e.connected s a b x)
  bridgeCallback : ∀ f, e.bridgeCallback = some f → ∀ i j x,
    NotesRef noted (fun s (t : Tree V × Tree V) => f s t.1 i t.2 j x)
  selectActive : ∀ a b x, Throw.Notes noted (fun s => e.selectActive s a b x)
  terminate : ∀ m n, Throw.Notes noted (fun s => e.terminate s m n)

/-- The functions of `e` and `e'` behave alike on the environments satisfying `P`. -/
structure BiEnv.Alike (P : σ → Prop) (e e' : BiEnv σ ε V) : Prop where
  selectSample : ∀ s a b x, P s → e.selectSample s a b x = e'.selectSample s a b x
  stateSample : ∀ s, P s → e.stateSample s = e'.stateSample s
  treeSample : ∀ s t x, P s → e.treeSample s t x = e'.treeSample s t x
  nearest : ∀ s t v x, P s → e.nearest s t v x = e'.nearest s t v x
  propagate : ∀ s q v x, P s → e.propagate s q v x = e'.propagate s q v x
  stateAdded : match e.stateAdded, e'.stateAdded with
    | some f, some g => ∀ s t i x, P s → f s t i x = g s t i x
    | none, none => True
    | _, _ => False
  connected : ∀ s a b x, P s → e.connected s a b x = e'.connected s a b x
  bridgeCallback : match e.bridgeCallback, e'.bridgeCallback with
    | some f, some g => ∀ s a i b j x, P s → f s a i b j x = g s a i b j x
    | none, none => True
    | _, _ => False
  selectActive : ∀ s a b x, P s → e.selectActive s a b x = e'.selectActive s a b x
  terminate : ∀ s m n, P s → e.terminate s m n = e'.terminate s m n

/-! ### The trees left behind -/

/-- Both trees are linked and related to `a₀` and `b₀`; the active tree contains the nodes `l`. -/
def BiHas (K : Tree V → Tree V → Prop) (a₀ b₀ : Tree V) (l : List Int) (w : BiVars V) : Prop :=
  (Linked w.start ∧ K a₀ w.start) ∧ (Linked w.goal ∧ K b₀ w.goal) ∧
    ∀ i ∈ l, 0 ≤ i ∧ i < ((w.tree w.active).length : Int)

variable {K : Tree V → Tree V → Prop} {a₀ b₀ : Tree V} {e e' : BiEnv σ ε V}

theorem BiHas.nil {l : List Int} {w : BiVars V} (h : BiHas K a₀ b₀ l w) : BiHas K a₀ b₀ [] w := ⟨h.1, h.2.1, by simp⟩

theorem BiHas.linked {l : List Int} {w : BiVars V} (h : BiHas K a₀ b₀ l w) : Linked (w.tree w.active) := by
  unfold BiVars.tree
  split
  · exact h.1.1
  · exact h.2.1.1

theorem tree_setTree (w : BiVars V) (t : Tree V) :
    (w.setTree w.active t).tree (w.setTree w.active t).active = t := by
  obtain ⟨a, b, c, d, f⟩ := w
  cases d <;> rfl

theorem BiHas.set (hK : Keep K) {l : List Int} {w : BiVars V} (h : BiHas K a₀ b₀ l w) {t : Tree V} (hl : Linked t)
    (hk : K (w.tree w.active) t) : BiHas K a₀ b₀ l (w.setTree w.active t) := by
  have hlen := hK.length _ _ hk
  have h3 : ∀ i ∈ l, 0 ≤ i ∧ i < (((w.setTree w.active t).tree (w.setTree w.active t).active).length : Int) := by
    rw [tree_setTree]
    intro i hi
    have := h.2.2 i hi
    omega
  obtain ⟨a, b, c, d, f⟩ := w
  cases d with
  | start => exact ⟨⟨hl, hK.trans _ _ _ h.1.2 hk⟩, h.2.1, h3⟩
  | goal => exact ⟨h.1, ⟨hl, hK.trans _ _ _ h.2.1.2 hk⟩, h3⟩

theorem callBridge_has (hK : Keep K) {f : σ → Tree V → Int → Tree V → Int → Side → (Option ε × Tree V × Tree V) × σ}
    (hf : ∀ s a i b j x, Linked a → Linked b →
      (Linked (f s a i b j x).1.2.1 ∧ K a (f s a i b j x).1.2.1) ∧ Linked (f s a i b j x).1.2.2 ∧ K b (f s a i b j x).1.2.2)
    (br : Int × Int) (l : List Int) :
    Triple (BiHas K a₀ b₀ l) (callBridge f br) (fun _ => BiHas K a₀ b₀ l) (BiHas K a₀ b₀ []) := by
  unfold callBridge
  refine Triple.bind Triple.look (fun w1 => Triple.callRef ?_ (fun w h => h.nil))
  rintro w s ⟨rfl, hw⟩
  obtain ⟨⟨h1, h2⟩, h3, h4⟩ := hf s w.start br.1 w.goal br.2 w.active hw.1.1 hw.2.1.1
  refine ⟨⟨h1, hK.trans _ _ _ hw.1.2 h2⟩, ⟨h3, hK.trans _ _ _ hw.2.1.2 h4⟩, ?_⟩
  intro i hi
  have hi' := hw.2.2 i hi
  have e1 := hK.length _ _ h2
  have e2 := hK.length _ _ h4
  obtain ⟨a, b, c, d, g⟩ := w
  cases d with
  | start =>
    change 0 ≤ i ∧ i < (a.length : Int) at hi'
    change 0 ≤ i ∧ i < (List.length (f s a br.1 b br.2 .start).1.2.1 : Int)
    change a.length ≤ (List.length (f s a br.1 b br.2 .start).1.2.1) at e1
    omega
  | goal =>
    change 0 ≤ i ∧ i < (b.length : Int) at hi'
    change 0 ≤ i ∧ i < (List.length (f s a br.1 b br.2 .goal).1.2.2 : Int)
    change b.length ≤ (List.length (f s a br.1 b br.2 .goal).1.2.2) at e2
    omega

theorem untestedBridge_has (hK : Keep K) (hc : e.Keeps K) (br : Int × Int) (l : List Int) :
    Triple (BiHas K a₀ b₀ l) (untestedBridge e.bridgeCallback br) (fun _ => BiHas K a₀ b₀ l) (BiHas K a₀ b₀ []) := by
  unfold untestedBridge
  cases hb : e.bridgeCallback with
  | none =>
    exact (Triple.lib (P := BiHas K a₀ b₀ l) (E := BiHas K a₀ b₀ []) _ (fun w h => h.nil)).weaken (fun w h => h) (fun _ w h => h.2) (fun w h => h)
  | some f => exact callBridge_has hK (hc.bridgeCallback f hb) br l

theorem optionalBridge_has (hK : Keep K) (hc : e.Keeps K) (br : Int × Int) (l : List Int) :
    Triple (BiHas K a₀ b₀ l) (optionalBridge e.bridgeCallback br) (fun _ => BiHas K a₀ b₀ l) (BiHas K a₀ b₀ []) := by
  unfold optionalBridge
  cases hb : e.bridgeCallback with
  | none => exact Triple.ret _ (fun w h => h)
  | some f => exact callBridge_has hK (hc.bridgeCallback f hb) br l

/-- A step of the planner itself leaves the variables alone. -/
theorem Triple.libKeep {P : W → Prop} {E : W → Prop} (r : Res α) (h : ∀ w, P w → E w) :
    Triple (σ := σ) (ε := ε) P (Throw.lib r) (fun _ w => P w) E :=
  (Triple.lib r h).weaken (fun _ h => h) (fun _ _ h => h.2) (fun _ h => h)

theorem initialBridges_has (hK : Keep K) (hc : e.Keeps K) (fuel : Nat) : ∀ i j,
    Triple (BiHas K a₀ b₀ []) (initialBridges e fuel i j) (fun _ => BiHas K a₀ b₀ []) (BiHas K a₀ b₀ []) := by
  induction fuel with
  | zero => intro i j; exact Triple.more
  | succ fuel ih =>
    intro i j
    unfold initialBridges
    refine Triple.bind (Triple.look.weaken (fun w h => h) (Q' := fun _ => BiHas K a₀ b₀ []) (fun _ w h => h.2) (fun w h => h)) (fun w => ?_)
    refine Triple.branch _ (fun _ => ?_) (fun _ => Triple.ret _ (fun w h => h))
    refine Triple.branch _ (fun _ => ?_) (fun _ => ih _ _)
    refine Triple.bind (Triple.libKeep _ (fun w h => h)) (fun a => ?_)
    refine Triple.bind (Triple.libKeep _ (fun w h => h)) (fun b => ?_)
    refine Triple.bind (Triple.call _ (fun w h => h)) (fun g => ?_)
    refine Triple.branch _ (fun _ => ?_) (fun _ => ih _ _)
    refine Triple.bind (Triple.libKeep _ (fun w h => h)) (fun br => ?_)
    refine Triple.bind (Triple.update (Q := BiHas K a₀ b₀ []) _ (fun w h => h)) (fun _ => ?_)
    exact Triple.bind (untestedBridge_has hK hc _ _) (fun _ => ih _ _)

theorem insertBi_has (hK : Keep K) (nearest : Int) (mapping : List Int) (v : V) (rel : Int) :
    Triple (σ := σ) (ε := ε) (BiHas K a₀ b₀ (nearest :: mapping)) (insertBi nearest mapping v rel)
      (fun i => BiHas K a₀ b₀ (nearest :: (mapping ++ [i]))) (BiHas K a₀ b₀ []) := by
  intro w s hw o w' s' hm
  have hh : Has K (w.tree w.active) (nearest :: mapping) { tree := w.tree w.active } := ⟨hw.linked, hK.refl _, hw.2.2⟩
  obtain ⟨h1, h2⟩ := addPropagated_has hK (v := v) (rel := rel) hh
  have h3 := hw.set hK h1.1 h1.2.1
  unfold insertBi at hm
  simp only [bind_seq, seq, look, update] at hm
  cases hr : (addPropagated (w.tree w.active) nearest mapping v rel).2 with
  | ok i =>
    rw [hr] at hm
    simp only [lib, ret, Option.some.injEq, Prod.mk.injEq] at hm
    obtain ⟨rfl, rfl, rfl⟩ := hm
    refine ⟨fun a ha => ?_, fun x hx => nomatch hx⟩
    cases ha
    refine ⟨h3.1, h3.2.1, ?_⟩
    intro j hj
    rw [← List.cons_append, List.mem_append, List.mem_singleton] at hj
    rcases hj with hj | rfl
    · exact h3.2.2 j hj
    · rw [tree_setTree]
      exact h2 _ hr
  | throw x =>
    rw [hr] at hm
    simp only [lib, Option.some.injEq, Prod.mk.injEq] at hm
    obtain ⟨rfl, rfl, rfl⟩ := hm
    exact ⟨fun a ha => (nomatch ha), fun _ _ => h3.nil⟩
  | ub =>
    rw [hr] at hm
    simp only [lib, Option.some.injEq, Prod.mk.injEq] at hm
    obtain ⟨rfl, rfl, rfl⟩ := hm
    exact ⟨fun a ha => (nomatch ha), fun _ _ => h3.nil⟩

theorem addedBi_has (hK : Keep K) (hc : e.Keeps K) (i : Int) (l : List Int) :
    Triple (BiHas K a₀ b₀ l) (addedBi e i) (fun _ => BiHas K a₀ b₀ l) (BiHas K a₀ b₀ []) := by
  unfold addedBi
  refine Triple.bind (Triple.look.weaken (fun w h => h) (Q' := fun _ => BiHas K a₀ b₀ l) (fun _ w h => h.2) (fun w h => h)) (fun w1 => ?_)
  cases hf : e.stateAdded with
  | none => exact Triple.ret _ (fun w h => h)
  | some f =>
    refine Triple.callRef (fun w s hw => ?_) (fun w h => h.nil)
    obtain ⟨h1, h2⟩ := hc.stateAdded f hf s (w.tree w.active) i w1.active hw.linked
    exact hw.set hK h1 h2

theorem tryBridge_has (hK : Keep K) (hc : e.Keeps K) (ts : Bool) (ti : Int) (tv : V) (ni : Int) (l : List Int) :
    Triple (BiHas K a₀ b₀ l) (tryBridge e ts ti tv ni) (fun _ => BiHas K a₀ b₀ l) (BiHas K a₀ b₀ []) := by
  unfold tryBridge
  refine Triple.branch _ (fun _ => ?_) (fun _ => Triple.ret _ (fun w h => h))
  refine Triple.bind (Triple.look.weaken (fun w h => h) (Q' := fun _ => BiHas K a₀ b₀ l) (fun _ w h => h.2) (fun w h => h)) (fun w1 => ?_)
  refine Triple.bind (Triple.libKeep _ (fun w h => h.nil)) (fun n => ?_)
  refine Triple.bind (Triple.call _ (fun w h => h.nil)) (fun g => ?_)
  refine Triple.branch _ (fun _ => ?_) (fun _ => Triple.ret _ (fun w h => h))
  refine Triple.bind (Triple.libKeep _ (fun w h => h.nil)) (fun br => ?_)
  refine Triple.bind (Triple.update (Q := BiHas K a₀ b₀ l) _ (fun w h => h)) (fun _ => ?_)
  exact optionalBridge_has hK hc _ _

theorem addAllBi_has (hK : Keep K) (hc : e.Keeps K) (ts : Bool) (ti : Int) (tv : V) (nearest : Int) (ps : Propagation V) :
    ∀ mapping, Triple (BiHas K a₀ b₀ (nearest :: mapping)) (addAllBi e ts ti tv nearest ps mapping)
      (fun _ => BiHas K a₀ b₀ []) (BiHas K a₀ b₀ []) := by
  induction ps with
  | nil => intro mapping; exact Triple.ret _ (fun w h => h.nil)
  | cons p ps ih =>
    intro mapping
    obtain ⟨v, rel⟩ := p
    unfold addAllBi
    refine Triple.bind (insertBi_has hK nearest mapping v rel) (fun i => ?_)
    refine Triple.bind (addedBi_has hK hc i _) (fun _ => ?_)
    exact Triple.bind (tryBridge_has hK hc ts ti tv i _) (fun _ => ih _)

/-- The active tree of the variables is `t`. -/
def ActiveIs (K : Tree V → Tree V → Prop) (a₀ b₀ t : Tree V) (w : BiVars V) : Prop :=
  BiHas K a₀ b₀ [] w ∧ w.tree w.active = t

theorem chooseTarget_has (ts : Bool) (t : Tree V) :
    Triple (ActiveIs K a₀ b₀ t) (chooseTarget e ts) (fun _ => ActiveIs K a₀ b₀ t) (BiHas K a₀ b₀ []) := by
  unfold chooseTarget
  refine Triple.branch _ (fun _ => ?_) (fun _ => ?_)
  · refine Triple.bind (Triple.look.weaken (fun w h => h) (Q' := fun _ => ActiveIs K a₀ b₀ t) (fun _ w h => h.2) (fun w h => h)) (fun w1 => ?_)
    refine Triple.bind (Triple.call _ (fun w h => h.1)) (fun g => ?_)
    exact Triple.bind (Triple.libKeep _ (fun w h => h.1)) (fun br => Triple.ret _ (fun w h => h))
  · exact Triple.bind (Triple.call _ (fun w h => h.1)) (fun g => Triple.ret _ (fun w h => h))

theorem selectActiveBi_has :
    Triple (BiHas K a₀ b₀ []) (selectActiveBi e) (fun _ => BiHas K a₀ b₀ []) (BiHas K a₀ b₀ []) := by
  unfold selectActiveBi
  refine Triple.bind (Triple.look.weaken (fun w h => h) (Q' := fun _ => BiHas K a₀ b₀ []) (fun _ w h => h.2) (fun w h => h)) (fun w1 => ?_)
  exact Triple.bind (Triple.call _ (fun w h => h)) (fun g => Triple.update (Q := BiHas K a₀ b₀ []) _ (fun w h => ⟨h.1, h.2.1, by simp⟩))

theorem biStep_has (hK : Keep K) (hc : e.Keeps K) :
    Triple (BiHas K a₀ b₀ []) (biStep e) (fun _ => BiHas K a₀ b₀ []) (BiHas K a₀ b₀ []) := by
  unfold biStep
  refine Triple.bind (Triple.update (Q := BiHas K a₀ b₀ []) _ (fun w h => h)) (fun _ => ?_)
  refine Triple.bind (Triple.look.weaken (fun w h => h) (Q' := fun w => ActiveIs K a₀ b₀ (w.tree w.active)) (fun _ w h => ?_) (fun w h => h)) (fun w => ?_)
  · obtain ⟨rfl, h⟩ := h; exact ⟨h, rfl⟩
  refine Triple.bind (Triple.call _ (fun w h => h.1)) (fun ty => ?_)
  refine Triple.bind (chooseTarget_has ty _) (fun target => ?_)
  refine Triple.bind (Triple.update (Q := ActiveIs K a₀ b₀ (w.tree w.active)) _ (fun w h => h)) (fun _ => ?_)
  refine Triple.bind (Triple.call _ (fun w h => h.1)) (fun nn => ?_)
  refine Triple.bind ((Triple.lib _ (fun w h => h.1)).weaken (Q' := fun _ => BiHas K a₀ b₀ [nn])
    (fun w h => h) (fun q w' h => ?_) (fun w h => h)) (fun q => ?_)
  · obtain ⟨hq, hw, ht⟩ := h
    obtain ⟨h0, hq'⟩ := getNode_ok.1 hq
    have := lt_of_get hq'
    refine ⟨hw.1, hw.2.1, ?_⟩
    intro i hi
    rw [List.mem_singleton] at hi
    subst hi
    rw [ht]
    omega
  refine Triple.bind (Triple.call _ (fun w h => h.nil)) (fun ps => ?_)
  refine Triple.bind (Q := fun _ => BiHas K a₀ b₀ []) ?_ (fun _ => selectActiveBi_has)
  cases ps with
  | nil => exact Triple.update _ (fun w h => BiHas.nil (l := [nn]) h)
  | cons p rest =>
    unfold grow
    refine Triple.bind (Triple.update (Q := BiHas K a₀ b₀ [nn]) _ (fun w h => h)) (fun _ => ?_)
    exact addAllBi_has hK hc _ _ _ nn _ []

theorem biLoop_has (hK : Keep K) (hc : e.Keeps K) (fuel : Nat) :
    Triple (BiHas K a₀ b₀ []) (biLoop e fuel) (fun _ => BiHas K a₀ b₀ []) (BiHas K a₀ b₀ []) := by
  induction fuel with
  | zero => exact Triple.more
  | succ fuel ih =>
    unfold biLoop
    refine Triple.bind (Triple.look.weaken (fun w h => h) (Q' := fun _ => BiHas K a₀ b₀ []) (fun _ w h => h.2) (fun w h => h)) (fun w1 => ?_)
    refine Triple.bind (Triple.call _ (fun w h => h)) (fun b => ?_)
    refine Triple.branch _ (fun _ => Triple.ret _ (fun w h => h)) (fun _ => ?_)
    exact Triple.bind (biStep_has hK hc) (fun _ => ih)

theorem biBody_has (hK : Keep K) (hc : e.Keeps K) (fuel : Nat) :
    Triple (BiHas K a₀ b₀ []) (biBody e fuel) (fun _ => BiHas K a₀ b₀ []) (BiHas K a₀ b₀ []) := by
  unfold biBody
  refine Triple.bind (Triple.look.weaken (fun w h => h) (Q' := fun _ => BiHas K a₀ b₀ []) (fun _ w h => h.2) (fun w h => h)) (fun w1 => ?_)
  refine Triple.branch _ (fun _ => Triple.libKeep _ (fun w h => h)) (fun _ => ?_)
  refine Triple.branch _ (fun _ => Triple.libKeep _ (fun w h => h)) (fun _ => ?_)
  refine Triple.bind (initialBridges_has hK hc fuel 0 0) (fun _ => Triple.bind (biLoop_has hK hc fuel) (fun _ => ?_))
  unfold extractBi
  refine Triple.bind (Triple.look.weaken (fun w h => h) (Q' := fun _ => BiHas K a₀ b₀ []) (fun _ w h => h.2) (fun w h => h)) (fun w1 => ?_)
  split
  · exact Triple.bind (Triple.libKeep _ (fun w h => h)) (fun _ => Triple.ret _ (fun w h => h))
  · exact Triple.more

/-- C104. However the bidirectional planner ends — a result, one of its own exceptions, or an exception thrown by any function
given to it at any moment — both of the caller's trees are validly linked, provided the callbacks that get trees by mutable
reference keep them so whether they return or throw; and they are what the given trees may become (`K`). -/
theorem C104_bi_trees (hK : Keep K) (hc : e.Keeps K) (fuel : Nat) (a b a' b' : Tree V) (s s' : σ)
    (o : Except (Thrown ε) (BiResult V)) (ha : Linked a) (hb : Linked b)
    (h : biRRTPlanMultiPath e fuel a b s = some (o, (a', b'), s')) :
    (Linked a' ∧ K a a') ∧ Linked b' ∧ K b b' := by
  unfold biRRTPlanMultiPath at h
  rw [Option.map_eq_some_iff] at h
  obtain ⟨⟨o1, w1, s1⟩, h1, h2⟩ := h
  simp only [Prod.mk.injEq] at h2
  obtain ⟨rfl, ⟨rfl, rfl⟩, rfl⟩ := h2
  obtain ⟨h3, h4⟩ := biBody_has hK hc fuel { start := a, goal := b } s ⟨⟨ha, hK.refl a⟩, ⟨hb, hK.refl b⟩, by simp⟩ _ _ _ h1
  cases o1 with
  | ok r => exact ⟨(h3 r rfl).1, (h3 r rfl).2.1⟩
  | error x => exact ⟨(h4 x rfl).1, (h4 x rfl).2.1⟩

/-! ### Exceptions come out unchanged and at once -/

variable {noted : σ → Option ε}

theorem callBridge_reports {f : σ → Tree V → Int → Tree V → Int → Side → (Option ε × Tree V × Tree V) × σ}
    (hf : ∀ i j x, NotesRef noted (fun s (t : Tree V × Tree V) => f s t.1 i t.2 j x)) (br : Int × Int) :
    Reports noted (callBridge f br) := by
  unfold callBridge
  exact Reports.look.bind (fun w => Reports.callRef (hf _ _ _))

theorem untestedBridge_reports (hn : e.Notes noted) (br : Int × Int) : Reports noted (untestedBridge e.bridgeCallback br) := by
  unfold untestedBridge
  cases hb : e.bridgeCallback with
  | none => exact Reports.lib _
  | some f => exact callBridge_reports (hn.bridgeCallback f hb) br

theorem optionalBridge_reports (hn : e.Notes noted) (br : Int × Int) : Reports noted (optionalBridge e.bridgeCallback br) := by
  unfold optionalBridge
  cases hb : e.bridgeCallback with
  | none => exact Reports.ret _
  | some f => exact callBridge_reports (hn.bridgeCallback f hb) br

theorem initialBridges_reports (hn : e.Notes noted) (fuel : Nat) : ∀ i j, Reports noted (initialBridges e fuel i j) := by
  induction fuel with
  | zero => intro i j; exact Reports.more
  | succ fuel ih =>
    intro i j
    unfold initialBridges
    refine Reports.look.bind (fun w => Reports.branch _ (Reports.branch _ ?_ (ih _ _)) (Reports.ret _))
    refine (Reports.lib _).bind (fun a => (Reports.lib _).bind (fun b => (Reports.call (hn.connected _ _ _)).bind (fun c => ?_)))
    refine Reports.branch _ ?_ (ih _ _)
    exact (Reports.lib _).bind (fun br => (Reports.update _).bind (fun _ => (untestedBridge_reports hn _).bind (fun _ => ih _ _)))

theorem insertBi_reports (nearest : Int) (mapping : List Int) (v : V) (rel : Int) :
    Reports noted (insertBi nearest mapping v rel) := by
  unfold insertBi
  exact Reports.look.bind (fun w => (Reports.update _).bind (fun _ => Reports.lib _))

theorem addedBi_reports (hn : e.Notes noted) (i : Int) : Reports noted (addedBi e i) := by
  unfold addedBi
  refine Reports.look.bind (fun w => ?_)
  cases hf : e.stateAdded with
  | none => exact Reports.ret _
  | some f => exact Reports.callRef (hn.stateAdded f hf i _)

theorem tryBridge_reports (hn : e.Notes noted) (ts : Bool) (ti : Int) (tv : V) (ni : Int) :
    Reports noted (tryBridge e ts ti tv ni) := by
  unfold tryBridge
  refine Reports.branch _ ?_ (Reports.ret _)
  refine Reports.look.bind (fun w => (Reports.lib _).bind (fun n => (Reports.call (hn.connected _ _ _)).bind (fun c => ?_)))
  refine Reports.branch _ ?_ (Reports.ret _)
  exact (Reports.lib _).bind (fun br => (Reports.update _).bind (fun _ => optionalBridge_reports hn _))

theorem addAllBi_reports (hn : e.Notes noted) (ts : Bool) (ti : Int) (tv : V) (nearest : Int) (ps : Propagation V) :
    ∀ mapping, Reports noted (addAllBi e ts ti tv nearest ps mapping) := by
  induction ps with
  | nil => intro mapping; exact Reports.ret _
  | cons p ps ih =>
    intro mapping
    obtain ⟨v, rel⟩ := p
    unfold addAllBi
    exact (insertBi_reports nearest mapping v rel).bind (fun i => (addedBi_reports hn i).bind (fun _ =>
      (tryBridge_reports hn ts ti tv i).bind (fun _ => ih _)))

theorem chooseTarget_reports (hn : e.Notes noted) (ts : Bool) : Reports noted (chooseTarget e ts) := by
  unfold chooseTarget
  refine Reports.branch _ ?_ ?_
  · exact Reports.look.bind (fun w => (Reports.call (hn.treeSample _ _)).bind (fun k => (Reports.lib _).bind (fun n => Reports.ret _)))
  · exact (Reports.call hn.stateSample).bind (fun v => Reports.ret _)

theorem selectActiveBi_reports (hn : e.Notes noted) : Reports noted (selectActiveBi e) := by
  unfold selectActiveBi
  exact Reports.look.bind (fun w => (Reports.call (hn.selectActive _ _ _)).bind (fun _ => Reports.update _))

theorem grow_reports (hn : e.Notes noted) (ts : Bool) (target : Int × V) (nearest : Int) (ps : Propagation V) :
    Reports noted (grow e ts target nearest ps) := by
  cases ps with
  | nil => exact Reports.update _
  | cons p rest => exact (Reports.update _).bind (fun _ => addAllBi_reports hn _ _ _ _ _ _)

theorem biStep_reports (hn : e.Notes noted) : Reports noted (biStep e) := by
  unfold biStep
  refine (Reports.update _).bind (fun _ => Reports.look.bind (fun w => (Reports.call (hn.selectSample _ _ _)).bind (fun ty => ?_)))
  refine (chooseTarget_reports hn ty).bind (fun target => (Reports.update _).bind (fun _ => ?_))
  refine (Reports.call (hn.nearest _ _ _)).bind (fun nn => (Reports.lib _).bind (fun q => ?_))
  exact (Reports.call (hn.propagate _ _ _)).bind (fun ps => (grow_reports hn _ _ _ _).bind (fun _ => selectActiveBi_reports hn))

theorem biLoop_reports (hn : e.Notes noted) (fuel : Nat) : Reports noted (biLoop e fuel) := by
  induction fuel with
  | zero => exact Reports.more
  | succ fuel ih =>
    unfold biLoop
    refine Reports.look.bind (fun w => (Reports.call (hn.terminate _ _)).bind (fun b => ?_))
    exact Reports.branch _ (Reports.ret _) ((biStep_reports hn).bind (fun _ => ih))

theorem extractBi_reports (fuel : Nat) : Reports noted (extractBi (V := V) fuel) := by
  unfold extractBi
  refine Reports.look.bind (fun w => ?_)
  split
  · exact (Reports.lib _).bind (fun _ => Reports.ret _)
  · exact Reports.more

theorem biBody_reports (hn : e.Notes noted) (fuel : Nat) : Reports noted (biBody e fuel) := by
  unfold biBody
  refine Reports.look.bind (fun w => Reports.branch _ (Reports.lib _) (Reports.branch _ (Reports.lib _) ?_))
  exact (initialBridges_reports hn fuel 0 0).bind (fun _ => (biLoop_reports hn fuel).bind (fun _ => extractBi_reports fuel))

/-- C104. The bidirectional planner ends with an exception of a function given to it exactly if one was thrown, and with that
one. -/
theorem C104_bi_exceptions (hn : e.Notes noted) (fuel : Nat) (a b : Tree V) (t' : Tree V × Tree V) (s s' : σ)
    (hs : noted s = none) (o : Except (Thrown ε) (BiResult V)) (h : biRRTPlanMultiPath e fuel a b s = some (o, t', s')) :
    ∀ x, o = .error (.user x) ↔ noted s' = some x := by
  unfold biRRTPlanMultiPath at h
  rw [Option.map_eq_some_iff] at h
  obtain ⟨⟨o1, w1, s1⟩, h1, h2⟩ := h
  simp only [Prod.mk.injEq] at h2
  obtain ⟨rfl, rfl, rfl⟩ := h2
  have := biBody_reports hn fuel _ s hs _ _ _ h1
  intro x
  rcases o1 with (y | y) | r <;> simp_all

/-! ### Nothing is called after an exception -/

theorem callBridge_same {f g : σ → Tree V → Int → Tree V → Int → Side → (Option ε × Tree V × Tree V) × σ}
    (h : ∀ s a i b j x, noted s = none → f s a i b j x = g s a i b j x) (br : Int × Int) :
    Same noted (callBridge f br) (callBridge g br) := by
  intro w s hs
  simp only [callBridge, bind_seq, seq, look, callRef, h _ _ _ _ _ _ hs]

variable (ha : BiEnv.Alike (fun s => noted s = none) e e')
include ha

theorem untestedBridge_same (br : Int × Int) :
    Same noted (untestedBridge e.bridgeCallback br) (untestedBridge e'.bridgeCallback br) := by
  have := ha.bridgeCallback
  cases hf : e.bridgeCallback <;> cases hg : e'.bridgeCallback <;> rw [hf, hg] at this <;> simp only at this
  · exact Same.rfl' _
  · exact callBridge_same this br

theorem optionalBridge_same (br : Int × Int) :
    Same noted (optionalBridge e.bridgeCallback br) (optionalBridge e'.bridgeCallback br) := by
  have := ha.bridgeCallback
  cases hf : e.bridgeCallback <;> cases hg : e'.bridgeCallback <;> rw [hf, hg] at this <;> simp only at this
  · exact Same.rfl' _
  · exact callBridge_same this br

theorem initialBridges_same (hn : e.Notes noted) (fuel : Nat) : ∀ i j,
    Same noted (initialBridges e fuel i j) (initialBridges e' fuel i j) := by
  induction fuel with
  | zero => intro i j; exact Same.rfl' _
  | succ fuel ih =>
    intro i j
    unfold initialBridges
    refine Same.bind Reports.look (Same.rfl' _) (fun w => Same.branch _ (Same.branch _ ?_ (ih _ _)) (Same.rfl' _))
    refine Same.bind (Reports.lib _) (Same.rfl' _) (fun a => Same.bind (Reports.lib _) (Same.rfl' _) (fun b => ?_))
    refine Same.bind (Reports.call (hn.connected _ _ _)) (Same.call (fun s hs => ha.connected s _ _ _ hs)) (fun c => ?_)
    refine Same.branch _ ?_ (ih _ _)
    refine Same.bind (Reports.lib _) (Same.rfl' _) (fun br => Same.bind (Reports.update _) (Same.rfl' _) (fun _ => ?_))
    exact Same.bind (untestedBridge_reports hn _) (untestedBridge_same ha _) (fun _ => ih _ _)

theorem addedBi_same (i : Int) : Same noted (addedBi e i) (addedBi e' i) := by
  have := ha.stateAdded
  intro w s hs
  simp only [addedBi, bind_seq, seq, look]
  cases hf : e.stateAdded <;> cases hg : e'.stateAdded <;> rw [hf, hg] at this <;> simp only at this
  simp only [callRef, this _ _ _ _ hs]

theorem tryBridge_same (hn : e.Notes noted) (ts : Bool) (ti : Int) (tv : V) (ni : Int) :
    Same noted (tryBridge e ts ti tv ni) (tryBridge e' ts ti tv ni) := by
  unfold tryBridge
  refine Same.branch _ ?_ (Same.rfl' _)
  refine Same.bind Reports.look (Same.rfl' _) (fun w => Same.bind (Reports.lib _) (Same.rfl' _) (fun n => ?_))
  refine Same.bind (Reports.call (hn.connected _ _ _)) (Same.call (fun s hs => ha.connected s _ _ _ hs)) (fun c => ?_)
  refine Same.branch _ ?_ (Same.rfl' _)
  refine Same.bind (Reports.lib _) (Same.rfl' _) (fun br => Same.bind (Reports.update _) (Same.rfl' _) (fun _ => ?_))
  exact optionalBridge_same ha _

theorem addAllBi_same (hn : e.Notes noted) (ts : Bool) (ti : Int) (tv : V) (nearest : Int) (ps : Propagation V) :
    ∀ mapping, Same noted (addAllBi e ts ti tv nearest ps mapping) (addAllBi e' ts ti tv nearest ps mapping) := by
  induction ps with
  | nil => intro mapping; exact Same.rfl' _
  | cons p ps ih =>
    intro mapping
    obtain ⟨v, rel⟩ := p
    unfold addAllBi
    refine Same.bind (insertBi_reports nearest mapping v rel) (Same.rfl' _) (fun i => ?_)
    refine Same.bind (addedBi_reports hn i) (addedBi_same ha i) (fun _ => ?_)
    exact Same.bind (tryBridge_reports hn ts ti tv i) (tryBridge_same ha hn ts ti tv i) (fun _ => ih _)

theorem chooseTarget_same (hn : e.Notes noted) (ts : Bool) : Same noted (chooseTarget e ts) (chooseTarget e' ts) := by
  unfold chooseTarget
  refine Same.branch _ ?_ ?_
  · refine Same.bind Reports.look (Same.rfl' _) (fun w => ?_)
    exact Same.bind (Reports.call (hn.treeSample _ _)) (Same.call (fun s hs => ha.treeSample s _ _ hs)) (fun k => Same.rfl' _)
  · exact Same.bind (Reports.call hn.stateSample) (Same.call ha.stateSample) (fun v => Same.rfl' _)

theorem selectActiveBi_same (hn : e.Notes noted) : Same noted (selectActiveBi e) (selectActiveBi e') := by
  unfold selectActiveBi
  refine Same.bind Reports.look (Same.rfl' _) (fun w => ?_)
  exact Same.bind (Reports.call (hn.selectActive _ _ _)) (Same.call (fun s hs => ha.selectActive s _ _ _ hs)) (fun _ => Same.rfl' _)

theorem grow_same (hn : e.Notes noted) (ts : Bool) (target : Int × V) (nearest : Int) (ps : Propagation V) :
    Same noted (grow e ts target nearest ps) (grow e' ts target nearest ps) := by
  cases ps with
  | nil => exact Same.rfl' _
  | cons p rest =>
    unfold grow
    exact Same.bind (Reports.update _) (Same.rfl' _) (fun _ => addAllBi_same ha hn _ _ _ _ _ _)

theorem biStep_same (hn : e.Notes noted) : Same noted (biStep e) (biStep e') := by
  unfold biStep
  refine Same.bind (Reports.update _) (Same.rfl' _) (fun _ => Same.bind Reports.look (Same.rfl' _) (fun w => ?_))
  refine Same.bind (Reports.call (hn.selectSample _ _ _)) (Same.call (fun s hs => ha.selectSample s _ _ _ hs)) (fun ty => ?_)
  refine Same.bind (chooseTarget_reports hn ty) (chooseTarget_same ha hn ty) (fun target => ?_)
  refine Same.bind (Reports.update _) (Same.rfl' _) (fun _ => ?_)
  refine Same.bind (Reports.call (hn.nearest _ _ _)) (Same.call (fun s hs => ha.nearest s _ _ _ hs)) (fun nn => ?_)
  refine Same.bind (Reports.lib _) (Same.rfl' _) (fun q => ?_)
  refine Same.bind (Reports.call (hn.propagate _ _ _)) (Same.call (fun s hs => ha.propagate s _ _ _ hs)) (fun ps => ?_)
  exact Same.bind (grow_reports hn _ _ _ _) (grow_same ha hn _ _ _ _) (fun _ => selectActiveBi_same ha hn)

theorem biLoop_same (hn : e.Notes noted) (fuel : Nat) : Same noted (biLoop e fuel) (biLoop e' fuel) := by
  induction fuel with
  | zero => exact Same.rfl' _
  | succ fuel ih =>
    unfold biLoop
    refine Same.bind Reports.look (Same.rfl' _) (fun w => ?_)
    refine Same.bind (Reports.call (hn.terminate _ _)) (Same.call (fun s hs => ha.terminate s _ _ hs)) (fun b => ?_)
    exact Same.branch _ (Same.rfl' _) (Same.bind (biStep_reports hn) (biStep_same ha hn) (fun _ => ih))

/-- C104. The bidirectional planner calls nothing after an exception: functions that behave alike as long as no exception has
been thrown give the same run. -/
theorem C104_bi_at_once (hn : e.Notes noted) (fuel : Nat) (a b : Tree V) (s : σ) (hs : noted s = none) :
    biRRTPlanMultiPath e' fuel a b s = biRRTPlanMultiPath e fuel a b s := by
  unfold biRRTPlanMultiPath
  congr 1
  symm
  refine (?_ : Same noted (biBody e fuel) (biBody e' fuel)) _ s hs
  unfold biBody
  refine Same.bind Reports.look (Same.rfl' _) (fun w => Same.branch _ (Same.rfl' _) (Same.branch _ (Same.rfl' _) ?_))
  refine Same.bind (initialBridges_reports hn fuel 0 0) (initialBridges_same ha hn fuel 0 0) (fun _ => ?_)
  exact Same.bind (biLoop_reports hn fuel) (biLoop_same ha hn fuel) (fun _ => Same.rfl' _)

omit ha

/-- C104. Bidirectional planner with callbacks that leave the trees alone: after an exception too, each tree is the given one,
linked as before, with nodes added behind. -/
theorem C104_bi_trees_grow (hro : ∀ f, e.stateAdded = some f → ∀ s t i x, (f s t i x).1.2 = t)
    (hrb : ∀ f, e.bridgeCallback = some f → ∀ s a i b j x, (f s a i b j x).1.2 = (a, b)) (fuel : Nat)
    (a b a' b' : Tree V) (s s' : σ) (o : Except (Thrown ε) (BiResult V)) (hla : Linked a) (hlb : Linked b)
    (h : biRRTPlanMultiPath e fuel a b s = some (o, (a', b'), s')) :
    (Linked a' ∧ ∀ (i : Nat) n, a[i]? = some n → ∃ m, a'[i]? = some m ∧ m.value = n.value ∧ m.parent = n.parent) ∧
    (Linked b' ∧ ∀ (i : Nat) n, b[i]? = some n → ∃ m, b'[i]? = some m ∧ m.value = n.value ∧ m.parent = n.parent) := by
  refine C104_bi_trees C104_keep.2 (e := e) ⟨?_, ?_⟩ fuel a b a' b' s s' o hla hlb h
  · intro f hf s t i x hl
    rw [hro f hf]
    exact ⟨hl, C104_keep.2.refl t⟩
  · intro f hf s a i b j x h1 h2
    rw [hrb f hf]
    exact ⟨⟨h1, C104_keep.2.refl a⟩, h2, C104_keep.2.refl b⟩

/-! ### The single-path planner -/

theorem biSingle_keeps (hc : e.Keeps K) (hK : Keep K) : (singleBiEnv e).Keeps K := by
  constructor
  · intro f hf s t i x hl
    simp only [singleBiEnv, Option.map_eq_some_iff] at hf
    obtain ⟨g, hg, rfl⟩ := hf
    exact hc.stateAdded g hg s.1 t i x hl
  · intro f hf s a i b j x h1 h2
    simp only [singleBiEnv, Option.some.injEq] at hf
    subst hf
    cases hg : e.bridgeCallback with
    | none => exact ⟨⟨h1, hK.refl a⟩, h2, hK.refl b⟩
    | some g => exact hc.bridgeCallback g hg s.1 a i b j x h1 h2

theorem biSingle_notes (hn : e.Notes noted) : (singleBiEnv e).Notes (fun s => noted s.1) := by
  refine ⟨fun a b x s hs => hn.selectSample a b x s.1 hs, fun s hs => hn.stateSample s.1 hs,
    fun t x s hs => hn.treeSample t x s.1 hs, fun t v x s hs => hn.nearest t v x s.1 hs,
    fun q v x s hs => hn.propagate q v x s.1 hs, ?_, fun a b x s hs => hn.connected a b x s.1 hs, ?_,
    fun a b x s hs => hn.selectActive a b x s.1 hs, ?_⟩
  · intro f hf i x s t hs
    simp only [singleBiEnv, Option.map_eq_some_iff] at hf
    obtain ⟨g, hg, rfl⟩ := hf
    exact hn.stateAdded g hg i x s.1 t hs
  · intro f hf i j x s t hs
    simp only [singleBiEnv, Option.some.injEq] at hf
    subst hf
    cases hg : e.bridgeCallback with
    | none => exact hs
    | some g => exact hn.bridgeCallback g hg i j x s.1 t hs
  · intro m n s hs
    rcases s with ⟨s, b⟩
    cases b with
    | true => exact ⟨fun a _ => hs, fun x hx => by simp [singleBiEnv] at hx⟩
    | false => exact hn.terminate m n s hs

theorem biSingle_cases {fuel : Nat} {a b : Tree V} {t' : Tree V × Tree V} {s s' : σ}
    {o : Except (Thrown ε) (List V × BiStats)} (h : biRRTPlanSinglePath e fuel a b s = some (o, t', s')) :
    ∃ o' f, biRRTPlanMultiPath (singleBiEnv e) fuel a b (s, false) = some (o', t', (s', f)) ∧
      ∀ x, o = .error x ↔ o' = .error x := by
  unfold biRRTPlanSinglePath at h
  split at h
  · rename_i r t1 s1 h1
    simp only [Option.some.injEq, Prod.mk.injEq] at h
    obtain ⟨rfl, rfl, rfl⟩ := h
    exact ⟨.ok r, s1.2, h1, fun x => by simp⟩
  · rename_i x t1 s1 h1
    simp only [Option.some.injEq, Prod.mk.injEq] at h
    obtain ⟨rfl, rfl, rfl⟩ := h
    exact ⟨.error x, s1.2, h1, fun x => by simp⟩
  · cases h

/-- C104. The same for `BiRRTPlanSinglePath`. -/
theorem C104_bi_single (hK : Keep K) (hc : e.Keeps K) (hn : e.Notes noted) (fuel : Nat) (a b a' b' : Tree V) (s s' : σ)
    (hs : noted s = none) (o : Except (Thrown ε) (List V × BiStats)) (hla : Linked a) (hlb : Linked b)
    (h : biRRTPlanSinglePath e fuel a b s = some (o, (a', b'), s')) :
    ((Linked a' ∧ K a a') ∧ Linked b' ∧ K b b') ∧ (∀ x, o = .error (.user x) ↔ noted s' = some x) := by
  obtain ⟨o', f, h1, h2⟩ := biSingle_cases h
  refine ⟨C104_bi_trees hK (biSingle_keeps hc hK) fuel a b a' b' (s, false) (s', f) o' hla hlb h1, fun x => ?_⟩
  rw [h2]
  exact C104_bi_exceptions (biSingle_notes hn) fuel a b (a', b') (s, false) (s', f) hs o' h1 x

theorem biSingle_alike (ha : BiEnv.Alike (fun s => noted s = none) e e') :
    BiEnv.Alike (fun s : σ × Bool => noted s.1 = none) (singleBiEnv e) (singleBiEnv e') := by
  refine ⟨?_, ?_, ?_, ?_, ?_, ?_, ?_, ?_, ?_, ?_⟩
  · intro s a b x hs; simp only [singleBiEnv, ha.selectSample s.1 a b x hs]
  · intro s hs; simp only [singleBiEnv, ha.stateSample s.1 hs]
  · intro s t x hs; simp only [singleBiEnv, ha.treeSample s.1 t x hs]
  · intro s t v x hs; simp only [singleBiEnv, ha.nearest s.1 t v x hs]
  · intro s q v x hs; simp only [singleBiEnv, ha.propagate s.1 q v x hs]
  · have := ha.stateAdded
    unfold singleBiEnv
    cases hf : e.stateAdded <;> cases hg : e'.stateAdded <;> rw [hf, hg] at this <;>
      simp only [Option.map_none, Option.map_some] at this ⊢
    intro s t i x hs
    rw [this _ _ _ _ hs]
  · intro s a b x hs; simp only [singleBiEnv, ha.connected s.1 a b x hs]
  · have := ha.bridgeCallback
    unfold singleBiEnv
    cases hf : e.bridgeCallback <;> cases hg : e'.bridgeCallback <;> rw [hf, hg] at this <;>
      simp only at this ⊢
    · intros; trivial
    intro s a i b j x hs
    rw [this _ _ _ _ _ _ hs]
  · intro s a b x hs; simp only [singleBiEnv, ha.selectActive s.1 a b x hs]
  · intro s m n hs; simp only [singleBiEnv, ha.terminate s.1 m n hs]

/-- C104. `BiRRTPlanSinglePath` calls nothing after an exception. -/
theorem C104_bi_single_at_once (hn : e.Notes noted) (ha : BiEnv.Alike (fun s => noted s = none) e e') (fuel : Nat)
    (a b : Tree V) (s : σ) (hs : noted s = none) : biRRTPlanSinglePath e' fuel a b s = biRRTPlanSinglePath e fuel a b s := by
  unfold biRRTPlanSinglePath
  rw [C104_bi_at_once (biSingle_alike ha) (biSingle_notes hn) fuel a b (s, false) hs]

/-! ### An example -/

/-- Two trees that grow upwards in turn; the connection check throws when asked about the state 11. -/
def meetEnv : BiEnv (Option Nat) Nat Nat where
  selectSample s _ _ _ := (.ok true, s)
  stateSample s := (.ok 0, s)
  treeSample s t _ := (.ok (t.length - 1), s)
  nearest s t _ _ := (.ok (t.length - 1), s)
  propagate s q _ _ := (.ok [(q + 1, -1)], s)
  stateAdded := none
  connected s a _ _ := if a = 11 then (.error 11, some 11) else (.ok false, s)
  bridgeCallback := none
  selectActive s _ _ x := (.ok x.other, s)
  terminate s _ _ := (.ok false, s)

example : biRRTPlanMultiPath meetEnv 5 [⟨0, -1, []⟩] [⟨10, -1, []⟩] none =
    some (.error (.user 11), ([⟨0, -1, [1]⟩, ⟨1, 0, []⟩], [⟨10, -1, [1]⟩, ⟨11, 0, []⟩]), some 11) := by
  rfl

example : biRRTPlanSinglePath meetEnv 5 [⟨0, -1, []⟩] [⟨10, -1, []⟩] none =
    some (.error (.user 11), ([⟨0, -1, [1]⟩, ⟨1, 0, []⟩], [⟨10, -1, [1]⟩, ⟨11, 0, []⟩]), some 11) := by
  rfl

example : meetEnv.Keeps (fun t t' => t.length ≤ t'.length) ∧ meetEnv.Notes id := by
  refine ⟨⟨?_, ?_⟩, ⟨?_, ?_, ?_, ?_, ?_, ?_, ?_, ?_, ?_, ?_⟩⟩
  · intro f hf; cases hf
  · intro f hf; cases hf
  · intro a b x s hs; exact ⟨fun a _ => hs, fun x hx => by cases hx⟩
  · intro s hs; exact ⟨fun a _ => hs, fun x hx => by cases hx⟩
  · intro a b s hs; exact ⟨fun a _ => hs, fun x hx => by cases hx⟩
  · intro a b x s hs; exact ⟨fun a _ => hs, fun x hx => by cases hx⟩
  · intro a b x s hs; exact ⟨fun a _ => hs, fun x hx => by cases hx⟩
  · intro f hf; cases hf
  · intro a b x s hs
    by_cases h : a = 11
    · subst h; exact ⟨fun a h => (by cases h), fun x hx => by cases hx; rfl⟩
    · simp only [meetEnv, h, if_false]; exact ⟨fun a _ => hs, fun x hx => by cases hx⟩
  · intro f hf; cases hf
  · intro a b x s hs; exact ⟨fun a _ => hs, fun x hx => by cases hx⟩
  · intro m n s hs; exact ⟨fun a _ => hs, fun x hx => by cases hx⟩

end CRU.Rrt.Throw
