import Verif.Rrt.Throw
import Verif.Rrt.PlanMore
/-
  C104 for the single-direction planners: exceptions of user-supplied functions leave the planner at once and unchanged, and
  the tree they leave behind is valid.
-/
namespace CRU.Rrt.Throw

variable {V S σ ε W α β : Type}

/-! ### Vocabulary -/

/-- A user-supplied function that notes in the environment which exception it threw: `noted s` is that exception, if any. -/
def Notes (noted : σ → Option ε) (f : σ → Except ε α × σ) : Prop :=
  ∀ s, noted s = none →
    (∀ a, (f s).1 = .ok a → noted (f s).2 = none) ∧ (∀ x, (f s).1 = .error x → noted (f s).2 = some x)

/-- The same for a function that gets a mutable reference. -/
def NotesRef {T : Type} (noted : σ → Option ε) (f : σ → T → (Option ε × T) × σ) : Prop :=
  ∀ s t, noted s = none → noted (f s t).2 = (f s t).1.1

/-- Every function given to the planner notes the exception it throws. -/
structure Env.Notes (e : Env σ ε V S) (noted : σ → Option ε) : Prop where
  sample : Throw.Notes noted e.sample
  nearest : ∀ t x, Throw.Notes noted (fun s => e.nearest s t x)
  propagate : ∀ q x, Throw.Notes noted (fun s => e.propagate s q x)
  stateAdded : ∀ f, e.stateAdded = some f → ∀ i, NotesRef noted (fun s t => f s t i)
  goalReached : ∀ v, Throw.Notes noted (fun s => e.goalReached s v)
  goalCallback : ∀ f, e.goalCallback = some f → ∀ i, NotesRef noted (fun s t => f s t i)
  terminate : ∀ n, Throw.Notes noted (fun s => e.terminate s n)

/-- Two optional callbacks behave alike on the environments satisfying `P`. -/
def AlikeCb (P : σ → Prop) (f g : Option (σ → Tree V → Int → (Option ε × Tree V) × σ)) : Prop :=
  match f, g with
  | some f, some g => ∀ s t i, P s → f s t i = g s t i
  | none, none => True
  | _, _ => False

/-- The functions of `e` and `e'` behave alike on the environments satisfying `P`. -/
structure Env.Alike (P : σ → Prop) (e e' : Env σ ε V S) : Prop where
  sample : ∀ s, P s → e.sample s = e'.sample s
  nearest : ∀ s t x, P s → e.nearest s t x = e'.nearest s t x
  propagate : ∀ s q x, P s → e.propagate s q x = e'.propagate s q x
  stateAdded : AlikeCb P e.stateAdded e'.stateAdded
  goalReached : ∀ s v, P s → e.goalReached s v = e'.goalReached s v
  goalCallback : AlikeCb P e.goalCallback e'.goalCallback
  terminate : ∀ s n, P s → e.terminate s n = e'.terminate s n

/-- What callbacks with a mutable reference may do to a tree in a planner run, such that indices stay meaningful: `K t t'`
relates a tree to what it may become. -/
structure Keep (K : Tree V → Tree V → Prop) : Prop where
  refl : ∀ t, K t t
  trans : ∀ t t' t'', K t t' → K t' t'' → K t t''
  length : ∀ t t', K t t' → t.length ≤ t'.length
  add : ∀ t v p, 0 ≤ p → p < (t.length : Int) → Linked t → K t (addNodeAndConnect t v p).1

/-- Whether they return or throw, the callbacks leave a linked tree behind, related by `K` to the one they were given. -/
structure Env.Keeps (K : Tree V → Tree V → Prop) (e : Env σ ε V S) : Prop where
  stateAdded : ∀ f, e.stateAdded = some f → ∀ s t i, Linked t → Linked (f s t i).1.2 ∧ K t (f s t i).1.2
  goalCallback : ∀ f, e.goalCallback = some f → ∀ s t i, Linked t → Linked (f s t i).1.2 ∧ K t (f s t i).1.2

theorem bind_seq (m : Code W σ ε α) (f : α → Code W σ ε β) : (m >>= f) = seq m f := rfl

theorem pure_ret (a : α) : (pure a : Code W σ ε α) = ret a := rfl

/-! ### Hoare triples -/

/-- From `P`, `m` ends with value and variables in `Q`, or throws with variables in `E`. -/
def Triple (P : W → Prop) (m : Code W σ ε α) (Q : α → W → Prop) (E : W → Prop) : Prop :=
  ∀ w s, P w → ∀ o w' s', m w s = some (o, w', s') →
    (∀ a, o = .ok a → Q a w') ∧ (∀ x, o = .error x → E w')

theorem Triple.bind {P : W → Prop} {m : Code W σ ε α} {Q : α → W → Prop} {E : W → Prop} {f : α → Code W σ ε β}
    {R : β → W → Prop} (h : Triple P m Q E) (hf : ∀ a, Triple (Q a) (f a) R E) : Triple P (m >>= f) R E := by
  intro w s hw o w' s' hm
  change seq m f w s = _ at hm
  unfold seq at hm
  cases hmw : m w s with
  | none => rw [hmw] at hm; cases hm
  | some r =>
    obtain ⟨o1, w1, s1⟩ := r
    rw [hmw] at hm
    obtain ⟨h1, h2⟩ := h w s hw o1 w1 s1 hmw
    cases o1 with
    | ok a => exact hf a w1 s1 (h1 a rfl) o w' s' hm
    | error x =>
      simp only [Option.some.injEq, Prod.mk.injEq] at hm
      obtain ⟨rfl, rfl, rfl⟩ := hm
      exact ⟨fun a ha => by simp at ha, fun y _ => h2 x rfl⟩

theorem Triple.weaken {P P' : W → Prop} {m : Code W σ ε α} {Q Q' : α → W → Prop} {E E' : W → Prop} (h : Triple P m Q E)
    (hp : ∀ w, P' w → P w) (hq : ∀ a w, Q a w → Q' a w) (he : ∀ w, E w → E' w) : Triple P' m Q' E' := by
  intro w s hw o w' s' hm
  obtain ⟨h1, h2⟩ := h w s (hp w hw) o w' s' hm
  exact ⟨fun a ha => hq a w' (h1 a ha), fun x hx => he w' (h2 x hx)⟩

theorem Triple.ret {P : W → Prop} {E : W → Prop} (a : α) {Q : α → W → Prop} (h : ∀ w, P w → Q a w) :
    Triple (σ := σ) (ε := ε) P (pure a) Q E := by
  intro w s hw o w' s' hm
  change some _ = _ at hm
  simp only [Option.some.injEq, Prod.mk.injEq] at hm
  obtain ⟨rfl, rfl, rfl⟩ := hm
  exact ⟨fun b hb => by cases hb; exact h _ hw, fun x hx => nomatch hx⟩

theorem Triple.more {P : W → Prop} {E : W → Prop} {Q : α → W → Prop} : Triple (σ := σ) (ε := ε) P more Q E := by
  intro w s hw o w' s' hm; cases hm

theorem Triple.look {P : W → Prop} {E : W → Prop} : Triple (σ := σ) (ε := ε) P look (fun a w => w = a ∧ P w) E := by
  intro w s hw o w' s' hm
  change some _ = _ at hm
  simp only [Option.some.injEq, Prod.mk.injEq] at hm
  obtain ⟨rfl, rfl, rfl⟩ := hm
  exact ⟨fun b hb => by cases hb; exact ⟨rfl, hw⟩, fun x hx => nomatch hx⟩

theorem Triple.update {P : W → Prop} {E : W → Prop} (f : W → W) {Q : W → Prop} (h : ∀ w, P w → Q (f w)) :
    Triple (σ := σ) (ε := ε) P (update f) (fun _ => Q) E := by
  intro w s hw o w' s' hm
  change some _ = _ at hm
  simp only [Option.some.injEq, Prod.mk.injEq] at hm
  obtain ⟨rfl, rfl, rfl⟩ := hm
  exact ⟨fun b hb => h _ hw, fun x hx => nomatch hx⟩

theorem Triple.lib {P : W → Prop} {E : W → Prop} (r : Res α) (h : ∀ w, P w → E w) :
    Triple (σ := σ) (ε := ε) P (lib r) (fun a w => r = .ok a ∧ P w) E := by
  intro w s hw o w' s' hm
  cases r with
  | ok a =>
    change some _ = _ at hm
    simp only [Option.some.injEq, Prod.mk.injEq] at hm
    obtain ⟨rfl, rfl, rfl⟩ := hm
    exact ⟨fun b hb => by cases hb; exact ⟨rfl, hw⟩, fun x hx => nomatch hx⟩
  | throw x =>
    change some _ = _ at hm
    simp only [Option.some.injEq, Prod.mk.injEq] at hm
    obtain ⟨rfl, rfl, rfl⟩ := hm
    exact ⟨fun b hb => (nomatch hb), fun y hy => h _ hw⟩
  | ub =>
    change some _ = _ at hm
    simp only [Option.some.injEq, Prod.mk.injEq] at hm
    obtain ⟨rfl, rfl, rfl⟩ := hm
    exact ⟨fun b hb => (nomatch hb), fun y hy => h _ hw⟩

theorem Triple.call {P : W → Prop} {E : W → Prop} (f : σ → Except ε α × σ) (h : ∀ w, P w → E w) :
    Triple P (call f) (fun _ w => P w) E := by
  intro w s hw o w' s' hm
  unfold Throw.call at hm
  rcases hf : f s with ⟨r, s1⟩
  rw [hf] at hm
  cases r with
  | ok a =>
    simp only [Option.some.injEq, Prod.mk.injEq] at hm
    obtain ⟨rfl, rfl, rfl⟩ := hm
    exact ⟨fun b hb => hw, fun x hx => nomatch hx⟩
  | error x =>
    simp only [Option.some.injEq, Prod.mk.injEq] at hm
    obtain ⟨rfl, rfl, rfl⟩ := hm
    exact ⟨fun b hb => (nomatch hb), fun y hy => h _ hw⟩

theorem Triple.callRef {T : Type} {P Q : W → Prop} {E : W → Prop} {get : W → T} {set : W → T → W}
    {f : σ → T → (Option ε × T) × σ} (hq : ∀ w s, P w → Q (set w (f s (get w)).1.2)) (he : ∀ w, Q w → E w) :
    Triple P (callRef get set f) (fun _ => Q) E := by
  intro w s hw o w' s' hm
  have := hq w s hw
  unfold Throw.callRef at hm
  rcases hf : f s (get w) with ⟨⟨r, t⟩, s1⟩
  rw [hf] at hm this
  cases r with
  | none =>
    simp only [Option.some.injEq, Prod.mk.injEq] at hm
    obtain ⟨rfl, rfl, rfl⟩ := hm
    exact ⟨fun b hb => this, fun x hx => nomatch hx⟩
  | some x =>
    simp only [Option.some.injEq, Prod.mk.injEq] at hm
    obtain ⟨rfl, rfl, rfl⟩ := hm
    exact ⟨fun b hb => (nomatch hb), fun y hy => he _ this⟩

theorem Triple.branch {P : W → Prop} {Q : α → W → Prop} {E : W → Prop} (c : Prop) [Decidable c] {m m' : Code W σ ε α}
    (h : c → Triple P m Q E) (h' : ¬ c → Triple P m' Q E) : Triple P (if c then m else m') Q E := by
  split
  · exact h ‹_›
  · exact h' ‹_›

/-! ### The tree left behind -/

/-- The tree of the variables is linked, related to `t₀`, and contains the nodes `l`. -/
def Has (K : Tree V → Tree V → Prop) (t₀ : Tree V) (l : List Int) (w : Vars V) : Prop :=
  Linked w.tree ∧ K t₀ w.tree ∧ ∀ i ∈ l, 0 ≤ i ∧ i < (w.tree.length : Int)

variable {K : Tree V → Tree V → Prop} {t₀ : Tree V} {e e' : Env σ ε V S}

theorem Has.nil {l : List Int} {w : Vars V} (h : Has K t₀ l w) : Has K t₀ [] w := ⟨h.1, h.2.1, by simp⟩

theorem callback_has (hK : Keep K) {f : σ → Tree V → Int → (Option ε × Tree V) × σ}
    (hf : ∀ s t i, Linked t → Linked (f s t i).1.2 ∧ K t (f s t i).1.2) (i : Int) (l : List Int) :
    Triple (Has K t₀ l) (callRef Vars.tree (fun w t => { w with tree := t }) (fun s t => f s t i))
      (fun _ => Has K t₀ l) (Has K t₀ []) := by
  refine Triple.callRef ?_ (fun w h => h.nil)
  intro w s hw
  obtain ⟨h1, h2⟩ := hf s w.tree i hw.1
  refine ⟨h1, hK.trans _ _ _ hw.2.1 h2, ?_⟩
  intro j hj
  have := hK.length _ _ h2
  have := hw.2.2 j hj
  constructor
  · omega
  · show j < (((f s w.tree i).1.2).length : Int)
    omega

theorem optional_has (hK : Keep K) {cb : Option (σ → Tree V → Int → (Option ε × Tree V) × σ)}
    (hf : ∀ f, cb = some f → ∀ s t i, Linked t → Linked (f s t i).1.2 ∧ K t (f s t i).1.2) (i : Int) (l : List Int) :
    Triple (Has K t₀ l) (optional cb i) (fun _ => Has K t₀ l) (Has K t₀ []) := by
  cases cb with
  | none => exact Triple.ret _ (fun w h => h)
  | some f => exact callback_has hK (hf f rfl) i l

theorem untested_has (hK : Keep K) {cb : Option (σ → Tree V → Int → (Option ε × Tree V) × σ)}
    (hf : ∀ f, cb = some f → ∀ s t i, Linked t → Linked (f s t i).1.2 ∧ K t (f s t i).1.2) (i : Int) (l : List Int) :
    Triple (Has K t₀ l) (untested cb i) (fun _ => Has K t₀ l) (Has K t₀ []) := by
  cases cb with
  | none =>
    unfold untested
    exact (Triple.lib (P := Has K t₀ l) (E := Has K t₀ []) _ (fun w h => h.nil)).weaken (fun w h => h) (fun _ w h => h.2) (fun w h => h)
  | some f => exact callback_has hK (hf f rfl) i l

theorem initialCheck_has (hK : Keep K) (hc : e.Keeps K) (fuel : Nat) : ∀ idx,
    Triple (Has K t₀ []) (initialCheck e fuel idx) (fun _ => Has K t₀ []) (Has K t₀ []) := by
  induction fuel with
  | zero => intro idx; exact Triple.more
  | succ fuel ih =>
    intro idx
    unfold initialCheck
    refine Triple.bind Triple.look (fun w => ?_)
    refine Triple.branch _ (fun _ => ?_) (fun _ => Triple.ret _ (fun w h => h.2))
    refine Triple.bind ((Triple.lib _ (fun w h => h.2)).weaken (fun w h => h) (fun _ w h => h.2.2) (fun w h => h)) (fun n => ?_)
    refine Triple.bind (Triple.call _ (fun w h => h)) (fun g => ?_)
    refine Triple.branch _ (fun _ => ?_) (fun _ => ih _)
    refine Triple.bind (Triple.update (Q := Has K t₀ []) _ (fun w h => h)) (fun _ => ?_)
    exact Triple.bind (untested_has hK hc.goalCallback idx []) (fun _ => ih _)

theorem addPropagated_has (hK : Keep K) {nearest : Int} {mapping : List Int} {v : V} {rel : Int} {w : Vars V}
    (h : Has K t₀ (nearest :: mapping) w) :
    Has K t₀ (nearest :: mapping) { w with tree := (addPropagated w.tree nearest mapping v rel).1 } ∧
    ∀ i, (addPropagated w.tree nearest mapping v rel).2 = .ok i →
      0 ≤ i ∧ i < ((addPropagated w.tree nearest mapping v rel).1.length : Int) := by
  have key : ∀ p : Int, p ∈ nearest :: mapping →
      Has K t₀ (nearest :: mapping) { w with tree := (addNodeAndConnect w.tree v p).1 } ∧
      ∀ i, (addNodeAndConnect w.tree v p).2 = .ok i → 0 ≤ i ∧ i < ((addNodeAndConnect w.tree v p).1.length : Int) := by
    intro p hp
    obtain ⟨h0, h1⟩ := h.2.2 p hp
    obtain ⟨l1, -, l3, l4, -, -⟩ := C36_connect_partial w.tree v p h0 h1 h.1
    refine ⟨⟨l1, hK.trans _ _ _ h.2.1 (hK.add _ _ _ h0 h1 h.1), ?_⟩, ?_⟩
    · intro j hj
      have := h.2.2 j hj
      show 0 ≤ j ∧ j < ((addNodeAndConnect w.tree v p).1.length : Int)
      omega
    · intro i hi
      rw [l3] at hi; cases hi
      omega
  unfold addPropagated
  by_cases hr : rel ≥ 0
  · rw [if_pos hr]
    cases hm : atInt mapping rel with
    | ok p =>
      refine key p (List.mem_cons_of_mem _ ?_)
      unfold atInt at hm
      rw [if_neg (by omega)] at hm
      unfold atChecked at hm
      split at hm
      · cases hm; exact List.mem_of_getElem? ‹_›
      · cases hm
    | throw x => exact ⟨h, fun i hi => nomatch hi⟩
    | ub => exact ⟨h, fun i hi => nomatch hi⟩
  · rw [if_neg hr]
    exact key nearest List.mem_cons_self

theorem insert_has (hK : Keep K) (nearest : Int) (mapping : List Int) (v : V) (rel : Int) :
    Triple (σ := σ) (ε := ε) (Has K t₀ (nearest :: mapping)) (insert nearest mapping v rel)
      (fun i => Has K t₀ (nearest :: (mapping ++ [i]))) (Has K t₀ []) := by
  intro w s hw o w' s' hm
  obtain ⟨h1, h2⟩ := addPropagated_has hK (v := v) (rel := rel) hw
  unfold insert at hm
  simp only [bind_seq, seq, look, update] at hm
  cases hr : (addPropagated w.tree nearest mapping v rel).2 with
  | ok i =>
    rw [hr] at hm
    simp only [lib, ret, Option.some.injEq, Prod.mk.injEq] at hm
    obtain ⟨rfl, rfl, rfl⟩ := hm
    refine ⟨fun a ha => ?_, fun x hx => nomatch hx⟩
    cases ha
    refine ⟨h1.1, h1.2.1, ?_⟩
    intro j hj
    rw [← List.cons_append, List.mem_append, List.mem_singleton] at hj
    rcases hj with hj | rfl
    · exact h1.2.2 j hj
    · exact h2 _ hr
  | throw x =>
    rw [hr] at hm
    simp only [lib, Option.some.injEq, Prod.mk.injEq] at hm
    obtain ⟨rfl, rfl, rfl⟩ := hm
    exact ⟨fun a ha => (nomatch ha), fun _ _ => h1.nil⟩
  | ub =>
    rw [hr] at hm
    simp only [lib, Option.some.injEq, Prod.mk.injEq] at hm
    obtain ⟨rfl, rfl, rfl⟩ := hm
    exact ⟨fun a ha => (nomatch ha), fun _ _ => h1.nil⟩

theorem addAll_has (hK : Keep K) (hc : e.Keeps K) (nearest : Int) (ps : Propagation V) : ∀ mapping,
    Triple (Has K t₀ (nearest :: mapping)) (addAll e nearest ps mapping) (fun _ => Has K t₀ []) (Has K t₀ []) := by
  induction ps with
  | nil => intro mapping; exact Triple.ret _ (fun w h => h.nil)
  | cons p ps ih =>
    intro mapping
    obtain ⟨v, rel⟩ := p
    unfold addAll
    refine Triple.bind (insert_has hK nearest mapping v rel) (fun i => ?_)
    refine Triple.bind (optional_has hK hc.stateAdded i _) (fun _ => ?_)
    refine Triple.bind Triple.look (fun w => ?_)
    refine Triple.bind ((Triple.lib _ (fun w h => h.2.nil)).weaken (fun w h => h) (fun _ w h => h.2.2) (fun w h => h)) (fun n => ?_)
    refine Triple.bind (Triple.call _ (fun w h => h.nil)) (fun g => ?_)
    refine Triple.branch _ (fun _ => ?_) (fun _ => ih _)
    refine Triple.bind (Triple.update (Q := Has K t₀ (nearest :: (mapping ++ [i]))) _ (fun w h => h)) (fun _ => ?_)
    exact Triple.bind (optional_has hK hc.goalCallback i _) (fun _ => ih _)

theorem planStep_has (hK : Keep K) (hc : e.Keeps K) :
    Triple (Has K t₀ []) (planStep e) (fun _ => Has K t₀ []) (Has K t₀ []) := by
  unfold planStep
  refine Triple.bind (Triple.call _ (fun w h => h)) (fun x => ?_)
  refine Triple.bind (Triple.update (Q := Has K t₀ []) _ (fun w h => h)) (fun _ => ?_)
  refine Triple.bind Triple.look (fun w => ?_)
  refine Triple.bind (Triple.call _ (fun w h => h.2)) (fun nn => ?_)
  refine Triple.bind ((Triple.lib _ (fun w h => h.2)).weaken (Q' := fun _ w' => Has K t₀ [nn] w')
    (fun w h => h) (fun q w' h => ?_) (fun w h => h)) (fun q => ?_)
  · obtain ⟨hq, rfl, hw⟩ := h
    obtain ⟨h0, hq'⟩ := getNode_ok.1 hq
    have := lt_of_get hq'
    refine ⟨hw.1, hw.2.1, ?_⟩
    intro i hi
    rw [List.mem_singleton] at hi
    subst hi
    omega
  refine Triple.bind (Triple.call _ (fun w h => h.nil)) (fun ps => ?_)
  cases ps with
  | nil => exact Triple.update _ (fun w h => h.nil)
  | cons p rest =>
    refine Triple.bind (Triple.update (Q := Has K t₀ [nn]) _ (fun w h => h)) (fun _ => ?_)
    exact addAll_has hK hc nn _ []

theorem planLoop_has (hK : Keep K) (hc : e.Keeps K) (fuel : Nat) :
    Triple (Has K t₀ []) (planLoop e fuel) (fun _ => Has K t₀ []) (Has K t₀ []) := by
  induction fuel with
  | zero => exact Triple.more
  | succ fuel ih =>
    unfold planLoop
    refine Triple.bind Triple.look (fun w => ?_)
    refine Triple.bind (Triple.call _ (fun w h => h.2)) (fun b => ?_)
    refine Triple.branch _ (fun _ => Triple.ret _ (fun w h => h.2)) (fun _ => ?_)
    exact Triple.bind ((planStep_has hK hc).weaken (fun w h => h.2) (fun _ w h => h) (fun w h => h)) (fun _ => ih)

theorem extract_has (fuel : Nat) :
    Triple (σ := σ) (ε := ε) (Has K t₀ []) (extract fuel) (fun _ => Has K t₀ []) (Has K t₀ []) := by
  unfold extract
  refine Triple.bind Triple.look (fun w => ?_)
  split
  · exact Triple.bind (Triple.lib _ (fun w h => h.2)) (fun _ => Triple.ret _ (fun w h => h.2.2))
  · exact Triple.more

theorem planBody_has (hK : Keep K) (hc : e.Keeps K) (fuel : Nat) :
    Triple (Has K t₀ []) (planBody e fuel) (fun _ => Has K t₀ []) (Has K t₀ []) := by
  unfold planBody
  refine Triple.bind Triple.look (fun w => ?_)
  refine Triple.branch _ (fun _ => ?_) (fun _ => ?_)
  · exact (Triple.lib _ (fun w h => h.2)).weaken (fun w h => h) (fun _ w h => h.2.2) (fun w h => h)
  · refine Triple.bind ((initialCheck_has hK hc fuel 0).weaken (fun w h => h.2) (fun _ w h => h) (fun w h => h)) (fun _ => ?_)
    exact Triple.bind (planLoop_has hK hc fuel) (fun _ => extract_has fuel)

/-- C104. However the planner ends — a result, one of its own exceptions, or an exception thrown by any function given to it
at any moment — the caller's tree is validly linked, provided the callbacks that get the tree by mutable reference keep it so
whether they return or throw; and it is what the given tree may become (`K`), for every notion of that closed under adding a
node. -/
theorem C104_tree (hK : Keep K) (hc : e.Keeps K) (fuel : Nat) (t t' : Tree V) (s s' : σ)
    (o : Except (Thrown ε) (Result V)) (hl : Linked t) (h : rrtPlanMultiPath e fuel t s = some (o, t', s')) :
    Linked t' ∧ K t t' := by
  unfold rrtPlanMultiPath at h
  rw [Option.map_eq_some_iff] at h
  obtain ⟨⟨o1, w1, s1⟩, h1, h2⟩ := h
  simp only [Prod.mk.injEq] at h2
  obtain ⟨rfl, rfl, rfl⟩ := h2
  obtain ⟨ha, hb⟩ := planBody_has hK hc fuel { tree := t } s ⟨hl, hK.refl t, by simp⟩ _ _ _ h1
  cases o1 with
  | ok r => exact ⟨(ha r rfl).1, (ha r rfl).2.1⟩
  | error x => exact ⟨(hb x rfl).1, (hb x rfl).2.1⟩


/-! ### Exceptions come out unchanged and at once -/

/-- From an environment without a noted exception, `m` ends with an exception of a user-supplied function exactly if one is
noted, and it is that one. -/
def Reports (noted : σ → Option ε) (m : Code W σ ε α) : Prop :=
  ∀ w s, noted s = none → ∀ o w' s', m w s = some (o, w', s') →
    noted s' = match o with
      | .error (.user x) => some x
      | _ => none

variable {noted : σ → Option ε}

theorem Reports.bind {m : Code W σ ε α} {f : α → Code W σ ε β} (h : Reports noted m) (hf : ∀ a, Reports noted (f a)) :
    Reports noted (m >>= f) := by
  intro w s hs o w' s' hm
  rw [bind_seq] at hm
  unfold seq at hm
  cases hmw : m w s with
  | none => rw [hmw] at hm; cases hm
  | some r =>
    obtain ⟨o1, w1, s1⟩ := r
    rw [hmw] at hm
    have h1 := h w s hs o1 w1 s1 hmw
    cases o1 with
    | ok a => exact hf a w1 s1 h1 o w' s' hm
    | error x =>
      simp only [Option.some.injEq, Prod.mk.injEq] at hm
      obtain ⟨rfl, rfl, rfl⟩ := hm
      cases x <;> exact h1

theorem Reports.ret (a : α) : Reports (W := W) noted (pure a) := by
  intro w s hs o w' s' hm
  rw [pure_ret] at hm
  simp only [Throw.ret, Option.some.injEq, Prod.mk.injEq] at hm
  obtain ⟨rfl, rfl, rfl⟩ := hm
  exact hs

theorem Reports.more : Reports (W := W) (α := α) noted more := by
  intro w s hs o w' s' hm; cases hm

theorem Reports.look : Reports (W := W) noted look := by
  intro w s hs o w' s' hm
  simp only [Throw.look, Option.some.injEq, Prod.mk.injEq] at hm
  obtain ⟨rfl, rfl, rfl⟩ := hm
  exact hs

theorem Reports.update (f : W → W) : Reports noted (update f) := by
  intro w s hs o w' s' hm
  simp only [Throw.update, Option.some.injEq, Prod.mk.injEq] at hm
  obtain ⟨rfl, rfl, rfl⟩ := hm
  exact hs

theorem Reports.lib (r : Res α) : Reports (W := W) noted (lib r) := by
  intro w s hs o w' s' hm
  cases r <;>
  · simp only [Throw.lib, Throw.ret, Option.some.injEq, Prod.mk.injEq] at hm
    obtain ⟨rfl, rfl, rfl⟩ := hm
    exact hs

theorem Reports.call {f : σ → Except ε α × σ} (hf : Throw.Notes noted f) : Reports (W := W) noted (call f) := by
  intro w s hs o w' s' hm
  obtain ⟨h1, h2⟩ := hf s hs
  unfold Throw.call at hm
  rcases hq : f s with ⟨r, s1⟩
  rw [hq] at hm h1 h2
  cases r with
  | ok a =>
    simp only [Option.some.injEq, Prod.mk.injEq] at hm
    obtain ⟨rfl, rfl, rfl⟩ := hm
    exact h1 a rfl
  | error x =>
    simp only [Option.some.injEq, Prod.mk.injEq] at hm
    obtain ⟨rfl, rfl, rfl⟩ := hm
    exact h2 x rfl

theorem Reports.callRef {T : Type} {get : W → T} {set : W → T → W} {f : σ → T → (Option ε × T) × σ}
    (hf : NotesRef noted f) : Reports noted (callRef get set f) := by
  intro w s hs o w' s' hm
  have h1 := hf s (get w) hs
  unfold Throw.callRef at hm
  rcases hq : f s (get w) with ⟨⟨r, t⟩, s1⟩
  rw [hq] at hm h1
  cases r with
  | none =>
    simp only [Option.some.injEq, Prod.mk.injEq] at hm
    obtain ⟨rfl, rfl, rfl⟩ := hm
    exact h1
  | some x =>
    simp only [Option.some.injEq, Prod.mk.injEq] at hm
    obtain ⟨rfl, rfl, rfl⟩ := hm
    exact h1

theorem Reports.branch (c : Prop) [Decidable c] {m m' : Code W σ ε α} (h : Reports noted m) (h' : Reports noted m') :
    Reports noted (if c then m else m') := by
  split
  · exact h
  · exact h'

theorem optional_reports {cb : Option (σ → Tree V → Int → (Option ε × Tree V) × σ)}
    (h : ∀ f, cb = some f → ∀ i, NotesRef noted (fun s t => f s t i)) (i : Int) : Reports noted (optional cb i) := by
  cases cb with
  | none => exact Reports.ret _
  | some f => exact Reports.callRef (h f rfl i)

theorem untested_reports {cb : Option (σ → Tree V → Int → (Option ε × Tree V) × σ)}
    (h : ∀ f, cb = some f → ∀ i, NotesRef noted (fun s t => f s t i)) (i : Int) : Reports noted (untested cb i) := by
  cases cb with
  | none => unfold untested; exact Reports.lib _
  | some f => exact Reports.callRef (h f rfl i)

theorem initialCheck_reports (hn : e.Notes noted) (fuel : Nat) : ∀ idx, Reports noted (initialCheck e fuel idx) := by
  induction fuel with
  | zero => intro idx; exact Reports.more
  | succ fuel ih =>
    intro idx
    unfold initialCheck
    refine Reports.look.bind (fun w => Reports.branch _ ?_ (Reports.ret _))
    refine (Reports.lib _).bind (fun n => (Reports.call (hn.goalReached _)).bind (fun g => Reports.branch _ ?_ (ih _)))
    exact (Reports.update _).bind (fun _ => (untested_reports hn.goalCallback idx).bind (fun _ => ih _))

theorem insert_reports (nearest : Int) (mapping : List Int) (v : V) (rel : Int) :
    Reports noted (insert nearest mapping v rel) := by
  unfold insert
  exact Reports.look.bind (fun w => (Reports.update _).bind (fun _ => Reports.lib _))

theorem addAll_reports (hn : e.Notes noted) (nearest : Int) (ps : Propagation V) : ∀ mapping,
    Reports noted (addAll e nearest ps mapping) := by
  induction ps with
  | nil => intro mapping; exact Reports.ret _
  | cons p ps ih =>
    intro mapping
    obtain ⟨v, rel⟩ := p
    unfold addAll
    refine (insert_reports nearest mapping v rel).bind (fun i => (optional_reports hn.stateAdded i).bind (fun _ => ?_))
    refine Reports.look.bind (fun w => (Reports.lib _).bind (fun n => (Reports.call (hn.goalReached _)).bind (fun g => ?_)))
    refine Reports.branch _ ?_ (ih _)
    exact (Reports.update _).bind (fun _ => (optional_reports hn.goalCallback i).bind (fun _ => ih _))

theorem planStep_reports (hn : e.Notes noted) : Reports noted (planStep e) := by
  unfold planStep
  refine (Reports.call hn.sample).bind (fun x => (Reports.update _).bind (fun _ => Reports.look.bind (fun w => ?_)))
  refine (Reports.call (hn.nearest _ _)).bind (fun nn => (Reports.lib _).bind (fun q => ?_))
  refine (Reports.call (hn.propagate _ _)).bind (fun ps => ?_)
  cases ps with
  | nil => exact Reports.update _
  | cons p rest => exact (Reports.update _).bind (fun _ => addAll_reports hn nn _ [])

theorem planLoop_reports (hn : e.Notes noted) (fuel : Nat) : Reports noted (planLoop e fuel) := by
  induction fuel with
  | zero => exact Reports.more
  | succ fuel ih =>
    unfold planLoop
    refine Reports.look.bind (fun w => (Reports.call (hn.terminate _)).bind (fun b => ?_))
    exact Reports.branch _ (Reports.ret _) ((planStep_reports hn).bind (fun _ => ih))

theorem extract_reports (fuel : Nat) : Reports noted (extract (V := V) fuel) := by
  unfold extract
  refine Reports.look.bind (fun w => ?_)
  split
  · exact (Reports.lib _).bind (fun _ => Reports.ret _)
  · exact Reports.more

theorem planBody_reports (hn : e.Notes noted) (fuel : Nat) : Reports noted (planBody e fuel) := by
  unfold planBody
  refine Reports.look.bind (fun w => Reports.branch _ (Reports.lib _) ?_)
  exact (initialCheck_reports hn fuel 0).bind (fun _ => (planLoop_reports hn fuel).bind (fun _ => extract_reports fuel))

/-- C104. An exception thrown by any function given to the planner is never swallowed or changed: with functions that note
what they throw, the planner ends with exactly the noted exception, and ends normally or with one of its own exceptions only
if none was thrown. -/
theorem C104_exceptions (hn : e.Notes noted) (fuel : Nat) (t t' : Tree V) (s s' : σ) (hs : noted s = none)
    (o : Except (Thrown ε) (Result V)) (h : rrtPlanMultiPath e fuel t s = some (o, t', s')) :
    (∀ x, o = .error (.user x) ↔ noted s' = some x) := by
  unfold rrtPlanMultiPath at h
  rw [Option.map_eq_some_iff] at h
  obtain ⟨⟨o1, w1, s1⟩, h1, h2⟩ := h
  simp only [Prod.mk.injEq] at h2
  obtain ⟨rfl, rfl, rfl⟩ := h2
  have := planBody_reports hn fuel _ s hs _ _ _ h1
  intro x
  rcases o1 with (y | y) | r <;> simp_all

/-! ### Nothing is called after an exception -/

/-- The two programs agree on environments without a noted exception. -/
def Same (noted : σ → Option ε) (m m' : Code W σ ε α) : Prop := ∀ w s, noted s = none → m w s = m' w s

theorem Same.rfl' (m : Code W σ ε α) : Same noted m m := fun _ _ _ => rfl

theorem Same.bind {m m' : Code W σ ε α} {f f' : α → Code W σ ε β} (hr : Reports noted m) (h : Same noted m m')
    (hf : ∀ a, Same noted (f a) (f' a)) : Same noted (m >>= f) (m' >>= f') := by
  intro w s hs
  rw [bind_seq, bind_seq]
  unfold seq
  rw [← h w s hs]
  cases hmw : m w s with
  | none => rfl
  | some r =>
    obtain ⟨o1, w1, s1⟩ := r
    cases o1 with
    | ok a => exact hf a w1 s1 (hr w s hs _ _ _ hmw)
    | error x => rfl

theorem Same.call {f f' : σ → Except ε α × σ} (h : ∀ s, noted s = none → f s = f' s) :
    Same (W := W) noted (call f) (call f') := by
  intro w s hs
  unfold Throw.call
  rw [h s hs]

theorem Same.branch (c : Prop) [Decidable c] {m m' n n' : Code W σ ε α} (h : Same noted m n) (h' : Same noted m' n') :
    Same noted (if c then m else m') (if c then n else n') := by
  split
  · exact h
  · exact h'

theorem optional_same {cb cb' : Option (σ → Tree V → Int → (Option ε × Tree V) × σ)}
    (h : AlikeCb (fun s => noted s = none) cb cb') (i : Int) : Same noted (optional cb i) (optional cb' i) := by
  cases cb <;> cases cb' <;> simp only [AlikeCb] at h
  · exact Same.rfl' _
  · intro w s hs
    unfold optional callRef
    simp only [h _ _ _ hs]

theorem untested_same {cb cb' : Option (σ → Tree V → Int → (Option ε × Tree V) × σ)}
    (h : AlikeCb (fun s => noted s = none) cb cb') (i : Int) : Same noted (untested cb i) (untested cb' i) := by
  cases cb <;> cases cb' <;> simp only [AlikeCb] at h
  · exact Same.rfl' _
  · intro w s hs
    unfold untested callRef
    simp only [h _ _ _ hs]

theorem initialCheck_same (hn : e.Notes noted) (ha : Env.Alike (fun s => noted s = none) e e') (fuel : Nat) : ∀ idx,
    Same noted (initialCheck e fuel idx) (initialCheck e' fuel idx) := by
  induction fuel with
  | zero => intro idx; exact Same.rfl' _
  | succ fuel ih =>
    intro idx
    unfold initialCheck
    refine Same.bind Reports.look (Same.rfl' _) (fun w => Same.branch _ ?_ (Same.rfl' _))
    refine Same.bind (Reports.lib _) (Same.rfl' _) (fun n => ?_)
    refine Same.bind (Reports.call (hn.goalReached _)) (Same.call (fun s hs => ha.goalReached s _ hs)) (fun g => ?_)
    refine Same.branch _ ?_ (ih _)
    refine Same.bind (Reports.update _) (Same.rfl' _) (fun _ => ?_)
    exact Same.bind (untested_reports hn.goalCallback idx) (untested_same ha.goalCallback idx) (fun _ => ih _)

theorem addAll_same (hn : e.Notes noted) (ha : Env.Alike (fun s => noted s = none) e e') (nearest : Int)
    (ps : Propagation V) : ∀ mapping, Same noted (addAll e nearest ps mapping) (addAll e' nearest ps mapping) := by
  induction ps with
  | nil => intro mapping; exact Same.rfl' _
  | cons p ps ih =>
    intro mapping
    obtain ⟨v, rel⟩ := p
    unfold addAll
    refine Same.bind (insert_reports nearest mapping v rel) (Same.rfl' _) (fun i => ?_)
    refine Same.bind (optional_reports hn.stateAdded i) (optional_same ha.stateAdded i) (fun _ => ?_)
    refine Same.bind Reports.look (Same.rfl' _) (fun w => Same.bind (Reports.lib _) (Same.rfl' _) (fun n => ?_))
    refine Same.bind (Reports.call (hn.goalReached _)) (Same.call (fun s hs => ha.goalReached s _ hs)) (fun g => ?_)
    refine Same.branch _ ?_ (ih _)
    refine Same.bind (Reports.update _) (Same.rfl' _) (fun _ => ?_)
    exact Same.bind (optional_reports hn.goalCallback i) (optional_same ha.goalCallback i) (fun _ => ih _)

theorem planStep_same (hn : e.Notes noted) (ha : Env.Alike (fun s => noted s = none) e e') :
    Same noted (planStep e) (planStep e') := by
  unfold planStep
  refine Same.bind (Reports.call hn.sample) (Same.call ha.sample) (fun x => ?_)
  refine Same.bind (Reports.update _) (Same.rfl' _) (fun _ => Same.bind Reports.look (Same.rfl' _) (fun w => ?_))
  refine Same.bind (Reports.call (hn.nearest _ _)) (Same.call (fun s hs => ha.nearest s _ _ hs)) (fun nn => ?_)
  refine Same.bind (Reports.lib _) (Same.rfl' _) (fun q => ?_)
  refine Same.bind (Reports.call (hn.propagate _ _)) (Same.call (fun s hs => ha.propagate s _ _ hs)) (fun ps => ?_)
  cases ps with
  | nil => exact Same.rfl' _
  | cons p rest => exact Same.bind (Reports.update _) (Same.rfl' _) (fun _ => addAll_same hn ha nn _ [])

theorem planLoop_same (hn : e.Notes noted) (ha : Env.Alike (fun s => noted s = none) e e') (fuel : Nat) :
    Same noted (planLoop e fuel) (planLoop e' fuel) := by
  induction fuel with
  | zero => exact Same.rfl' _
  | succ fuel ih =>
    unfold planLoop
    refine Same.bind Reports.look (Same.rfl' _) (fun w => ?_)
    refine Same.bind (Reports.call (hn.terminate _)) (Same.call (fun s hs => ha.terminate s _ hs)) (fun b => ?_)
    exact Same.branch _ (Same.rfl' _) (Same.bind (planStep_reports hn) (planStep_same hn ha) (fun _ => ih))

/-- C104. Nothing is called after an exception: functions that behave alike as long as no exception has been thrown give the
same run, whatever they would do afterwards. -/
theorem C104_at_once (hn : e.Notes noted) (ha : Env.Alike (fun s => noted s = none) e e') (fuel : Nat) (t : Tree V) (s : σ)
    (hs : noted s = none) : rrtPlanMultiPath e' fuel t s = rrtPlanMultiPath e fuel t s := by
  unfold rrtPlanMultiPath
  congr 1
  symm
  refine (?_ : Same noted (planBody e fuel) (planBody e' fuel)) _ s hs
  unfold planBody
  refine Same.bind Reports.look (Same.rfl' _) (fun w => Same.branch _ (Same.rfl' _) ?_)
  refine Same.bind (initialCheck_reports hn fuel 0) (initialCheck_same hn ha fuel 0) (fun _ => ?_)
  exact Same.bind (planLoop_reports hn fuel) (planLoop_same hn ha fuel) (fun _ => Same.rfl' _)

/-! ### What trees may become -/

/-- C104. Instances of `K`: the tree does not get shorter; every node keeps its place, its state and its parent. -/
theorem C104_keep : Keep (V := V) (fun t t' => t.length ≤ t'.length) ∧
    Keep (V := V) (fun t t' => ∀ (i : Nat) n, t[i]? = some n → ∃ m, t'[i]? = some m ∧ m.value = n.value ∧ m.parent = n.parent) := by
  constructor
  · refine ⟨fun t => Nat.le_refl _, fun _ _ _ => Nat.le_trans, fun _ _ h => h, ?_⟩
    intro t v p h0 h1 hl
    rw [(C36_connect_partial t v p h0 h1 hl).2.2.2.1]
    omega
  · refine ⟨fun t i n h => ⟨n, h, rfl, rfl⟩, ?_, ?_, ?_⟩
    · intro a b c h1 h2 i n h
      obtain ⟨m, hm, hv, hp⟩ := h1 i n h
      obtain ⟨m', hm', hv', hp'⟩ := h2 i m hm
      exact ⟨m', hm', hv'.trans hv, hp'.trans hp⟩
    · intro t t' h
      rcases Nat.lt_or_ge t'.length t.length with hlt | hge
      · obtain ⟨m, hm, -⟩ := h t'.length t[t'.length] (by simp [hlt])
        exact absurd (lt_of_get hm) (by omega)
      · exact hge
    · intro t v p h0 h1 hl i n h
      obtain ⟨m, hm, hv, hp, -⟩ := (C36_connect_partial t v p h0 h1 hl).2.2.2.2.2 i n h
      exact ⟨m, hm, hv, hp⟩

/-- C104. The tree of a planner whose callbacks leave the tree alone: after an exception too, it is the given tree, linked as
before, with nodes added behind. -/
theorem C104_tree_grows (hro : ∀ f, e.stateAdded = some f ∨ e.goalCallback = some f → ∀ s t i, (f s t i).1.2 = t) (fuel : Nat)
    (t t' : Tree V) (s s' : σ) (o : Except (Thrown ε) (Result V)) (hl : Linked t)
    (h : rrtPlanMultiPath e fuel t s = some (o, t', s')) :
    Linked t' ∧ ∀ (i : Nat) n, t[i]? = some n → ∃ m, t'[i]? = some m ∧ m.value = n.value ∧ m.parent = n.parent := by
  refine C104_tree C104_keep.2 (e := e) ⟨?_, ?_⟩ fuel t t' s s' o hl h
  · intro f hf s t i hl
    rw [hro f (.inl hf)]
    exact ⟨hl, C104_keep.2.refl t⟩
  · intro f hf s t i hl
    rw [hro f (.inr hf)]
    exact ⟨hl, C104_keep.2.refl t⟩

/-! ### The single-path planner -/

theorem single_keeps (hc : e.Keeps K) (hK : Keep K) : (singleEnv e).Keeps K := by
  constructor
  · intro f hf s t i hl
    simp only [singleEnv, Option.map_eq_some_iff] at hf
    obtain ⟨g, hg, rfl⟩ := hf
    exact hc.stateAdded g hg s.1 t i hl
  · intro f hf s t i hl
    simp only [singleEnv, Option.some.injEq] at hf
    subst hf
    cases hg : e.goalCallback with
    | none => exact ⟨hl, hK.refl t⟩
    | some g => exact hc.goalCallback g hg s.1 t i hl

theorem single_notes (hn : e.Notes noted) : (singleEnv e).Notes (fun s => noted s.1) := by
  refine ⟨fun s hs => hn.sample s.1 hs, fun t x s hs => hn.nearest t x s.1 hs, fun q x s hs => hn.propagate q x s.1 hs, ?_,
    fun v s hs => hn.goalReached v s.1 hs, ?_, ?_⟩
  · intro f hf i s t hs
    simp only [singleEnv, Option.map_eq_some_iff] at hf
    obtain ⟨g, hg, rfl⟩ := hf
    exact hn.stateAdded g hg i s.1 t hs
  · intro f hf i s t hs
    simp only [singleEnv, Option.some.injEq] at hf
    subst hf
    cases hg : e.goalCallback with
    | none => exact hs
    | some g => exact hn.goalCallback g hg i s.1 t hs
  · intro n s hs
    rcases s with ⟨s, b⟩
    cases b with
    | true => exact ⟨fun a _ => hs, fun x hx => by simp [singleEnv] at hx⟩
    | false => exact hn.terminate n s hs

theorem single_cases {fuel : Nat} {t t' : Tree V} {s s' : σ} {o : Except (Thrown ε) (List V × Stats)}
    (h : rrtPlanSinglePath e fuel t s = some (o, t', s')) :
    ∃ o' b, rrtPlanMultiPath (singleEnv e) fuel t (s, false) = some (o', t', (s', b)) ∧ ∀ x, o = .error x ↔ o' = .error x := by
  unfold rrtPlanSinglePath at h
  split at h
  · rename_i r t1 s1 h1
    simp only [Option.some.injEq, Prod.mk.injEq] at h
    obtain ⟨rfl, rfl, rfl⟩ := h
    exact ⟨.ok r, s1.2, h1, fun x => by simp⟩
  · rename_i x t1 s1 h1
    simp only [Option.some.injEq, Prod.mk.injEq] at h
    obtain ⟨rfl, rfl, rfl⟩ := h
    exact ⟨.error x, s1.2, h1, fun x => by simp⟩
  · cases h

/-- C104. The same for `RRTPlanSinglePath`: the caller's tree stays valid however the call ends, and an exception of a
function given to it comes out unchanged. -/
theorem C104_single (hK : Keep K) (hc : e.Keeps K) (hn : e.Notes noted) (fuel : Nat) (t t' : Tree V) (s s' : σ)
    (hs : noted s = none) (o : Except (Thrown ε) (List V × Stats)) (hl : Linked t)
    (h : rrtPlanSinglePath e fuel t s = some (o, t', s')) :
    Linked t' ∧ K t t' ∧ (∀ x, o = .error (.user x) ↔ noted s' = some x) := by
  obtain ⟨o', b, h1, h2⟩ := single_cases h
  obtain ⟨l1, l2⟩ := C104_tree hK (single_keeps hc hK) fuel t t' (s, false) (s', b) o' hl h1
  refine ⟨l1, l2, fun x => ?_⟩
  rw [h2]
  exact C104_exceptions (single_notes hn) fuel t t' (s, false) (s', b) hs o' h1 x

theorem single_alike (ha : Env.Alike (fun s => noted s = none) e e') :
    Env.Alike (fun s : σ × Bool => noted s.1 = none) (singleEnv e) (singleEnv e') := by
  refine ⟨?_, ?_, ?_, ?_, ?_, ?_, ?_⟩
  · intro s hs; simp only [singleEnv, ha.sample s.1 hs]
  · intro s t x hs; simp only [singleEnv, ha.nearest s.1 t x hs]
  · intro s q x hs; simp only [singleEnv, ha.propagate s.1 q x hs]
  · have := ha.stateAdded
    unfold singleEnv
    cases hf : e.stateAdded <;> cases hg : e'.stateAdded <;> rw [hf, hg] at this <;>
      simp only [AlikeCb, Option.map_none, Option.map_some] at this ⊢
    intro s t i hs
    rw [this _ _ _ hs]
  · intro s v hs; simp only [singleEnv, ha.goalReached s.1 v hs]
  · have := ha.goalCallback
    unfold singleEnv
    cases hf : e.goalCallback <;> cases hg : e'.goalCallback <;> rw [hf, hg] at this <;>
      simp only [AlikeCb] at this ⊢
    · intros; trivial
    intro s t i hs
    rw [this _ _ _ hs]
  · intro s n hs; simp only [singleEnv, ha.terminate s.1 n hs]

/-- C104. `RRTPlanSinglePath` calls nothing after an exception. -/
theorem C104_single_at_once (hn : e.Notes noted) (ha : Env.Alike (fun s => noted s = none) e e') (fuel : Nat) (t : Tree V)
    (s : σ) (hs : noted s = none) : rrtPlanSinglePath e' fuel t s = rrtPlanSinglePath e fuel t s := by
  unfold rrtPlanSinglePath
  rw [C104_at_once (single_notes hn) (single_alike ha) fuel t (s, false) hs]

/-! ### An example -/

/-- A planner that counts upwards; the state-added callback throws when the tree has four nodes. -/
def fullEnv : Env (Option Nat) Nat Nat Nat where
  sample s := (.ok 5, s)
  nearest s t _ := (.ok (t.length - 1), s)
  propagate s q _ := (.ok [(q + 1, -1)], s)
  stateAdded := some fun s t i => if t.length ≥ 4 then ((some t.length, t), some t.length) else ((none, t), s)
  goalReached s v := (.ok (v == 2), s)
  goalCallback := none
  terminate s _ := (.ok false, s)

example : rrtPlanMultiPath fullEnv 10 [⟨0, -1, []⟩] none =
    some (.error (.user 4), [⟨0, -1, [1]⟩, ⟨1, 0, [2]⟩, ⟨2, 1, [3]⟩, ⟨3, 2, []⟩], some 4) := by rfl

example : rrtPlanSinglePath fullEnv 10 [⟨0, -1, []⟩] none =
    some (.ok ([0, 1, 2], ⟨2, 2, 0⟩), [⟨0, -1, [1]⟩, ⟨1, 0, [2]⟩, ⟨2, 1, []⟩], none) := by rfl

example : fullEnv.Keeps (fun t t' => t.length ≤ t'.length) ∧ fullEnv.Notes id ∧ Linked (V := Nat) [⟨0, -1, []⟩] := by
  refine ⟨⟨?_, ?_⟩, ⟨?_, ?_, ?_, ?_, ?_, ?_, ?_⟩, ?_⟩
  · intro f hf s t i hl
    simp only [fullEnv, Option.some.injEq] at hf
    subst hf
    by_cases h : t.length ≥ 4
    · simp only [h, if_true]; exact ⟨hl, Nat.le_refl _⟩
    · simp only [h, if_false]; exact ⟨hl, Nat.le_refl _⟩
  · intro f hf; cases hf
  · intro s hs; exact ⟨fun a _ => hs, fun x hx => by cases hx⟩
  · intro t x s hs; exact ⟨fun a _ => hs, fun x hx => by cases hx⟩
  · intro t x s hs; exact ⟨fun a _ => hs, fun x hx => by cases hx⟩
  · intro f hf i s t hs
    simp only [fullEnv, Option.some.injEq] at hf
    subst hf
    by_cases h : t.length ≥ 4
    · simp only [h, if_true]; rfl
    · simp only [h, if_false]; exact hs
  · intro v s hs; exact ⟨fun a _ => hs, fun x hx => by cases hx⟩
  · intro f hf; cases hf
  · intro n s hs; exact ⟨fun a _ => hs, fun x hx => by cases hx⟩
  · intro i n h
    rcases i with _ | i
    · simp at h; subst h; simp
    · simp at h

/-- What happens once an exception has been thrown makes no difference: here every function then behaves differently. -/
example : Env.Alike (fun s : Option Nat => id s = none) fullEnv
    { fullEnv with
      sample := fun s => (if s = none then .ok 5 else .error 7, s)
      terminate := fun s _ => (.ok (s ≠ none), s) } := by
  refine ⟨?_, fun _ _ _ _ => rfl, fun _ _ _ _ => rfl, ?_, fun _ _ _ => rfl, trivial, ?_⟩
  · intro s hs; rw [id] at hs; subst hs; rfl
  · intro s t i hs; rfl
  · intro s n hs; rw [id] at hs; subst hs; rfl

end CRU.Rrt.Throw
