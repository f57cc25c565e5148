import Verif.Prm.QueryThrowProps
/-
  C108 and C118 with functions that always return, the other direction: such functions can have every result of the models of C40 and C67.
-/
namespace CRU.Prm.Throw
open CRU.Graph CRU.Knn CRU.Parallel CRU.GraphSearch CRU.Distances.Throw
open CRU.Astar.Callbacks (Fail ofRes)
open CRU.GraphSearch.Callbacks (valueFns weightFns pureFns)
set_option linter.unusedSectionVars false

variable {V C ε : Type} [LinearOrder C] [Zero C]

section
variable {e : Env V C ε} {valid : V → V → Bool} {dist : V → V → C}

theorem extends_of_eq (hv : ∀ a b, e.valid a b = .ok (valid a b)) (hd : ∀ a b, e.dist a b = .ok (dist a b)) : Extends e valid dist :=
  ⟨fun a b c h => by rw [hv] at h; cases h; rfl, fun a b c h => by rw [hd] at h; cases h; rfl⟩

theorem not_raises (hv : ∀ a b, e.valid a b = .ok (valid a b)) (hd : ∀ a b, e.dist a b = .ok (dist a b)) {s b : V} {x : ε} : ¬ Raises e s b x := by
  unfold Raises
  rw [hv, hv, hd]
  rintro (h | ⟨-, -, h | ⟨-, h⟩⟩) <;> cases h

theorem knnQuery_lift {size : Int} {get : Int → Res (Node V C)} {state : V} {K : Int} {dir : Dir} {maxNode : Int} {r : Res (List (Entry C))}
    (h : Prm.KnnQuery (e.total valid dist).knn size get state K dir maxNode r) :
    KnnQuery e.knn size get state K dir maxNode (r >>= fun l => .ok (.ok l)) := by
  obtain ⟨r0, hk, rfl⟩ := h
  refine ⟨_, hk, ?_⟩
  cases r0 with
  | throw x => rfl
  | ub => rfl
  | ok l =>
    simp only [Res.ok_bind]
    cases hs : sanityCheck l size maxNode <;> rfl

/-- C108, with functions that always return: adding a state can have every result that it has according to C40 (and, by `C108_add_node`, no other). -/
theorem C108_add_node_as_without (e : Env V C ε) (hs : e.knn.Sound e.dist) (hK : 0 ≤ e.K) (state : V) (dir : Dir) (maxNode : Int) (g : Graph V C)
    (h0 : 0 ≤ maxNode) (h1 : maxNode ≤ g.length) (hsz : InI64 g.length) (hth : InI64 e.threads) (valid : V → V → Bool)
    (hv : ∀ a b, e.valid a b = .ok (valid a b)) (dist : V → V → C) (hd : ∀ a b, e.dist a b = .ok (dist a b)) (g' : Graph V C) (r : Res Int)
    (hr : Prm.AddNodeRun graphOps (e.total valid dist) state dir maxNode g (g', r)) :
    AddNodeRun graphOps e state dir maxNode g (g', r >>= fun i => .ok (.ok i)) := by
  have hA : (graphOps.addValue g state : Graph V C × Int) = (g ++ [⟨state, [], []⟩], (g.length : Int)) :=
    Prod.ext ((C14_effects g).1 state).1 ((C14_effects g).1 state).2
  have hx := extends_of_eq hv hd
  generalize hp : (g', r) = p at hr
  cases hr with
  | knnThrows h => cases hp; exact .knnThrows (knnQuery_lift h)
  | knnUb h => cases hp; exact .knnUb (knnQuery_lift h)
  | duplicate h hdup hf => cases hp; exact .duplicate (knnQuery_lift h) hdup hf
  | @added l order init h hdup ho hi =>
    have hq : KnnQuery e.knn (graphOps.size g) (graphOps.get g) state e.K dir maxNode (.ok (.ok l)) := knnQuery_lift h
    rcases query_spec hs hK h0 h1 hsz hq with ⟨x, he, -⟩ | ⟨l', he, hk, hI, hsd, -⟩
    · cases he
    cases he
    obtain ⟨ws, tr, hw, htr, rfl⟩ := ho
    obtain ⟨val, hval⟩ := val_exists g state
    have hget : ∀ nb ∈ l, ∃ n, (graphOps (V := V) (C := C)).get (g ++ [⟨state, [], []⟩]) nb.index = .ok n ∧ n.value = val nb := by
      intro nb hnb
      obtain ⟨i, n, a1, -, a3, -⟩ := hsd nb hnb
      exact ⟨n, by rw [a1]; exact getNode_append g n _ i a3, (hval nb i n a1 a3).symm⟩
    have hln : ∀ nb ∈ l, ∃ (i : Nat) (n : Node V C), nb.index = i ∧ g[i]? = some n := fun nb hnb => by
      obtain ⟨i, n, a1, -, a3, -⟩ := hsd nb hnb; exact ⟨i, n, a1, a3⟩
    have hperm : ∀ {order : List Int}, IndexRun e.backend e.threads 0 l.length order → order.Perm (irange 0 l.length) := fun hor =>
      hor.perm (by unfold InI64; omega) hI hth (by simpa using hI) (by omega)
    obtain ⟨o, ho⟩ := bodyRun_exists e.backend.isOmp (itemBody graphOps e dir state l (graphOps.addValue g state).1) ws
      (fun tr => CRU.Knn.Throw.assignAll tr init)
    have ho' := ho
    rw [hA] at ho'
    rcases loop_spec graphOps e dir state l _ val hget hth hI hw hi ho' with ⟨-, order', ds, hor, rfl, hfill⟩ | ⟨nb, -, x, hxr, -⟩
    swap
    · exact absurd hxr (not_raises hv hd)
    have hfill := hfill valid dist hx
    have f1 := fill_distances (e.total valid dist) dir state g ⟨state, [], []⟩ l hln order' init (hperm hor) hi
    have f2 := fill_distances (e.total valid dist) dir state g ⟨state, [], []⟩ l hln _ init (hperm ⟨ws, tr, hw, htr, rfl⟩) hi
    have hds : ds = l.map (pairFor (e.total valid dist) dir state g) := by
      have := hfill.symm.trans f1
      cases this; rfl
    subst hds
    have hadd := AddNodeRun.added (ops := graphOps) (g := g) (maxNode := maxNode) hq hdup hw hi ho
    unfold insertState at hp
    rw [hA] at hp
    dsimp only at hp
    have hg : (graphOps : GraphOps (Graph V C) V C).get = getNode := rfl
    rw [hg, f2] at hp
    rw [hA] at hadd
    unfold finish at hadd
    dsimp only at hp hadd
    generalize addEdgesLoop graphOps (g.length : Int) (l.zip (l.map (pairFor (e.total valid dist) dir state g))) (g ++ [⟨state, [], []⟩]) = q at hp hadd
    obtain ⟨g2, o⟩ := q
    cases o with
    | ok u => cases hp; exact hadd
    | throw x => cases hp; exact hadd
    | ub => cases hp; exact hadd

/-- Functions for `GrowRoadMap` that always return. (no project code: C++ or bookkeeping) -/
def GrowEnv.ofTotal {σ : Type} (ge : Prm.GrowEnv σ V) : GrowEnv σ V ε where
  sample s := (.ok (ge.sample s).1, (ge.sample s).2)
  stateValid s q := (.ok (ge.stateValid s q).1, (ge.stateValid s q).2)
  terminate s n := (.ok (ge.terminate s n).1, (ge.terminate s n).2)

theorem pair_ok {σ α : Type} {p : α × σ} {a : α} {s : σ} : ((Except.ok p.1, p.2) : Except ε α × σ) = (.ok a, s) ↔ p = (a, s) := by
  obtain ⟨p1, p2⟩ := p
  constructor
  · intro h; cases h; rfl
  · intro h; cases h; rfl

/-- C108, with functions that always return: `GrowRoadMap` does what it does according to C66. -/
theorem C108_grow_as_without {σ : Type} (e : Env V C ε) (hs : e.knn.Sound e.dist) (hK : 0 ≤ e.K) (hth : InI64 e.threads) (valid : V → V → Bool)
    (hv : ∀ a b, e.valid a b = .ok (valid a b)) (dist : V → V → C) (hd : ∀ a b, e.dist a b = .ok (dist a b)) (ge : Prm.GrowEnv σ V) (s : σ)
    (g g' : Graph V C) (hsz : InI64 g'.length) (hq : ∀ (g : Graph V C) (q : V) (x : ε), g.length ≤ g'.length →
      ¬ e.knn g.length (getNode g) q e.K .roadmapToNew g.length (.ok (.error x))) (st : Stats) (r : Res (Except ε Stats)) :
    GrowRun e (GrowEnv.ofTotal ge) s g st (g', r) ↔
    ∃ r', r = (r' >>= fun st => .ok (.ok st)) ∧ Prm.GrowRun (e.total valid dist) ge s g st (g', r') := by
  have hx := extends_of_eq hv hd
  have add : ∀ (g g1 : Graph V C) (q : V) (r : Res (Except ε Int)), g.length ≤ g'.length →
      AddNodeRun graphOps e q .roadmapToNew g.length g (g1, r) →
      ∃ i, r = .ok (.ok i) ∧ Prm.AddNodeRun graphOps (e.total valid dist) q .roadmapToNew g.length g (g1, .ok i) := by
    intro g g1 q r hl h
    rcases C108_add_node e hs hK q .roadmapToNew g.length g (by omega) le_rfl (by unfold InI64 at *; omega) hth _ h with
      ⟨x, hk, -⟩ | ⟨l, -, -, nb, -, b, x, -, hr, -⟩ | ⟨g2, i, he, ht, -⟩
    · exact absurd hk (hq g q x hl)
    · exact absurd hr (not_raises hv hd)
    · cases he; exact ⟨i, rfl, ht _ _ hx⟩
  constructor
  · intro h
    generalize hp : (g', r) = p at h
    induction h with
    | @stop s s1 g st h =>
      cases hp
      refine ⟨.ok st, rfl, .stop ?_⟩
      have := pair_ok.mp h
      rw [this]
    | @terminateRaises s s1 g st x h => cases h
    | @sampleRaises s s1 s2 g st x h h2 => cases h2
    | @validRaises s s1 s2 s3 g st q x h h2 h3 => cases h3
    | @failed s g st out s1 s2 s3 q h h2 h3 rest ih =>
      obtain ⟨r', e1, e2⟩ := ih hp
      exact ⟨r', e1, .failed (pair_ok.mp h) (pair_ok.mp h2) (pair_ok.mp h3) e2⟩
    | @grown s g g1 st out s1 s2 s3 q i h h2 h3 ha rest ih =>
      obtain ⟨r', e1, e2⟩ := ih hp
      have hl := grow_length rest
      rw [← hp] at hl
      have hgg : g.length ≤ g1.length := add_length ha
      obtain ⟨_, he, ha'⟩ := add _ _ _ _ (le_trans hgg hl) ha
      cases he
      exact ⟨r', e1, .grown (pair_ok.mp h) (pair_ok.mp h2) (pair_ok.mp h3) ha' e2⟩
    | @addRaises s g g1 st s1 s2 s3 q x h h2 h3 ha =>
      cases hp
      obtain ⟨_, he, -⟩ := add _ _ _ _ (add_length ha) ha
      cases he
    | @addThrows s g g1 st s1 s2 s3 q x h h2 h3 ha =>
      cases hp
      obtain ⟨_, he, -⟩ := add _ _ _ _ (add_length ha) ha
      cases he
    | @addUb s g g1 st s1 s2 s3 q h h2 h3 ha =>
      cases hp
      obtain ⟨_, he, -⟩ := add _ _ _ _ (add_length ha) ha
      cases he
  · rintro ⟨r', rfl, h⟩
    have lift : ∀ (g g1 : Graph V C) (q : V) (r : Res Int), g.length ≤ g'.length →
        Prm.AddNodeRun graphOps (e.total valid dist) q .roadmapToNew g.length g (g1, r) →
        AddNodeRun graphOps e q .roadmapToNew g.length g (g1, r >>= fun i => .ok (.ok i)) := fun g g1 q r hl h =>
      C108_add_node_as_without e hs hK q .roadmapToNew g.length g (by omega) le_rfl (by unfold InI64 at *; omega) hth valid hv dist hd g1 r h
    generalize hp : (g', r') = p at h
    induction h with
    | @stop s g st h =>
      cases hp
      exact .stop (s1 := (ge.terminate s g'.length).2) (pair_ok.mpr (Prod.ext h rfl))
    | @failed s g st out s1 s2 s3 q h h2 h3 rest ih =>
      exact .failed (pair_ok.mpr h) (pair_ok.mpr h2) (pair_ok.mpr h3) (ih hp)
    | @grown s g g1 st out s1 s2 s3 q i h h2 h3 ha rest ih =>
      have hl := Prm.grow_length rest
      rw [← hp] at hl
      have hgg : g.length ≤ g1.length := Prm.addNode_length ha
      exact .grown (pair_ok.mpr h) (pair_ok.mpr h2) (pair_ok.mpr h3) (lift _ _ _ _ (le_trans hgg hl) ha) (ih hp)
    | @throws s g g1 st s1 s2 s3 q ex h h2 h3 ha =>
      cases hp
      exact .addThrows (pair_ok.mpr h) (pair_ok.mpr h2) (pair_ok.mpr h3) (lift _ _ _ _ (Prm.addNode_length ha) ha)
    | @ub s g g1 st s1 s2 s3 q h h2 h3 ha =>
      cases hp
      exact .addUb (pair_ok.mpr h) (pair_ok.mpr h2) (pair_ok.mpr h3) (lift _ _ _ _ (Prm.addNode_length ha) ha)

theorem addAll_lift (hs : e.knn.Sound e.dist) (hK : 0 ≤ e.K) (hth : InI64 e.threads) (hv : ∀ a b, e.valid a b = .ok (valid a b))
    (hd : ∀ a b, e.dist a b = .ok (dist a b)) (dir : Dir) (maxNode : Int) (h0 : 0 ≤ maxNode) (states : List V) (g : Graph V C)
    (h1 : maxNode ≤ g.length) (hsz : InI64 (g.length + states.length)) (g' : Graph V C) (r : Res (List Int))
    (hr : Prm.AddAllRun graphOps (e.total valid dist) dir maxNode states g (g', r)) :
    AddAllRun graphOps e dir maxNode states g (g', r >>= fun is => .ok (.ok is)) := by
  induction states generalizing g r with
  | nil =>
    generalize hp : (g', r) = p at hr
    cases hr
    cases hp
    exact .nil
  | cons s states ih =>
    have hcast : ((s :: states).length : Int) = states.length + 1 := by simp
    rw [hcast] at hsz
    have one := fun g1 r h => C108_add_node_as_without e hs hK s dir maxNode g h0 h1 (by unfold InI64 at hsz ⊢; omega) hth valid hv dist hd g1 r h
    generalize hp : (g', r) = p at hr
    cases hr with
    | throws h => cases hp; exact .throws (one _ _ h)
    | ub h => cases hp; exact .ub (one _ _ h)
    | @next _ _ _ g1 _ i r1 h hrest =>
      cases hp
      have h2 := one _ _ h
      have hl := add_length h2
      have hl' := add_length_le h2
      dsimp only at hl hl'
      have h3 := ih g1 (by omega) (by unfold InI64 at hsz ⊢; omega) r1 hrest
      cases r1 with
      | ok is => exact .next h2 h3
      | throw x => exact .later h2 h3 (fun is hi => by cases hi)
      | ub => exact .later h2 h3 (fun is hi => by cases hi)

end

variable [Add C] [OrderTop C] [CostLaws C] [Inhabited V]

theorem searchRun_lift {e : Env V C ε} {valid : V → V → Bool} {dist : V → V → C} (hv : ∀ a b, e.valid a b = .ok (valid a b))
    (hd : ∀ a b, e.dist a b = .ok (dist a b)) {lazy limit : Bool} {g : Graph V C} {si gi : List Int} {r : Res (List Int × C)}
    (h : Prm.SearchRun graphOps (e.total valid dist) lazy limit g si gi r) : SearchRun graphOps e lazy limit g si gi (ofRes r) := by
  have hv' : e.valid = fun a b => .ok (valid a b) := by funext a b; exact hv a b
  have hd' : e.dist = fun a b => .ok (dist a b) := by funext a b; exact hd a b
  unfold SearchRun
  cases lazy with
  | true =>
    rw [if_pos rfl, hv', hd']
    exact (CRU.GraphSearch.Callbacks.C114_as_without_lazy (ε := ε) _ _ (fun _ => false) (fun _ => ⊤) _ _ _ limit si gi _).mpr ⟨r, rfl, h⟩
  | false =>
    rw [if_neg (by simp), hd']
    exact (CRU.GraphSearch.Callbacks.C114_as_without_lazy (ε := ε) _ _ (fun _ => false) (fun _ => ⊤) _ _ _ limit si gi _).mpr ⟨r, rfl, h⟩

/-- C118: with functions that always return, the queries can have every result that they have according to C67 (and, by `C118_query_and_add_nodes`,
no other). -/
theorem C118_as_without (e : Env V C ε) (hs : e.knn.Sound e.dist) (hK : 0 ≤ e.K) (hth : InI64 e.threads) (valid : V → V → Bool)
    (hv : ∀ a b, e.valid a b = .ok (valid a b)) (dist : V → V → C) (hd : ∀ a b, e.dist a b = .ok (dist a b)) (lazy limit : Bool)
    (starts goals : List V) (g : Graph V C) (hI : InI64 (g.length + starts.length + goals.length)) (g' : Graph V C) (r : Res (List V × C))
    (hr : Prm.QueryRun graphOps (e.total valid dist) lazy limit starts goals g (g', r)) :
    QueryRun graphOps e lazy limit starts goals g (g', r >>= fun a => .ok (.ok a)) := by
  have hI1 : InI64 (g.length + starts.length) := by unfold InI64 at hI ⊢; omega
  have a1 := fun g1 r h => addAll_lift hs hK hth hv hd .newToRoadmap g.length (by omega) starts g le_rfl hI1 g1 r h
  have a2 : ∀ {g1 : Graph V C} {si : List Int}, Prm.AddAllRun graphOps (e.total valid dist) .newToRoadmap (graphOps.size g) starts g (g1, .ok si) →
      ∀ g2 r, Prm.AddAllRun graphOps (e.total valid dist) .roadmapToNew (graphOps.size g1) goals g1 (g2, r) →
      AddAllRun graphOps e .roadmapToNew (graphOps.size g1) goals g1 (g2, r >>= fun is => .ok (.ok is)) := by
    intro g1 si h g2 r hr
    have hl : g1.length ≤ g.length + starts.length := by
      rcases addAll_spec e hs hK hth .newToRoadmap g.length (by omega) starts g le_rfl hI1 g1 _ (a1 _ _ h) with ⟨_, _, _, h, _⟩ | ⟨x, hx, _⟩
      · exact h
      · cases hx
    exact addAll_lift hs hK hth hv hd .roadmapToNew g1.length (by omega) goals g1 le_rfl (by unfold InI64 at hI ⊢; omega) g2 r hr
  generalize hp : (g', r) = p at hr
  cases hr with
  | noStarts h => cases hp; exact .noStarts h
  | noGoals h h' => cases hp; exact .noGoals h h'
  | startsThrow h h' h1 => cases hp; exact .startsFail h h' (a1 _ _ h1) (fun is hi => by cases hi)
  | startsUb h h' h1 => cases hp; exact .startsFail h h' (a1 _ _ h1) (fun is hi => by cases hi)
  | goalsThrow h h' h1 h2 => cases hp; exact .goalsFail h h' (a1 _ _ h1) (a2 h1 _ _ h2) (fun is hi => by cases hi)
  | goalsUb h h' h1 h2 => cases hp; exact .goalsFail h h' (a1 _ _ h1) (a2 h1 _ _ h2) (fun is hi => by cases hi)
  | @searched g1 g2 si gi rs h h' h1 h2 hsr =>
    cases hp
    have := QueryRun.searched h h' (a1 _ _ h1) (a2 h1 _ _ h2) (searchRun_lift hv hd hsr)
    cases rs with
    | ok sol => exact this
    | throw x => exact this
    | ub => exact this

/-- C118: the same for the queries that leave the caller's roadmap alone. -/
theorem C118_path_as_without (e : Env V C ε) (hs : e.knn.Sound e.dist) (hK : 0 ≤ e.K) (hth : InI64 e.threads) (valid : V → V → Bool)
    (hv : ∀ a b, e.valid a b = .ok (valid a b)) (dist : V → V → C) (hd : ∀ a b, e.dist a b = .ok (dist a b)) (lazy limit : Bool)
    (starts goals : List V) (g : Graph V C) (hI : InI64 (g.length + starts.length + goals.length)) (useOverlay : Bool) (r : Res (List V × C))
    (hr : Prm.QueryPathRun (e.total valid dist) lazy limit starts goals g useOverlay (g, r)) :
    ∃ r', QueryPathRun e lazy limit starts goals g useOverlay (g, r') ∧
      (r' = (r >>= fun a => .ok (.ok a)) ∨ (∃ x, r = .throw x) ∧ ∃ x, r' = .throw x) := by
  cases useOverlay with
  | false =>
    cases hr with
    | copy h => exact ⟨_, .copy (C118_as_without e hs hK hth valid hv dist hd lazy limit starts goals g hI _ r h), .inl rfl⟩
  | true =>
    obtain ⟨r1, h1, a1⟩ := C67_overlay_agrees (e.total valid dist) lazy limit starts goals g true r hr
    cases h1 with
    | copy h =>
      obtain ⟨r2, h2, a2⟩ := C118_overlay_agrees e lazy limit starts goals g false _
        (.copy (C118_as_without e hs hK hth valid hv dist hd lazy limit starts goals g hI _ r1 h))
      refine ⟨r2, h2, ?_⟩
      rcases a1 with rfl | ⟨⟨x, rfl⟩, y, rfl⟩
      · rcases a2 with a2 | ⟨⟨x, h3⟩, y, rfl⟩
        · exact .inl a2.symm
        · cases r with
          | ok a => cases h3
          | ub => cases h3
          | throw z => exact .inr ⟨⟨z, rfl⟩, y, rfl⟩
      · rcases a2 with a2 | ⟨-, z, rfl⟩
        · exact .inr ⟨⟨x, rfl⟩, y, a2.symm⟩
        · exact .inr ⟨⟨x, rfl⟩, z, rfl⟩

namespace LiftDemo2
open QueryDemo

theorem collect_ok {Item D : Type} (items : List Item) (d : Item → D) : ∀ n idx (x : ε),
    CRU.Knn.Throw.collect items (fun a => .ok (d a)) n idx ≠ .ok (.error x) := by
  intro n
  induction n with
  | zero => intro idx x h; cases h
  | succ n ih =>
    intro idx x h
    unfold CRU.Knn.Throw.collect at h
    cases h1 : atRaw items idx with
    | throw y => rw [h1] at h; cases h
    | ub => rw [h1] at h; cases h
    | ok a =>
      rw [h1, Res.ok_bind] at h
      dsimp only at h
      cases h2 : CRU.Knn.Throw.collect items (fun a => (.ok (d a) : Except ε D)) n (idx + 1) with
      | throw y => rw [h2] at h; cases h
      | ub => rw [h2] at h; cases h
      | ok b =>
        rw [h2, Res.ok_bind] at h
        cases b with
        | error y => exact ih _ _ h2
        | ok b => cases h

theorem serial_ok {Item D : Type} (ps : Nat → List (Entry D) → List (Entry D)) (items : List Item) (d : Item → D) (s n : Nat) (K : Int) (x : ε) :
    CRU.Knn.Throw.knnSerial ps items (fun a => .ok (d a)) s n K ≠ .ok (.error x) := by
  intro h
  unfold CRU.Knn.Throw.knnSerial at h
  split at h
  · cases h
  split at h
  · cases h
  split at h
  · cases h
  split at h
  · cases h
  split at h
  · exact collect_ok _ _ _ _ _ h
  · cases h2 : CRU.Knn.Throw.collect items (fun a => (.ok (d a) : Except ε D)) (n - s) s with
    | throw y => rw [h2] at h; cases h
    | ub => rw [h2] at h; cases h
    | ok b =>
      rw [h2, Res.ok_bind] at h
      cases b with
      | error y => exact collect_ok _ _ _ _ _ h2
      | ok b =>
        dsimp only at h
        cases h3 : partialSort ps K.toNat b with
        | throw y => rw [h3] at h; cases h
        | ub => rw [h3] at h; cases h
        | ok c => rw [h3] at h; cases h

def tdist (a b : Int) : WithTop Int := ((|a - b| : Int) : WithTop Int)

/-- Functions that always return. -/
def env : Env Int (WithTop Int) String where
  knn := linearProvider psSort .async 1 fun a b => .ok (tdist a b)
  dist a b := .ok (tdist a b)
  valid _ _ := .ok true
  infeasible := ((-1 : Int) : WithTop Int)
  K := 2
  backend := .async
  threads := 1
  symmetric := true
  addDuplicates := false

theorem env_sound : env.knn.Sound env.dist :=
  (C108_linear_provider psSort psSort_lawful .async 1 (by decide) (by decide) (fun _ _ h => h) (fun _ _ _ _ h => h) _).1

theorem env_total (size : Int) (get : Int → Res (Node Int (WithTop Int))) (state : Int) (K : Int) (dir : Dir) (maxNode : Int) :
    ∃ r, env.knn size get state K dir maxNode r := by
  show ∃ r, linearProvider psSort .async 1 _ size get state K dir maxNode r
  unfold linearProvider
  split
  · unfold CRU.Knn.Throw.KnnRun
    exact ⟨_, by rw [if_neg (by decide : ¬ (1 : Int) > 1)]⟩
  · exact ⟨_, rfl⟩
  · exact ⟨_, rfl⟩

/-- The neighbour query does not throw. -/
theorem env_no_raise {size : Int} {get : Int → Res (Node Int (WithTop Int))} {state : Int} {K : Int} {dir : Dir} {maxNode : Int} {x : String} :
    ¬ env.knn size get state K dir maxNode (.ok (.error x)) := by
  intro h
  have h : linearProvider psSort .async 1 (fun a b => (.ok (tdist a b) : Except String (WithTop Int))) size get state K dir maxNode
    (.ok (.error x)) := h
  unfold linearProvider at h
  split at h
  · unfold CRU.Knn.Throw.KnnRun at h
    rw [if_neg (by decide : ¬ (1 : Int) > 1)] at h
    cases dir with
    | roadmapToNew => exact serial_ok psSort _ (fun n : Node Int (WithTop Int) => tdist n.value state) _ _ _ _ h.symm
    | newToRoadmap => exact serial_ok psSort _ (fun n : Node Int (WithTop Int) => tdist state n.value) _ _ _ _ h.symm
  · cases h
  · cases h

/-- Growing by one state, with functions that always return. -/
example : ∃ (g' : Graph Int (WithTop Int)) (st : Stats), g'.length = 2 ∧
    GrowRun env (GrowEnv.ofTotal ⟨fun s => (5, s + 1), fun s _ => (true, s), fun (s : Nat) _ => (decide (s = 1), s)⟩) 0 oneNode ⟨0, 0, 0, 0⟩
      (g', .ok (.ok st)) := by
  have q : Prm.KnnQuery (env.total (fun _ _ => true) tdist).knn (graphOps.size oneNode) (graphOps.get oneNode) 5 2 .roadmapToNew 1
      (.ok [⟨0, ((5 : Int) : WithTop Int)⟩]) := by
    refine ⟨.ok [⟨0, ((5 : Int) : WithTop Int)⟩], ?_, rfl⟩
    show CRU.Knn.Throw.KnnRun psSort .async 1 oneNode _ 0 1 2 _
    unfold CRU.Knn.Throw.KnnRun
    rw [if_neg (by omega)]
    rfl
  have r1 := Prm.AddNodeRun.added (ops := graphOps) (e := env.total (fun _ _ => true) tdist) (state := 5) (dir := .roadmapToNew) (maxNode := 1)
    (g := oneNode) (order := [0]) (init := [(0, 0)]) q (Or.inr rfl) ⟨[[⟨0, 0⟩]], [⟨0, 0⟩], rfl, .step 0 _ [] [] rfl (.done (by simp)), rfl⟩ rfl
  refine ⟨_, ⟨1, 1, 0, 0⟩, ?_, (C108_grow_as_without env env_sound (by decide) (show InI64 1 by decide) (fun _ _ => true) (fun _ _ => rfl) tdist
    (fun _ _ => rfl) _ 0 oneNode (graphOps.addEdge (graphOps.addEdge (graphOps.addValue oneNode 5).1 0 1 ((5 : Int) : WithTop Int)).1 1 0
      ((5 : Int) : WithTop Int)).1 (by decide) (fun _ _ _ _ => env_no_raise) _ _).mpr
      ⟨.ok ⟨1, 1, 0, 0⟩, rfl, .grown (x := 5) (i := 1) rfl rfl rfl r1 (.stop rfl)⟩⟩
  rfl

/-- Such queries have results in the model of C67, and these are results of the model with exceptions. -/
example (lazy limit useOverlay : Bool) (s t : Int) : (∃ r r', Prm.QueryPathRun (env.total (fun _ _ => true) tdist) lazy limit [s] [t] oneNode
      useOverlay (oneNode, r) ∧ QueryPathRun env lazy limit [s] [t] oneNode useOverlay (oneNode, r')) ∧
    ∃ g' r, Prm.QueryRun graphOps (env.total (fun _ _ => true) tdist) lazy limit [s] [t] oneNode (g', r) ∧
    QueryRun graphOps env lazy limit [s] [t] oneNode (g', r >>= fun a => .ok (.ok a)) := by
  have hE := C67_query_ends (env.total (fun _ _ => true) tdist) (sound_ext env_sound (extends_of_eq (fun _ _ => rfl) (fun _ _ => rfl))) (by
      intro size get state K dir maxNode
      obtain ⟨r, hr⟩ := env_total size get state K dir maxNode
      cases r with
      | throw x => exact ⟨.throw x, hr⟩
      | ub => exact ⟨.ub, hr⟩
      | ok r =>
        cases r with
        | ok l => exact ⟨.ok l, hr⟩
        | error x =>
          exact absurd hr env_no_raise) (by decide) (WithTop.coe_lt_coe.mpr (by omega)) (show InI64 1 by decide) (fun _ a b => by
      refine ⟨rfl, ?_⟩
      show tdist a b = tdist b a
      unfold tdist
      rw [abs_sub_comm]) lazy limit [s] [t] oneNode oneNode_valid (fun u v w h => absurd h (oneNode_edge u v w))
    (fun _ a b => WithTop.coe_le_coe.mpr (abs_nonneg (a - b))) (show InI64 3 by decide)
  obtain ⟨r, hr⟩ := hE useOverlay
  obtain ⟨r', hr', -⟩ := C118_path_as_without env env_sound (by decide) (show InI64 1 by decide) _ (fun _ _ => rfl) _ (fun _ _ => rfl) lazy limit [s] [t] oneNode
    (show InI64 3 by decide) useOverlay r hr
  refine ⟨⟨r, r', hr, hr'⟩, ?_⟩
  obtain ⟨r, hr⟩ := hE false
  cases hr with
  | copy h =>
    exact ⟨_, r, h, C118_as_without env env_sound (by decide) (show InI64 1 by decide) _ (fun _ _ => rfl) _ (fun _ _ => rfl) lazy limit [s] [t] oneNode
      (show InI64 3 by decide) _ r h⟩

end LiftDemo2

end CRU.Prm.Throw
