import Verif.Prm.Update
import Verif.Distances.Throw
import Mathlib.Tactic.IntervalCases
/-
  C108, `UpdateRoadMapEdges` with an edge check and a distance function that may throw.
-/
namespace CRU.Prm.Throw
open CRU.Graph CRU.Knn CRU.Parallel CRU.GraphSearch CRU.Distances.Throw
set_option linter.unusedSectionVars false

variable {V C ε κ α σ : Type}

/-! ### Model -/

section
variable [LinearOrder C] [OrderTop C]

/-- simple_prm_planner.hpp:709-715, the weight an edge from `a` to `b` gets, or the exception. -/
def weightOf (valid : V → V → Except ε Bool) (dist : V → V → Except ε C) (a b : V) : Except ε C :=
  match valid a b with
  | .error x => .error x
  | .ok true => dist a b
  | .ok false => .ok ⊤

/-- simple_prm_planner.hpp:704-715, what the loop reads and calls for the `k`-th out-edge of node `i`. No thread writes what is read here (states and
ends of edges), so the roadmap before the loop is used. -/
def edgeBody (valid : V → V → Except ε Bool) (dist : V → V → Except ε C) (g : Graph V C) (i : Int) (k : Nat) :
    Res (Effects (Int × Nat × C) ε) := do
  let cur ← getNode g i
  let edge ← atRaw cur.outs k
  let other ← getNode g edge.dst
  match weightOf valid dist cur.value other.value with
  | .error x => pure ([], some x)
  | .ok w => pure ([(i, k, w)], none)

/-- simple_prm_planner.hpp:699-727 `per_item_work`: the out-edges in order, up to the first exception. -/
def nodeBody (valid : V → V → Except ε Bool) (dist : V → V → Except ε C) (g : Graph V C) (c : Call) : Res (Effects (Int × Nat × C) ε) := do
  let cur ← getNode g c.index
  unitOf (edgeBody valid dist g c.index) (List.range cur.outs.length)

/-- simple_prm_planner.hpp:716-725: the weight of the `k`-th out-edge of node `i` and of the in-edges from `i` at its end. -/
def setWeight (a : Int × Nat × C) (g : Graph V C) : Res (Graph V C) := do
  let cur ← getNode g a.1
  let edge ← atRaw cur.outs a.2.1
  let _other ← getNode g edge.dst
  let g1 := g.modify a.1.toNat fun n => { n with outs := n.outs.modify a.2.1 fun x => { x with weight := a.2.2 } }
  pure (g1.modify edge.dst.toNat fun n => { n with ins := n.ins.map fun x => if x.src = a.1 then { x with weight := a.2.2 } else x })

/-- simple_prm_planner.hpp:687-732 `UpdateRoadMapEdges`: the roadmap that is left behind and the exception that was thrown, if any. -/
def UpdateRun (valid : V → V → Except ε Bool) (dist : V → V → Except ε C) (b : Backend) (threads : Int) (g : Graph V C)
    (r : Res (Graph V C × Option ε)) : Prop :=
  match checkLinkage g.length (getNode g) with
  | .ok true =>
    ∃ ws, staticIndexLoop b threads 0 g.length = .ok ws ∧
      ((∃ us tr o, unitsOf (nodeBody valid dist g) ws = .ok us ∧ EffectsRun b.isOmp us tr o ∧ r = (forEach setWeight tr g >>= fun g' => pure (g', o))) ∨
      (∃ x, unitsOf (nodeBody valid dist g) ws = .throw x ∧ r = .throw x) ∨ (unitsOf (nodeBody valid dist g) ws = .ub ∧ r = .ub))
  | .ok false => r = .throw .invalidArgument
  | .throw x => r = .throw x
  | .ub => r = .ub

/-! ### Specification -/

/-- `w` is the weight the edge from `a` to `b` should have, and was computed without an exception. -/
def FreshT (valid : V → V → Except ε Bool) (dist : V → V → Except ε C) (a b : V) (w : C) : Prop :=
  (valid a b = .ok true ∧ dist a b = .ok w) ∨ (valid a b = .ok false ∧ w = ⊤)

/-- Computing the weight of the edge from `a` to `b` throws `x`. -/
def RaisesEdge (valid : V → V → Except ε Bool) (dist : V → V → Except ε C) (a b : V) (x : ε) : Prop :=
  valid a b = .error x ∨ (valid a b = .ok true ∧ dist a b = .error x)

/-- The roadmap `g'` is `g` up to weights; the weight of an edge from `a` to `b` goes from `w` to `w'` with `P a b w w'`, in both lists. -/
def WeightsChange (g g' : Graph V C) (P : V → V → C → C → Prop) : Prop :=
  g'.length = g.length ∧ ∀ (i : Nat) (n : Node V C), g[i]? = some n → ∃ n', g'[i]? = some n' ∧ n'.value = n.value ∧
    List.Forall₂ (fun e e' => SameButWeight e e' ∧ ∃ b, HasValue g e.dst b ∧ P n.value b e.weight e'.weight) n.outs n'.outs ∧
    List.Forall₂ (fun e e' => SameButWeight e e' ∧ ∃ a, HasValue g e.src a ∧ P a n.value e.weight e'.weight) n.ins n'.ins

/-- No node has two edges to the same node. -/
def NoParallel (g : Graph V C) : Prop :=
  ∀ (i : Nat) (n : Node V C), g[i]? = some n → ∀ j : Int, (n.outs.filter (fun e => e.dst = j)).length ≤ 1

/-! ### Proofs and theorems -/

theorem weightOf_ok {valid : V → V → Except ε Bool} {dist : V → V → Except ε C} {a b : V} {w : C} :
    weightOf valid dist a b = .ok w ↔ FreshT valid dist a b w := by
  unfold weightOf FreshT
  rcases h : valid a b with x | c
  · simp
  · cases c <;> simp [eq_comm]

theorem weightOf_error {valid : V → V → Except ε Bool} {dist : V → V → Except ε C} {a b : V} {x : ε} :
    weightOf valid dist a b = .error x ↔ RaisesEdge valid dist a b x := by
  unfold weightOf RaisesEdge
  rcases h : valid a b with x | c
  · simp
  · cases c <;> simp

/-- One assignment of a weight: everything it does. -/
theorem setWeight_ok (g0 g : Graph V C) (hv : ValidLinkage g0) (W : Int → Int → C) (hf : Fresher W g0 g) (i k : Nat) (n0 : Node V C)
    (hn0 : g0[i]? = some n0) (e0 : Edge C) (he0 : n0.outs[k]? = some e0) :
    ∃ g' j, e0.dst = (j : Nat) ∧ i ≠ j ∧ setWeight ((i : Int), k, W i e0.dst) g = .ok g' ∧ Fresher W g g' ∧ DoneOut W g' i k ∧ DoneIn W g' i j ∧
      ∀ a, g'[a]? = g[a]?.map fun n =>
        Node.mk n.value (if a = j then n.ins.map (fun x => if x.src = (i : Int) then { x with weight := W i e0.dst } else x) else n.ins)
          (if a = i then n.outs.modify k (fun x => { x with weight := W i e0.dst }) else n.outs) := by
  obtain ⟨n, hn, hval, ho, hin⟩ := hf.2 i n0 hn0
  obtain ⟨hig, hin'⟩ := List.getElem?_eq_some_iff.mp hn
  obtain ⟨hk, -⟩ := List.getElem?_eq_some_iff.mp he0
  have hlen : n.outs.length = n0.outs.length := ho.length_eq.symm
  have hkn : k < n.outs.length := by omega
  obtain ⟨e0', he0', h3⟩ := forall₂_get ho (List.getElem?_eq_getElem hkn)
  rw [he0] at he0'; cases he0'
  have hdst : n.outs[k].dst = e0.dst := by rcases h3 with h | h <;> rw [h]; rfl
  obtain ⟨hsrc, j, m0, hj, hji, hm0, _⟩ := (hv i n0 hn0).2 e0 (List.mem_of_getElem? he0)
  obtain ⟨m, hm, hmval, _, _⟩ := hf.2 j m0 hm0
  obtain ⟨hjg, hjm⟩ := List.getElem?_eq_some_iff.mp hm
  generalize hw : W i e0.dst = w
  let fo : Node V C → Node V C := fun n => { n with outs := n.outs.modify k fun x => { x with weight := w } }
  let fi : Node V C → Node V C := fun n => { n with ins := n.ins.map fun x => if x.src = (i : Int) then { x with weight := w } else x }
  let upd : Nat → Node V C → Node V C := fun a n =>
    ⟨n.value, if a = j then n.ins.map (fun x => if x.src = (i : Int) then { x with weight := w } else x) else n.ins,
      if a = i then n.outs.modify k (fun x => { x with weight := w }) else n.outs⟩
  have hget : ∀ a, ((g.modify i fo).modify j fi)[a]? = g[a]?.map (upd a) := by
    intro a
    rw [List.getElem?_modify, List.getElem?_modify]
    cases g[a]? with
    | none => rfl
    | some x =>
    show some _ = some _
    congr 1
    by_cases h1 : i = a
    · have h2 : ¬ j = a := by omega
      have h2' : ¬ a = j := fun h => h2 h.symm
      simp [h1, h2, h2', fo, upd]
    · by_cases h2 : j = a
      · have h1' : ¬ a = i := fun h => h1 h.symm
        simp [h1, h2, h1', fi, upd]
      · have h1' : ¬ a = i := fun h => h1 h.symm
        have h2' : ¬ a = j := fun h => h2 h.symm
        simp [h1, h2, h1', h2', upd]
  refine ⟨(g.modify i fo).modify j fi, j, hj, fun h => hji h.symm, ?_, ?_, ?_, ?_, hget⟩
  · unfold setWeight
    have hgi : getNode g (i : Int) = .ok n := by rw [getNode_ok g i hig, hin']
    have hgj : getNode g (j : Int) = .ok m := by rw [getNode_ok g j hjg, hjm]
    have hat : atRaw n.outs k = .ok n.outs[k] := by unfold atRaw; rw [List.getElem?_eq_getElem hkn]
    dsimp only
    rw [hgi, Res.ok_bind, hat, Res.ok_bind, hdst, hj, hgj, Res.ok_bind, Int.toNat_natCast, Int.toNat_natCast, Res.pure_eq]
  · refine ⟨by simp, fun a x hx => ⟨upd a x, by rw [hget, hx]; rfl, rfl, ?_, ?_⟩⟩
    · dsimp only [upd]
      split
      · rename_i h
        subst h
        rw [hn] at hx; cases hx
        apply forall₂_modify
        intro e he
        rw [List.getElem?_eq_getElem hkn] at he
        cases he
        rw [hdst, hw]
      · exact oldOrFresh _ _
    · dsimp only [upd]
      split
      · rename_i h
        subst h
        exact forall₂_map_if _ _ (by rw [← hw, hj])
      · exact oldOrFresh _ _
  · intro x e hx he
    rw [hget, hn] at hx
    simp only [Option.map_some, Option.some.injEq] at hx
    subst hx
    simp only [upd, if_true] at he
    rw [List.getElem?_modify, List.getElem?_eq_getElem hkn] at he
    simp only [if_true, Option.map_eq_map, Option.map_some, Option.some.injEq] at he
    subst he
    unfold canonOut
    dsimp only
    rw [hdst, hw]
  · intro x e hx he hs
    rw [hget, hm] at hx
    simp only [Option.map_some, Option.some.injEq] at hx
    subst hx
    simp only [upd, if_true] at he
    obtain ⟨y, hy, rfl⟩ := List.mem_map.mp he
    by_cases h : y.src = (i : Int)
    · rw [if_pos h]
      unfold canonIn
      dsimp only
      rw [h, ← hj, hw]
    · rw [if_neg h] at hs
      exact absurd hs h

/-- `a` is an assignment that the loop makes: the fresh weight of an edge of `g`. -/
def GoodEffect (valid : V → V → Except ε Bool) (dist : V → V → Except ε C) (g : Graph V C) (a : Int × Nat × C) : Prop :=
  ∃ (i j : Nat) (n m : Node V C) (e : Edge C), a.1 = i ∧ g[i]? = some n ∧ n.outs[a.2.1]? = some e ∧ e.dst = j ∧ g[j]? = some m ∧
    weightOf valid dist n.value m.value = .ok a.2.2

/-- `W` has the fresh weights, where they can be computed. -/
def Weighs (valid : V → V → Except ε Bool) (dist : V → V → Except ε C) (g : Graph V C) (W : Int → Int → C) : Prop :=
  ∀ (i j : Nat) (n m : Node V C) (w : C), g[i]? = some n → g[j]? = some m → weightOf valid dist n.value m.value = .ok w → W i j = w

theorem run_ok (valid : V → V → Except ε Bool) (dist : V → V → Except ε C) (g0 : Graph V C) (hv : ValidLinkage g0) :
    ∀ (tr : List (Int × Nat × C)) (g : Graph V C), (∀ a ∈ tr, GoodEffect valid dist g0 a) →
    (∃ W, Weighs valid dist g0 W ∧ Fresher W g0 g) →
    ∃ g', forEach setWeight tr g = .ok g' ∧ ∀ W, Weighs valid dist g0 W → Fresher W g0 g → Fresher W g g' ∧
      ∀ a ∈ tr, ∀ (i : Nat) (n : Node V C) (e : Edge C) (j : Nat), a.1 = i → g0[i]? = some n → n.outs[a.2.1]? = some e → e.dst = j →
        DoneOut W g' i a.2.1 ∧ DoneIn W g' i j
  | [], g, _, _ => ⟨g, rfl, fun W _ _ => ⟨.refl W g, by simp⟩⟩
  | a :: tr, g, hg, ⟨W0, hW0, hf0⟩ => by
    obtain ⟨i, j, n, m, e, h1, h2, h3, h4, h5, h6⟩ := hg a (by simp)
    obtain ⟨ai, k, w⟩ := a
    dsimp only at h1 h3 h6
    subst h1
    obtain ⟨g1, j', a1, a2, a3, a4, -⟩ := setWeight_ok g0 g hv W0 hf0 i k n h2 e h3
    have hw0 : W0 i e.dst = w := by rw [h4]; exact hW0 i j n m w h2 h5 h6
    rw [hw0] at a3
    obtain ⟨g2, b1, b2⟩ := run_ok valid dist g0 hv tr g1 (fun a ha => hg a (by simp [ha])) ⟨W0, hW0, hf0.trans a4⟩
    refine ⟨g2, by unfold forEach; rw [a3, Res.ok_bind]; exact b1, fun W hW hf => ?_⟩
    obtain ⟨g1', j'', c1, c2, c3, c4, c5, c6, -⟩ := setWeight_ok g0 g hv W hf i k n h2 e h3
    have hw : W i e.dst = w := by rw [h4]; exact hW i j n m w h2 h5 h6
    rw [hw, a3] at c3
    cases c3
    obtain ⟨d1, d2⟩ := b2 W hW (hf.trans c4)
    refine ⟨c4.trans d1, fun a ha i' n' e' l k1 k2 k3 k4 => ?_⟩
    rcases List.mem_cons.mp ha with rfl | ha
    · dsimp only at k1 k3 ⊢
      obtain rfl : i' = i := by exact_mod_cast k1.symm
      rw [h2] at k2; cases k2
      rw [h3] at k3; cases k3
      obtain rfl : l = j'' := by have := k4.symm.trans c1; exact_mod_cast this
      exact ⟨d1.doneOut c5, d1.doneIn c6⟩
    · exact d2 a ha i' n' e' l k1 k2 k3 k4

/-- What one body does. -/
theorem nodeBody_spec (valid : V → V → Except ε Bool) (dist : V → V → Except ε C) (g : Graph V C) (hv : ValidLinkage g) (c : Call)
    (h0 : 0 ≤ c.index) (h1 : c.index.toNat < g.length) :
    ∃ u : Effects (Int × Nat × C) ε, nodeBody valid dist g c = .ok u ∧ (∀ a ∈ u.1, GoodEffect valid dist g a) ∧
      (u.2 = none → ∀ k, k < (g[c.index.toNat]).outs.length → ∃ w, (c.index, k, w) ∈ u.1) ∧
      ∀ x, u.2 = some x → ∃ (n : Node V C) (e : Edge C) (j : Nat) (m : Node V C), g[c.index.toNat]? = some n ∧ e ∈ n.outs ∧ e.dst = j ∧
        g[j]? = some m ∧ weightOf valid dist n.value m.value = .error x := by
  obtain ⟨i, hi⟩ := Int.eq_ofNat_of_zero_le h0
  rw [hi] at h1
  have h1 : i < g.length := by simpa using h1
  have hn := List.getElem?_eq_getElem h1
  have hedge : ∀ k, (hk : k < g[i].outs.length) → ∃ (j : Nat) (m : Node V C), (g[i].outs[k]).dst = j ∧ g[j]? = some m ∧
      edgeBody valid dist g i k = .ok (match weightOf valid dist g[i].value m.value with
        | .error x => ([], some x)
        | .ok w => ([((i : Int), k, w)], none)) := by
    intro k hk
    obtain ⟨-, j, m, hj, -, hm, -⟩ := (hv i _ hn).2 (g[i].outs[k]) (List.getElem_mem hk)
    obtain ⟨hjl, hjm⟩ := List.getElem?_eq_some_iff.mp hm
    refine ⟨j, m, hj, hm, ?_⟩
    unfold edgeBody
    have hat : atRaw g[i].outs k = .ok g[i].outs[k] := by unfold atRaw; rw [List.getElem?_eq_getElem hk]
    rw [getNode_ok g i h1, Res.ok_bind, hat, Res.ok_bind, hj, getNode_ok g j hjl, hjm, Res.ok_bind]
    cases weightOf valid dist g[i].value m.value <;> rfl
  let u : Nat → Effects (Int × Nat × C) ε := fun k => match edgeBody valid dist g i k with | .ok e => e | _ => ([], none)
  have hu : ∀ k ∈ List.range g[i].outs.length, edgeBody valid dist g i k = .ok (u k) := by
    intro k hk
    obtain ⟨j, m, -, -, h⟩ := hedge k (List.mem_range.mp hk)
    simp only [u]
    rw [h]
  refine ⟨pureUnit u (List.range g[i].outs.length), ?_, fun a ha => ?_, fun hnone k hk => ?_, fun x hx => ?_⟩
  · unfold nodeBody
    rw [hi]
    show (getNode g (i : Int) >>= _) = _
    rw [getNode_ok g i h1, Res.ok_bind]
    exact unitOf_ok _ hu
  · obtain ⟨k, hk, hak⟩ := pureUnit_effects u _ a ha
    obtain ⟨j, m, hj, hm, h⟩ := hedge k (List.mem_range.mp hk)
    rw [hu k hk] at h
    simp only [Res.ok.injEq] at h
    rw [h] at hak
    cases hwt : weightOf valid dist g[i].value m.value with
    | error x => rw [hwt] at hak; simp at hak
    | ok w =>
      rw [hwt] at hak
      simp only [List.mem_singleton] at hak
      subst hak
      exact ⟨i, j, _, m, _, rfl, hn, List.getElem?_eq_getElem (List.mem_range.mp hk), hj, hm, hwt⟩
  · have hk' : k < g[i].outs.length := by
      have : c.index.toNat = i := by omega
      simpa [this] using hk
    rcases pureUnit_spec u (List.range g[i].outs.length) with ⟨hno, heq⟩ | ⟨_, _, _, x, -, -, hx, -⟩
    · obtain ⟨j, m, hj, hm, h⟩ := hedge k hk'
      have hkm := List.mem_range.mpr hk'
      rw [hu k hkm] at h
      simp only [Res.ok.injEq] at h
      have hnk := hno k hkm
      rw [h] at hnk
      cases hwt : weightOf valid dist g[i].value m.value with
      | error x => rw [hwt] at hnk; simp at hnk
      | ok w =>
        refine ⟨w, ?_⟩
        rw [heq]
        refine List.mem_flatMap.mpr ⟨k, hkm, ?_⟩
        rw [h, hwt, hi]
        simp
    · rw [hnone] at hx; cases hx
  · rcases pureUnit_spec u (List.range g[i].outs.length) with ⟨hno, heq⟩ | ⟨pre, k, post, y, hs, hy, hx', -⟩
    · rw [heq] at hx; cases hx
    · rw [hx] at hx'; cases hx'
      have hkm : k ∈ List.range g[i].outs.length := by rw [hs]; simp
      obtain ⟨j, m, hj, hm, h⟩ := hedge k (List.mem_range.mp hkm)
      rw [hu k hkm] at h
      simp only [Res.ok.injEq] at h
      rw [h] at hy
      refine ⟨g[i], _, j, m, by rw [hi]; exact hn, List.getElem_mem (List.mem_range.mp hkm), hj, hm, ?_⟩
      cases hwt : weightOf valid dist g[i].value m.value with
      | error x => rw [hwt] at hy; simp at hy; rw [hy]
      | ok w => rw [hwt] at hy; simp at hy

theorem hasValue_get {g : Graph V C} {j : Nat} {m : Node V C} {x : Int} (hx : x = j) (hm : g[j]? = some m) : HasValue g x m.value := ⟨j, m, hx, hm, rfl⟩

/-- From old or fresh weights, for all `W`, to the statement about the functions. -/
theorem partly_of_fresher (valid : V → V → Except ε Bool) (dist : V → V → Except ε C) (g g' : Graph V C) (hv : ValidLinkage g)
    (h : ∀ W, Weighs valid dist g W → Fresher W g g') :
    WeightsChange g g' (fun a b w w' => w' = w ∨ FreshT valid dist a b w') := by
  classical
  let W : C → Int → Int → C := fun c i j =>
    match g[i.toNat]?, g[j.toNat]? with
    | some n, some m => match weightOf valid dist n.value m.value with | .ok w => w | .error _ => c
    | _, _ => c
  have hW : ∀ c, Weighs valid dist g (W c) := by
    intro c i j n m w hn hm hw
    simp only [W, Int.toNat_natCast, hn, hm, hw]
  have hWv : ∀ c (i j : Nat) (n m : Node V C), g[i]? = some n → g[j]? = some m → W c i j = c ∨ FreshT valid dist n.value m.value (W c i j) := by
    intro c i j n m hn hm
    simp only [W, Int.toNat_natCast, hn, hm]
    cases hw : weightOf valid dist n.value m.value with
    | ok w => exact .inr (weightOf_ok.mp hw)
    | error x => exact .inl rfl
  refine ⟨(h _ (hW ⊤)).1, fun i n hn => ?_⟩
  obtain ⟨n', a1, a2, -⟩ := (h _ (hW ⊤)).2 i n hn
  refine ⟨n', a1, a2, ?_, ?_⟩
  · rw [List.forall₂_iff_get]
    have hlen : n.outs.length = n'.outs.length := by
      obtain ⟨m', b1, -, b3, -⟩ := (h _ (hW ⊤)).2 i n hn
      rw [a1] at b1; cases b1
      exact b3.length_eq
    refine ⟨hlen, fun k hk hk' => ?_⟩
    obtain ⟨m', b1, -, b3, -⟩ := (h _ (hW (n.outs[k]).weight)).2 i n hn
    rw [a1] at b1; cases b1
    have hr := (List.forall₂_iff_get.mp b3).2 k hk hk'
    simp only [List.get_eq_getElem] at hr ⊢
    obtain ⟨-, j, m, hj, -, hm, -⟩ := (hv i n hn).2 _ (List.getElem_mem hk)
    rcases hr with hr | hr
    · rw [hr]
      exact ⟨⟨rfl, rfl, rfl⟩, m.value, hasValue_get hj hm, .inl rfl⟩
    · rw [hr]
      refine ⟨⟨rfl, rfl, rfl⟩, m.value, hasValue_get hj hm, ?_⟩
      unfold canonOut
      dsimp only
      rw [hj]
      exact hWv _ i j n m hn hm
  · rw [List.forall₂_iff_get]
    have hlen : n.ins.length = n'.ins.length := by
      obtain ⟨m', b1, -, -, b3⟩ := (h _ (hW ⊤)).2 i n hn
      rw [a1] at b1; cases b1
      exact b3.length_eq
    refine ⟨hlen, fun k hk hk' => ?_⟩
    obtain ⟨m', b1, -, -, b3⟩ := (h _ (hW (n.ins[k]).weight)).2 i n hn
    rw [a1] at b1; cases b1
    have hr := (List.forall₂_iff_get.mp b3).2 k hk hk'
    simp only [List.get_eq_getElem] at hr ⊢
    obtain ⟨-, j, m, hj, -, hm, -⟩ := (hv i n hn).1 _ (List.getElem_mem hk)
    rcases hr with hr | hr
    · rw [hr]
      exact ⟨⟨rfl, rfl, rfl⟩, m.value, hasValue_get hj hm, .inl rfl⟩
    · rw [hr]
      refine ⟨⟨rfl, rfl, rfl⟩, m.value, hasValue_get hj hm, ?_⟩
      unfold canonIn
      dsimp only
      rw [hj]
      exact hWv _ j i m n hm hn

/-- Linkage does not depend on weights. -/
theorem linkage_weights {g g' : Graph V C} {P : V → V → C → C → Prop} (hv : ValidLinkage g) (h : WeightsChange g g' P) : ValidLinkage g' := by
  have hnode : ∀ (i : Nat) (n' : Node V C), g'[i]? = some n' → ∃ n, g[i]? = some n ∧
      List.Forall₂ SameButWeight n.outs n'.outs ∧ List.Forall₂ SameButWeight n.ins n'.ins := by
    intro i n' hn'
    obtain ⟨hi, _⟩ := List.getElem?_eq_some_iff.mp hn'
    have hi' : i < g.length := by have := h.1; omega
    obtain ⟨m, a1, _, a3, a4⟩ := h.2 i g[i] (List.getElem?_eq_getElem hi')
    rw [hn'] at a1; cases a1
    exact ⟨g[i], List.getElem?_eq_getElem hi', a3.imp fun _ _ h => h.1, a4.imp fun _ _ h => h.1⟩
  have hback : ∀ (l l' : List (Edge C)) (e' : Edge C), List.Forall₂ SameButWeight l l' → e' ∈ l' →
      ∃ e ∈ l, e'.src = e.src ∧ e'.dst = e.dst := by
    intro l l' e' hl he
    obtain ⟨k, hk⟩ := List.getElem?_of_mem he
    obtain ⟨e, he, h⟩ := forall₂_get hl hk
    exact ⟨e, List.mem_of_getElem? he, h.1, h.2.1⟩
  have hforth : ∀ (l l' : List (Edge C)) (e : Edge C), List.Forall₂ SameButWeight l l' → e ∈ l →
      ∃ e' ∈ l', e'.src = e.src ∧ e'.dst = e.dst := by
    intro l l' e hl he
    obtain ⟨k, hk⟩ := List.getElem?_of_mem he
    obtain ⟨e', he', h⟩ := forall₂_get hl.flip hk
    exact ⟨e', List.mem_of_getElem? he', h.1, h.2.1⟩
  intro i n' hn'
  obtain ⟨n, hn, ho, hi⟩ := hnode i n' hn'
  constructor
  · intro e' he'
    obtain ⟨e, he, h1, h2⟩ := hback _ _ e' hi he'
    obtain ⟨a1, j, m, a2, a3, a4, f, hf, hfd⟩ := (hv i n hn).1 e he
    obtain ⟨m', b1, _, b2, _⟩ := h.2 j m a4
    obtain ⟨f', hf', _, hfd'⟩ := hforth _ _ f (b2.imp fun _ _ h => h.1) hf
    exact ⟨h2.trans a1, j, m', h1.trans a2, a3, b1, f', hf', hfd'.trans hfd⟩
  · intro e' he'
    obtain ⟨e, he, h1, h2⟩ := hback _ _ e' ho he'
    obtain ⟨a1, j, m, a2, a3, a4, f, hf, hfd⟩ := (hv i n hn).2 e he
    obtain ⟨m', b1, _, _, b2⟩ := h.2 j m a4
    obtain ⟨f', hf', hfd', _⟩ := hforth _ _ f (b2.imp fun _ _ h => h.1) hf
    exact ⟨h1.trans a1, j, m', h2.trans a2, a3, b1, f', hf', hfd'.trans hfd⟩

/-- The calls of the loop. -/
theorem node_calls {b : Backend} {threads : Int} {n : Nat} {ws : List (List Call)} (hth : InI64 threads) (hn : InI64 n)
    (hw : staticIndexLoop b threads 0 n = .ok ws) :
    (∀ c ∈ ws.flatten, 0 ≤ c.index ∧ c.index.toNat < n) ∧ ∀ i : Nat, i < n → ∃ c ∈ ws.flatten, c.index = i := by
  obtain ⟨tr, htr⟩ := Interleaving.exists_run ws
  have hr : IndexRun b threads 0 n (tr.map (·.index)) := ⟨ws, tr, hw, htr, rfl⟩
  have hp := hr.perm (by unfold InI64; omega) hn hth (by simpa using hn) (by omega)
  constructor
  · intro c hc
    have := mem_irange.mp (hp.subset (List.mem_map.mpr ⟨c, htr.perm.symm.subset hc, rfl⟩))
    omega
  · intro i hi
    have hm : (i : Int) ∈ tr.map (·.index) := hp.symm.subset (mem_irange.mpr (by omega))
    obtain ⟨c, hc, hci⟩ := List.mem_map.mp hm
    exact ⟨c, htr.perm.subset hc, hci⟩

/-- One run: the effects that were executed, and the outcome. -/
theorem update_effects (valid : V → V → Except ε Bool) (dist : V → V → Except ε C) (b : Backend) (threads : Int) (g : Graph V C)
    (hv : ValidLinkage g) (hth : InI64 threads) (hsz : InI64 g.length) (r : Res (Graph V C × Option ε))
    (hr : UpdateRun valid dist b threads g r) :
    ∃ tr g' o, (∀ a ∈ tr, GoodEffect valid dist g a) ∧ forEach setWeight tr g = .ok g' ∧ r = .ok (g', o) ∧
      (o = none → ∀ (i : Nat) (n : Node V C), g[i]? = some n → ∀ k, k < n.outs.length → ∃ w, ((i : Int), k, w) ∈ tr) ∧
      ∀ x, o = some x → ∃ (i : Nat) (n : Node V C) (e : Edge C) (j : Nat) (m : Node V C), g[i]? = some n ∧ e ∈ n.outs ∧ e.dst = j ∧
        g[j]? = some m ∧ weightOf valid dist n.value m.value = .error x := by
  classical
  obtain ⟨bb, h1, h2⟩ := checkLinkage_ok g
  have hbb := h2.mpr hv
  subst hbb
  unfold UpdateRun at hr
  rw [h1] at hr
  dsimp only at hr
  obtain ⟨ws, hw, hr⟩ := hr
  obtain ⟨hc1, hc2⟩ := node_calls hth hsz hw
  let u : Call → Effects (Int × Nat × C) ε := fun c => match nodeBody valid dist g c with | .ok u => u | _ => ([], none)
  have hu : ∀ c ∈ ws.flatten, nodeBody valid dist g c = .ok (u c) ∧ (∀ a ∈ (u c).1, GoodEffect valid dist g a) ∧
      ((u c).2 = none → ∀ (n : Node V C), g[c.index.toNat]? = some n → ∀ k, k < n.outs.length → ∃ w, (c.index, k, w) ∈ (u c).1) ∧
      ∀ x, (u c).2 = some x → ∃ (n : Node V C) (e : Edge C) (j : Nat) (m : Node V C), g[c.index.toNat]? = some n ∧ e ∈ n.outs ∧ e.dst = j ∧
        g[j]? = some m ∧ weightOf valid dist n.value m.value = .error x := by
    intro c hc
    obtain ⟨k1, k2⟩ := hc1 c hc
    obtain ⟨v, a1, a2, a3, a4⟩ := nodeBody_spec valid dist g hv c k1 k2
    have : u c = v := by simp only [u]; rw [a1]
    rw [this]
    refine ⟨a1, a2, fun hn n hgn => ?_, a4⟩
    rw [List.getElem?_eq_getElem k2] at hgn; cases hgn
    exact a3 hn
  have hus := unitsOf_ok ws (fun c hc => (hu c hc).1)
  rcases hr with ⟨us, tr, o, e1, e2, e3⟩ | ⟨x, e1, -⟩ | ⟨e1, -⟩
  · rw [hus] at e1; cases e1
    obtain ⟨k1, k2, k3⟩ := effects_spec e2
    have hgood : ∀ a ∈ tr, GoodEffect valid dist g a := by
      intro a ha
      obtain ⟨_, hum, hau⟩ := k1 a ha
      obtain ⟨w, hwm, rfl⟩ := List.mem_map.mp hum
      obtain ⟨c, hc, hac⟩ := pureUnit_effects u w a hau
      exact (hu c (List.mem_flatten.mpr ⟨w, hwm, hc⟩)).2.1 a hac
    let W : Int → Int → C := fun i j =>
      match g[i.toNat]?, g[j.toNat]? with
      | some n, some m => match weightOf valid dist n.value m.value with | .ok w => w | .error _ => ⊤
      | _, _ => ⊤
    have hW : Weighs valid dist g W := by
      intro i j n m w hn hm hw
      simp only [W, Int.toNat_natCast, hn, hm, hw]
    obtain ⟨g', hg', -⟩ := run_ok valid dist g hv tr g hgood ⟨W, hW, .refl W g⟩
    refine ⟨tr, g', o, hgood, hg', by rw [e3, hg']; rfl, fun ho i n hn k hk => ?_, fun x hx => ?_⟩
    · have hall := k2.mp ho
      obtain ⟨hlt, -⟩ := List.getElem?_eq_some_iff.mp hn
      obtain ⟨c, hc, hci⟩ := hc2 i hlt
      obtain ⟨w, hwm, hcw⟩ := List.mem_flatten.mp hc
      have hno : ∀ w ∈ ws, (∀ c ∈ w, (u c).2 = none) ∧ pureUnit u w = (w.flatMap fun c => (u c).1, none) := by
        intro w hw
        rcases pureUnit_spec u w with h | ⟨_, _, _, x, -, -, h3, -⟩
        · exact h
        · rw [hall _ (List.mem_map.mpr ⟨w, hw, rfl⟩)] at h3; cases h3
      have htr := effects_normal hall e2
      obtain ⟨wt, hwt⟩ := (hu c hc).2.2.1 ((hno w hwm).1 c hcw) n (by rw [hci]; exact hn) k hk
      refine ⟨wt, htr.perm.symm.subset (List.mem_flatten.mpr ⟨_, List.mem_map.mpr ⟨_, List.mem_map.mpr ⟨w, hwm, rfl⟩, rfl⟩, ?_⟩)⟩
      rw [(hno w hwm).2]
      rw [hci] at hwt
      exact List.mem_flatMap.mpr ⟨c, hcw, hwt⟩
    · obtain ⟨pre, v, post, f1, f2, -⟩ := k3 x hx
      have hvm : v ∈ ws.map (pureUnit u) := by rw [f1]; simp
      obtain ⟨w, hwm, rfl⟩ := List.mem_map.mp hvm
      rcases pureUnit_spec u w with ⟨-, h⟩ | ⟨p, c, q, y, g1, g2, g3, -⟩
      · rw [h] at f2; cases f2
      · rw [f2] at g3; cases g3
        have hc : c ∈ ws.flatten := List.mem_flatten.mpr ⟨w, hwm, by rw [g1]; simp⟩
        obtain ⟨n, e, j, m, z⟩ := (hu c hc).2.2.2 x g2
        exact ⟨_, n, e, j, m, z⟩
  · rw [hus] at e1; cases e1
  · rw [hus] at e1; cases e1

/-- C108, `UpdateRoadMapEdges` on a roadmap with valid linkage: the roadmap keeps its nodes, states, edges and linkage; every weight, in both lists, is
the old one or the fresh one. If the call returns, then no check or distance of an edge has thrown and all weights are fresh (C41). If it throws, the
exception was thrown by the check or the distance function on the two states of some edge. -/
theorem C108_update (valid : V → V → Except ε Bool) (dist : V → V → Except ε C) (b : Backend) (threads : Int) (g : Graph V C)
    (hv : ValidLinkage g) (hth : InI64 threads) (hsz : InI64 g.length) (r : Res (Graph V C × Option ε))
    (hr : UpdateRun valid dist b threads g r) :
    ∃ g' o, r = .ok (g', o) ∧ WeightsChange g g' (fun a b w w' => w' = w ∨ FreshT valid dist a b w') ∧ ValidLinkage g' ∧
      (o = none → WeightsChange g g' (fun a b _ w' => FreshT valid dist a b w')) ∧
      ∀ x, o = some x → ∃ u v w a b, OutEdge g u v w ∧ HasValue g u a ∧ HasValue g v b ∧ RaisesEdge valid dist a b x := by
  classical
  obtain ⟨tr, g', o, h1, h2, rfl, h3, h4⟩ := update_effects valid dist b threads g hv hth hsz r hr
  have hrun := fun W hW => run_ok valid dist g hv tr g h1 ⟨W, hW, Fresher.refl W g⟩
  have hall : ∀ W, Weighs valid dist g W → Fresher W g g' ∧
      ∀ a ∈ tr, ∀ (i : Nat) (n : Node V C) (e : Edge C) (j : Nat), a.1 = i → g[i]? = some n → n.outs[a.2.1]? = some e → e.dst = j →
        DoneOut W g' i a.2.1 ∧ DoneIn W g' i j := by
    intro W hW
    obtain ⟨g2, k1, k2⟩ := hrun W hW
    rw [h2] at k1; cases k1
    exact k2 W hW (.refl W g)
  have hpart := partly_of_fresher valid dist g g' hv (fun W hW => (hall W hW).1)
  refine ⟨g', o, rfl, hpart, linkage_weights hv hpart, fun ho => ?_, fun x hx => ?_⟩
  · let W : Int → Int → C := fun i j =>
      match g[i.toNat]?, g[j.toNat]? with
      | some n, some m => match weightOf valid dist n.value m.value with | .ok w => w | .error _ => ⊤
      | _, _ => ⊤
    have hW : Weighs valid dist g W := by
      intro i j n m w hn hm hw
      simp only [W, Int.toNat_natCast, hn, hm, hw]
    obtain ⟨hf, hdone⟩ := hall W hW
    have hfresh : ∀ (i j : Nat) (n m : Node V C) (k : Nat) (e : Edge C), g[i]? = some n → n.outs[k]? = some e → e.dst = j → g[j]? = some m →
        FreshT valid dist n.value m.value (W i j) ∧ DoneOut W g' i k ∧ DoneIn W g' i j := by
      intro i j n m k e hn hk hj hm
      obtain ⟨hkl, -⟩ := List.getElem?_eq_some_iff.mp hk
      obtain ⟨w, hwm⟩ := h3 ho i n hn k hkl
      obtain ⟨i', j', n', m', e', a1, a2, a3, a4, a5, a6⟩ := h1 _ hwm
      dsimp only at a1 a3 a6
      obtain rfl : i' = i := by exact_mod_cast a1.symm
      rw [hn] at a2; cases a2
      rw [hk] at a3; cases a3
      obtain rfl : j' = j := by have := a4.symm.trans hj; exact_mod_cast this
      rw [hm] at a5; cases a5
      have := hdone _ hwm i' n e j' rfl hn hk hj
      exact ⟨by rw [hW i' j' n m w hn hm a6]; exact weightOf_ok.mp a6, this⟩
    refine ⟨hf.1, fun i n hn => ?_⟩
    obtain ⟨n', a1, a2, a3, a4⟩ := hf.2 i n hn
    refine ⟨n', a1, a2, ?_, ?_⟩
    · rw [List.forall₂_iff_get] at a3 ⊢
      refine ⟨a3.1, fun k hk hk' => ?_⟩
      have hr := a3.2 k hk hk'
      simp only [List.get_eq_getElem] at hr ⊢
      obtain ⟨-, j, m, hj, -, hm, -⟩ := (hv i n hn).2 _ (List.getElem_mem hk)
      obtain ⟨f1, f2, -⟩ := hfresh i j n m k _ hn (List.getElem?_eq_getElem hk) hj hm
      have hd := f2 n' _ a1 (List.getElem?_eq_getElem hk')
      have hsb : SameButWeight n.outs[k] n'.outs[k] := by rcases hr with hr | hr <;> rw [hr] <;> exact ⟨rfl, rfl, rfl⟩
      refine ⟨hsb, m.value, hasValue_get hj hm, ?_⟩
      rw [hd]
      unfold canonOut
      dsimp only
      rw [hsb.2.1, hj]
      exact f1
    · rw [List.forall₂_iff_get] at a4 ⊢
      refine ⟨a4.1, fun k hk hk' => ?_⟩
      have hr := a4.2 k hk hk'
      simp only [List.get_eq_getElem] at hr ⊢
      obtain ⟨-, j, m, hj, -, hm, e', he', hd'⟩ := (hv i n hn).1 _ (List.getElem_mem hk)
      obtain ⟨k', hk2⟩ := List.getElem?_of_mem he'
      obtain ⟨f1, -, f3⟩ := hfresh j i m n k' e' hm hk2 hd' hn
      have hsb : SameButWeight n.ins[k] n'.ins[k] := by rcases hr with hr | hr <;> rw [hr] <;> exact ⟨rfl, rfl, rfl⟩
      have hd := f3 n' _ a1 (List.getElem_mem hk') (by rw [hsb.1, hj])
      refine ⟨hsb, m.value, hasValue_get hj hm, ?_⟩
      rw [hd]
      unfold canonIn
      dsimp only
      rw [hsb.1, hj]
      exact f1
  · obtain ⟨i, n, e, j, m, k1, k2, k3, k4, k5⟩ := h4 x hx
    exact ⟨i, j, e.weight, n.value, m.value, ⟨i, n, rfl, k1, e, k2, k3, rfl⟩, hasValue_get rfl k1, hasValue_get rfl k4, weightOf_error.mp k5⟩

theorem modify_filter {α : Type} (p : α → Bool) (f : α → α) (hp : ∀ x, p (f x) = p x) : ∀ (l : List α) (k : Nat) (x : α), l[k]? = some x → p x = true →
    (l.filter p).length ≤ 1 → (l.modify k f).filter p = (l.filter p).map f
  | [], k, x, h, _, _ => by simp at h
  | a :: l, 0, x, h, hx, hl => by
    simp at h
    subst h
    rw [List.filter_cons_of_pos hx, List.length_cons] at hl
    have hnil : l.filter p = [] := by rw [← List.length_eq_zero_iff]; omega
    rw [List.modify_zero_cons, List.filter_cons_of_pos (by rw [hp]; exact hx), List.filter_cons_of_pos hx, hnil]
    rfl
  | a :: l, k + 1, x, h, hx, hl => by
    simp at h
    have hmem : x ∈ l.filter p := List.mem_filter.mpr ⟨List.mem_of_getElem? h, hx⟩
    have hpos : 0 < (l.filter p).length := List.length_pos_of_mem hmem
    have hna : ¬ p a = true := by
      intro ha
      rw [List.filter_cons_of_pos ha, List.length_cons] at hl
      omega
    rw [List.filter_cons_of_neg hna] at hl ⊢
    rw [List.modify_succ_cons, List.filter_cons_of_neg hna]
    exact modify_filter p f hp l k x h hx hl

theorem modify_filter_other {α : Type} (p : α → Bool) (f : α → α) (hp : ∀ x, p (f x) = p x) : ∀ (l : List α) (k : Nat) (x : α), l[k]? = some x →
    p x = false → (l.modify k f).filter p = l.filter p
  | [], k, x, h, _ => by simp at h
  | a :: l, 0, x, h, hx => by
    simp at h
    subst h
    rw [List.modify_zero_cons, List.filter_cons_of_neg (by rw [hp, hx]; simp), List.filter_cons_of_neg (by rw [hx]; simp)]
  | a :: l, k + 1, x, h, hx => by
    simp at h
    rw [List.modify_succ_cons, List.filter_cons, List.filter_cons, modify_filter_other p f hp l k x h hx]

/-- One assignment keeps the two lists in step if there is only one edge between its ends. -/
theorem setWeight_mirrored (g0 g : Graph V C) (hv : ValidLinkage g0) (W : Int → Int → C) (hf : Fresher W g0 g) (i k : Nat) (n0 : Node V C)
    (hn0 : g0[i]? = some n0) (e0 : Edge C) (he0 : n0.outs[k]? = some e0) (hm : Mirrored g) (hp : NoParallel g) :
    ∃ g', setWeight ((i : Int), k, W i e0.dst) g = .ok g' ∧ Fresher W g g' ∧ Mirrored g' ∧ NoParallel g' := by
  obtain ⟨g', j, hj, hij, h1, h2, -, -, h3⟩ := setWeight_ok g0 g hv W hf i k n0 hn0 e0 he0
  obtain ⟨n, hn, hval, ho, hin⟩ := hf.2 i n0 hn0
  obtain ⟨hk, -⟩ := List.getElem?_eq_some_iff.mp he0
  have hlen : n.outs.length = n0.outs.length := ho.length_eq.symm
  have hkn : k < n.outs.length := by omega
  obtain ⟨e0', he0', h4⟩ := forall₂_get ho (List.getElem?_eq_getElem hkn)
  rw [he0] at he0'; cases he0'
  have hdst : n.outs[k].dst = e0.dst := by rcases h4 with h | h <;> rw [h]; rfl
  generalize hw : W i e0.dst = w at h1 h3 ⊢
  have hout : ∀ (x : Edge C) (d : Int), decide ({ x with weight := w }.dst = d) = decide (x.dst = d) := fun _ _ => rfl
  have hnp : NoParallel g' := by
    intro a n' hn' d
    rw [h3] at hn'
    obtain ⟨m, hm', rfl⟩ := Option.map_eq_some_iff.mp hn'
    dsimp only
    split
    · rename_i ha
      subst ha
      rw [hn] at hm'; cases hm'
      by_cases hd : n.outs[k].dst = d
      · rw [modify_filter _ _ (fun x => hout x d) _ k _ (List.getElem?_eq_getElem hkn) (by simpa using hd) (hp _ n hn d), List.length_map]
        exact hp _ n hn d
      · rw [modify_filter_other _ _ (fun x => hout x d) _ k _ (List.getElem?_eq_getElem hkn) (by simpa using hd)]
        exact hp _ n hn d
    · exact hp _ m hm' d
  refine ⟨g', h1, h2, ⟨fun a n' hn' => ?_, fun a c n' m' hn' hm' => ?_⟩, hnp⟩
  · rw [h3] at hn'
    obtain ⟨m, hm', rfl⟩ := Option.map_eq_some_iff.mp hn'
    obtain ⟨k1, k2⟩ := hm.1 a m hm'
    have hgl := h2.1
    dsimp only
    constructor
    · intro e he
      split at he
      · obtain ⟨y, hy, rfl⟩ := List.mem_map.mp he
        have := k1 y hy
        rw [hgl]
        split <;> exact this
      · rw [hgl]; exact k1 e he
    · intro e he
      split at he
      · obtain ⟨q, hq⟩ := List.getElem?_of_mem he
        rw [List.getElem?_modify] at hq
        obtain ⟨y, hy, rfl⟩ := Option.map_eq_some_iff.mp hq
        have := k2 y (List.mem_of_getElem? hy)
        rw [hgl]
        split <;> exact this
      · rw [hgl]; exact k2 e he
  · rw [h3] at hn' hm'
    obtain ⟨na, hna, rfl⟩ := Option.map_eq_some_iff.mp hn'
    obtain ⟨mc, hmc, rfl⟩ := Option.map_eq_some_iff.mp hm'
    have hac := hm.2 a c na mc hna hmc
    dsimp only
    have hins : ∀ l : List (Edge C), (l.map fun x => if x.src = (i : Int) then { x with weight := w } else x).filter (fun e => e.src = (a : Int)) =
        if a = i then (l.filter (fun e => e.src = (a : Int))).map (fun x => { x with weight := w }) else l.filter (fun e => e.src = (a : Int)) := by
      intro l
      induction l with
      | nil => simp
      | cons x l ih =>
        rw [List.map_cons, List.filter_cons, ih, List.filter_cons]
        by_cases hxi : x.src = (i : Int)
        · rw [if_pos hxi]
          by_cases hai : a = i
          · subst hai; simp [hxi]
          · have : ¬ ((i : Int) = a) := fun h => hai (by exact_mod_cast h.symm)
            simp [hxi, hai, this]
        · rw [if_neg hxi]
          by_cases hai : a = i
          · subst hai; simp [hxi]
          · simp [hai]
    by_cases hai : a = i
    · subst hai
      rw [hn] at hna; cases hna
      rw [if_pos rfl]
      by_cases hcj : c = j
      · subst hcj
        rw [if_pos rfl, hins, if_pos rfl, ← hac]
        exact modify_filter _ _ (fun x => hout x _) _ k _ (List.getElem?_eq_getElem hkn) (by simp [hdst, hj]) (hp _ _ hn _)
      · rw [if_neg hcj, ← hac]
        refine modify_filter_other _ _ (fun x => hout x _) _ k _ (List.getElem?_eq_getElem hkn) ?_
        rw [hdst, hj]
        have : ¬ ((j : Int) = c) := fun h => hcj (by exact_mod_cast h.symm)
        simp [this]
    · rw [if_neg hai]
      by_cases hcj : c = j
      · rw [if_pos hcj, hins, if_neg hai]; exact hac
      · rw [if_neg hcj]; exact hac

theorem run_mirrored (valid : V → V → Except ε Bool) (dist : V → V → Except ε C) (g0 : Graph V C) (hv : ValidLinkage g0) (W : Int → Int → C)
    (hW : Weighs valid dist g0 W) : ∀ (tr : List (Int × Nat × C)) (g : Graph V C), (∀ a ∈ tr, GoodEffect valid dist g0 a) →
    Fresher W g0 g → Mirrored g → NoParallel g → ∀ g', forEach setWeight tr g = .ok g' → Mirrored g' ∧ NoParallel g'
  | [], g, _, _, hm, hp, g', h => by
    unfold forEach at h; cases h; exact ⟨hm, hp⟩
  | a :: tr, g, hg, hf, hm, hp, g', h => by
    obtain ⟨i, j, n, m, e, h1, h2, h3, h4, h5, h6⟩ := hg a (by simp)
    obtain ⟨ai, k, w⟩ := a
    dsimp only at h1 h3 h6
    subst h1
    obtain ⟨g1, a1, a2, a3, a4⟩ := setWeight_mirrored g0 g hv W hf i k n h2 e h3 hm hp
    rw [show W i e.dst = w by rw [h4]; exact hW i j n m w h2 h5 h6] at a1
    unfold forEach at h
    rw [a1, Res.ok_bind] at h
    exact run_mirrored valid dist g0 hv W hW tr g1 (fun a ha => hg a (by simp [ha])) (hf.trans a2) a3 a4 g' h

/-- C108: if no node has two edges to the same node, as in a roadmap the planner has built, then the in- and out-edge lists agree, weights included,
even after an exception. -/
theorem C108_update_in_step (valid : V → V → Except ε Bool) (dist : V → V → Except ε C) (b : Backend) (threads : Int) (g : Graph V C)
    (hm : Mirrored g) (hp : NoParallel g) (hth : InI64 threads) (hsz : InI64 g.length) (r : Res (Graph V C × Option ε))
    (hr : UpdateRun valid dist b threads g r) : ∃ g' o, r = .ok (g', o) ∧ Mirrored g' ∧ NoParallel g' := by
  classical
  obtain ⟨tr, g', o, h1, h2, rfl, -, -⟩ := update_effects valid dist b threads g hm.validLinkage hth hsz r hr
  let W : Int → Int → C := fun i j =>
    match g[i.toNat]?, g[j.toNat]? with
    | some n, some m => match weightOf valid dist n.value m.value with | .ok w => w | .error _ => ⊤
    | _, _ => ⊤
  have hW : Weighs valid dist g W := by
    intro i j n m w hn hm hw
    simp only [W, Int.toNat_natCast, hn, hm, hw]
  exact ⟨g', o, rfl, run_mirrored valid dist g hm.validLinkage W hW tr g h1 (.refl W g) hm hp g' h2⟩

/-- C108: a roadmap without valid linkage is refused, before any function is called. -/
theorem C108_update_refuses_bad_linkage (valid : V → V → Except ε Bool) (dist : V → V → Except ε C) (b : Backend) (threads : Int) (g : Graph V C)
    (hv : ¬ ValidLinkage g) (r : Res (Graph V C × Option ε)) (hr : UpdateRun valid dist b threads g r) : r = .throw .invalidArgument := by
  obtain ⟨bb, h1, h2⟩ := checkLinkage_ok g
  have hbb : bb = false := by
    cases bb with
    | true => exact absurd (h2.mp rfl) hv
    | false => rfl
  subst hbb
  unfold UpdateRun at hr
  rw [h1] at hr
  exact hr

/-- C108: runs exist for every roadmap. -/
theorem C108_update_runs_exist (valid : V → V → Except ε Bool) (dist : V → V → Except ε C) (b : Backend) (threads : Int) (g : Graph V C)
    (hth : InI64 threads) (hsz : InI64 g.length) : ∃ r, UpdateRun valid dist b threads g r := by
  obtain ⟨bb, h1, _⟩ := checkLinkage_ok g
  unfold UpdateRun
  rw [h1]
  cases bb with
  | false => exact ⟨_, rfl⟩
  | true =>
    obtain ⟨_, ws, _, hws, _⟩ := IndexRun.exists b threads 0 g.length (by unfold InI64; omega) hsz hth (by simpa using hsz) (by omega)
    cases hu : unitsOf (nodeBody valid dist g) ws with
    | ok us => obtain ⟨tr, o, ho⟩ := effectsRun_exists b.isOmp us; exact ⟨_, ws, hws, .inl ⟨us, tr, o, hu, ho, rfl⟩⟩
    | throw x => exact ⟨_, ws, hws, .inr (.inl ⟨x, hu, rfl⟩)⟩
    | ub => exact ⟨_, ws, hws, .inr (.inr ⟨hu, rfl⟩)⟩

/-- The check throws for the edge from 0 to 7. -/
def valid7 (a b : Int) : Except String Bool := if a = 0 ∧ b = 7 then .error "collision checker" else .ok true
def dist7 (a b : Int) : Except String ENat := .ok ((b - a).natAbs : ENat)

/-- Node 0 has two edges to node 1 and, between them, one to node 2. -/
def parallel7 : Graph Int ENat :=
  [⟨0, [], [⟨0, 1, 1, 0⟩, ⟨0, 2, 1, 0⟩, ⟨0, 1, 1, 0⟩]⟩, ⟨5, [⟨0, 1, 1, 0⟩, ⟨0, 1, 1, 0⟩], []⟩, ⟨7, [⟨0, 2, 1, 0⟩], []⟩]

theorem parallel7_run : UpdateRun valid7 dist7 .async 1 parallel7 (.ok
    ([⟨0, [], [⟨0, 1, 5, 0⟩, ⟨0, 2, 1, 0⟩, ⟨0, 1, 1, 0⟩]⟩, ⟨5, [⟨0, 1, 5, 0⟩, ⟨0, 1, 5, 0⟩], []⟩, ⟨7, [⟨0, 2, 1, 0⟩], []⟩], some "collision checker")) := by
  show ∃ ws, _
  refine ⟨[[⟨0, 0⟩, ⟨0, 1⟩, ⟨0, 2⟩]], rfl, .inl ⟨[([(0, 0, 5)], some "collision checker")], [(0, 0, 5)], some "collision checker", rfl, ?_, rfl⟩⟩
  exact ⟨.step 0 _ [] [] rfl (.done (by simp)), rfl⟩

/-- C108: with two edges between the same nodes, an exception may leave the lists of edges out of step: a mirrored roadmap that is not mirrored
afterwards. -/
theorem C108_update_parallel_out_of_step : ∃ (g g' : Graph Int ENat), Mirrored g ∧
    UpdateRun valid7 dist7 .async 1 g (.ok (g', some "collision checker")) ∧ ¬ Mirrored g' := by
  refine ⟨parallel7, _, ⟨fun i n hn => ?_, fun i j n m hn hm => ?_⟩, parallel7_run, fun h => ?_⟩
  · obtain ⟨hi, -⟩ := List.getElem?_eq_some_iff.mp hn
    have : i < 3 := hi
    interval_cases i <;> (simp [parallel7] at hn; subst hn; simp [parallel7])
    · exact ⟨⟨1, rfl, by omega, by omega⟩, ⟨2, rfl, by omega, by omega⟩, ⟨1, rfl, by omega, by omega⟩⟩
    · exact ⟨0, rfl, by omega, by omega⟩
    · exact ⟨0, rfl, by omega, by omega⟩
  · obtain ⟨hi, -⟩ := List.getElem?_eq_some_iff.mp hn
    obtain ⟨hj, -⟩ := List.getElem?_eq_some_iff.mp hm
    have : i < 3 := hi
    have : j < 3 := hj
    interval_cases i <;> interval_cases j <;> (simp [parallel7] at hn hm; subst hn; subst hm; simp)
  · have := h.2 0 1 _ _ rfl rfl
    simp at this

/-- Without the second edge the hypotheses of `C108_update_in_step` hold, and the run that throws leaves the lists in step. -/
example : ∃ (g g' : Graph Int ENat), Mirrored g ∧ NoParallel g ∧ UpdateRun valid7 dist7 .async 1 g (.ok (g', some "collision checker")) ∧
    g' = [⟨0, [], [⟨0, 1, 5, 0⟩, ⟨0, 2, 1, 0⟩]⟩, ⟨5, [⟨0, 1, 5, 0⟩], []⟩, ⟨7, [⟨0, 2, 1, 0⟩], []⟩] := by
  refine ⟨[⟨0, [], [⟨0, 1, 1, 0⟩, ⟨0, 2, 1, 0⟩]⟩, ⟨5, [⟨0, 1, 1, 0⟩], []⟩, ⟨7, [⟨0, 2, 1, 0⟩], []⟩], _, ⟨fun i n hn => ?_, fun i j n m hn hm => ?_⟩,
    fun i n hn j => ?_, ?_, rfl⟩
  · obtain ⟨hi, -⟩ := List.getElem?_eq_some_iff.mp hn
    have : i < 3 := hi
    interval_cases i <;> (simp at hn; subst hn; simp)
    · exact ⟨⟨1, rfl, by omega, by omega⟩, ⟨2, rfl, by omega, by omega⟩⟩
    · exact ⟨0, rfl, by omega, by omega⟩
    · exact ⟨0, rfl, by omega, by omega⟩
  · obtain ⟨hi, -⟩ := List.getElem?_eq_some_iff.mp hn
    obtain ⟨hj, -⟩ := List.getElem?_eq_some_iff.mp hm
    have : i < 3 := hi
    have : j < 3 := hj
    interval_cases i <;> interval_cases j <;> (simp at hn hm; subst hn; subst hm; simp)
  · obtain ⟨hi, -⟩ := List.getElem?_eq_some_iff.mp hn
    have : i < 3 := hi
    interval_cases i <;> (simp at hn; subst hn)
    · by_cases h1 : (1 : Int) = j
      · subst h1; simp
      · by_cases h2 : (2 : Int) = j
        · subst h2; simp
        · simp [h1, h2]
    · simp
    · simp
  · show ∃ ws, _
    refine ⟨[[⟨0, 0⟩, ⟨0, 1⟩, ⟨0, 2⟩]], rfl, .inl ⟨[([(0, 0, 5)], some "collision checker")], [(0, 0, 5)], some "collision checker", rfl, ?_, rfl⟩⟩
    exact ⟨.step 0 _ [] [] rfl (.done (by simp)), rfl⟩

end
end CRU.Prm.Throw
