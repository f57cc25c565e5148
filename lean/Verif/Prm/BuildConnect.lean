import Verif.Prm.BuildSample
/-
  The connection phase of `BuildRoadMap`.
-/
namespace CRU.Prm
open CRU.Graph CRU.Knn CRU.Parallel CRU.GraphSearch

variable {V C : Type}

/-- The nodes of `g` hold the states `vals`. -/
def Holds (g : Graph V C) (vals : List V) : Prop := g.map (·.value) = vals

theorem Holds.length {g : Graph V C} {vals : List V} (h : Holds g vals) : g.length = vals.length := by
  rw [← h]; simp

theorem Holds.get {g : Graph V C} {vals : List V} (h : Holds g vals) (i : Nat) : vals[i]? = g[i]?.map (·.value) := by
  rw [← h]; simp

theorem Holds.modify {g : Graph V C} {vals : List V} (h : Holds g vals) (i : Nat) (f : Node V C → Node V C)
    (hf : ∀ n, (f n).value = n.value) : Holds (g.modify i f) vals := by
  unfold Holds at *
  rw [← h]
  apply List.ext_getElem? fun k => ?_
  rw [List.getElem?_map, List.getElem?_map, List.getElem?_modify]
  cases g[k]? with
  | none => rfl
  | some n =>
    simp only [Option.map_eq_map, Option.map_some]
    split
    · rw [hf]
    · rfl

variable [LinearOrder C] [Zero C] [OrderTop C]

/-- The in-edges node `i` gets for one neighbour. -/
def inOf (e : Env V C) (vals : List V) (i : Nat) (state : V) (nb : Entry C) : List (Edge C) :=
  if nb.index ≠ i then
    match vals[nb.index.toNat]? with
    | some o => if e.valid o state then [⟨nb.index, i, nb.dist, 0⟩] else []
    | none => []
  else []

/-- The out-edges node `i` gets for one neighbour. -/
def outOf (e : Env V C) (vals : List V) (i : Nat) (state : V) (nb : Entry C) : List (Edge C) :=
  if nb.index ≠ i then
    match vals[nb.index.toNat]? with
    | some o =>
      if e.symmetric && e.valid o state then [⟨i, nb.index, nb.dist, 0⟩]
      else if e.valid state o then [⟨i, nb.index, e.dist state o, 0⟩] else []
    | none => []
  else []

/-- Append edges to node `i`. -/
def extend (g : Graph V C) (i : Nat) (ins outs : List (Edge C)) : Graph V C :=
  g.modify i fun n => { n with ins := n.ins ++ ins, outs := n.outs ++ outs }

omit [LinearOrder C] [Zero C] [OrderTop C] in
theorem extend_get (g : Graph V C) (i : Nat) (ins outs : List (Edge C)) (k : Nat) :
    (extend g i ins outs)[k]? = g[k]?.map fun n : Node V C => if i = k then { n with ins := n.ins ++ ins, outs := n.outs ++ outs } else n := by
  unfold extend
  rw [List.getElem?_modify]
  rfl

omit [LinearOrder C] [Zero C] [OrderTop C] in
theorem extend_extend (g : Graph V C) (i : Nat) (a b a' b' : List (Edge C)) :
    extend (extend g i a b) i a' b' = extend g i (a ++ a') (b ++ b') := by
  apply List.ext_getElem? fun k => ?_
  rw [extend_get, extend_get, extend_get]
  cases g[k]? with
  | none => rfl
  | some n =>
    simp only [Option.map_some]
    by_cases h : i = k
    · simp [h]
    · simp [h]

omit [LinearOrder C] [Zero C] [OrderTop C] in
theorem extend_nil (g : Graph V C) (i : Nat) : extend g i [] [] = g := by
  apply List.ext_getElem? fun k => ?_
  rw [extend_get]
  cases g[k]? with
  | none => rfl
  | some n => simp

omit [LinearOrder C] [Zero C] [OrderTop C] in
theorem extend_holds {g : Graph V C} {vals : List V} (h : Holds g vals) (i : Nat) (a b : List (Edge C)) : Holds (extend g i a b) vals :=
  h.modify i _ fun _ => rfl

omit [LinearOrder C] [Zero C] [OrderTop C] in
theorem pushIn_eq (g : Graph V C) (i : Nat) (x : Edge C) : pushIn g (i : Int) x = extend g i [x] [] := by
  unfold pushIn extend
  rw [Int.toNat_natCast]
  congr 1
  funext n
  simp

omit [LinearOrder C] [Zero C] [OrderTop C] in
theorem pushOut_eq (g : Graph V C) (i : Nat) (x : Edge C) : pushOut g (i : Int) x = extend g i [] [x] := by
  unfold pushOut extend
  rw [Int.toNat_natCast]
  congr 1
  funext n
  simp

omit [LinearOrder C] [Zero C] [OrderTop C] in
theorem Holds.getNode {g : Graph V C} {vals : List V} (h : Holds g vals) {i : Nat} {v : V} (hv : vals[i]? = some v) :
    ∃ n, g[i]? = some n ∧ getNode g (i : Int) = .ok n ∧ n.value = v := by
  rw [h.get] at hv
  obtain ⟨n, hn, rfl⟩ := Option.map_eq_some_iff.mp hv
  obtain ⟨hi, rfl⟩ := List.getElem?_eq_some_iff.mp hn
  exact ⟨_, hn, getNode_ok g i hi, rfl⟩

theorem connectOne_ok (e : Env V C) (g : Graph V C) (vals : List V) (hg : Holds g vals) (i : Nat) (state : V) (nb : Entry C)
    (hnb : ∃ j : Nat, nb.index = j ∧ j < vals.length) :
    connectOne e (i : Int) state nb g = .ok (extend g i (inOf e vals i state nb) (outOf e vals i state nb)) := by
  obtain ⟨j, hj, hjl⟩ := hnb
  unfold connectOne inOf outOf
  by_cases hne : nb.index ≠ i
  · rw [if_pos hne, if_pos hne, if_pos hne]
    have hv := List.getElem?_eq_getElem hjl
    obtain ⟨n, hn, hget, hval⟩ := hg.getNode hv
    rw [hj, hget, Res.ok_bind, Int.toNat_natCast, hv, hval]
    dsimp only
    by_cases h1 : e.valid vals[j] state = true
    · by_cases h2 : e.symmetric = true
      · simp only [h1, h2, Bool.and_self, if_true, Res.pure_eq, pushIn_eq, pushOut_eq, extend_extend, List.nil_append, List.append_nil]
      · by_cases h3 : e.valid state vals[j] = true
        · simp only [h1, h2, h3, Bool.and_true, Bool.false_eq_true, if_false, if_true, Res.pure_eq, pushIn_eq, pushOut_eq,
            extend_extend, List.nil_append, List.append_nil]
        · simp only [h1, h2, h3, Bool.and_true, Bool.false_eq_true, if_false, if_true, Res.pure_eq, pushIn_eq]
    · by_cases h3 : e.valid state vals[j] = true
      · simp only [h1, h3, Bool.and_false, Bool.false_eq_true, if_false, if_true, Res.pure_eq, pushOut_eq]
      · simp only [h1, h3, Bool.and_false, Bool.false_eq_true, if_false, Res.pure_eq, extend_nil]
  · rw [if_neg hne, if_neg hne, if_neg hne, extend_nil]

theorem forEach_connectOne (e : Env V C) (vals : List V) (i : Nat) (state : V) (l : List (Entry C))
    (hl : ∀ nb ∈ l, ∃ j : Nat, nb.index = j ∧ j < vals.length) (g : Graph V C) (hg : Holds g vals) :
    forEach (connectOne e (i : Int) state) l g =
      .ok (extend g i (l.flatMap (inOf e vals i state)) (l.flatMap (outOf e vals i state))) := by
  induction l generalizing g with
  | nil => simp [forEach, extend_nil]
  | cons nb l ih =>
    unfold forEach
    rw [connectOne_ok e g vals hg i state nb (hl nb (by simp)), Res.ok_bind,
      ih (fun nb hnb => hl nb (by simp [hnb])) _ (extend_holds hg i _ _), extend_extend, List.flatMap_cons, List.flatMap_cons]

/-- The distance from the state with index `i` to `state`. -/
def valDist (dist : V → V → C) (vals : List V) (state : V) (i : Int) : C :=
  match vals[i.toNat]? with
  | some v => dist v state
  | none => 0

omit [LinearOrder C] [OrderTop C] in
theorem nodeDist_eq {g : Graph V C} {vals : List V} (h : Holds g vals) (dist : V → V → C) (state : V) :
    nodeDist dist .roadmapToNew g state = valDist dist vals state := by
  funext i
  unfold nodeDist valDist
  rw [h.get]
  cases g[i.toNat]? <;> rfl

theorem access_self (g : Graph V C) : Access g g.length (getNode g) :=
  ⟨rfl, fun i n hn => by obtain ⟨hi, rfl⟩ := List.getElem?_eq_some_iff.mp hn; exact getNode_ok g i hi⟩

/-- One connection body. -/
theorem connectRun_ok (e : Env V C) (hs : e.knn.Nearest e.dist) (hK : 0 ≤ e.K) (hK1 : InI64 (e.K + 1)) (g : Graph V C) (vals : List V)
    (hg : Holds g vals) (hI : InI64 vals.length) (i : Nat) (v : V) (hi : vals[i]? = some v) (r : Res (Graph V C))
    (hr : ConnectRun e (i : Int) g r) :
    ∃ l, r = .ok (extend g i (l.flatMap (inOf e vals i v)) (l.flatMap (outOf e vals i v))) ∧
      IsKNearest (valDist e.dist vals v) 0 vals.length (e.K + 1).toNat l := by
  obtain ⟨n, hn, hget, hval⟩ := hg.getNode hi
  unfold ConnectRun at hr
  rw [hget, chk64_ok hK1] at hr
  dsimp only at hr
  obtain ⟨rk, hk, rfl⟩ := hr
  rw [hval] at hk ⊢
  obtain ⟨r0, hk, rfl⟩ := hk
  have hlen := hg.length
  obtain ⟨l, rfl, hl⟩ := hs g g.length (getNode g) v (e.K + 1) .roadmapToNew g.length r0 (access_self g) (by rw [hlen]; exact hI)
    (by omega) (by omega) le_rfl hk
  rw [nodeDist_eq hg, hlen] at hl
  have hin : ∀ nb ∈ l, ∃ j : Nat, nb.index = j ∧ j < vals.length := fun nb hnb => by
    obtain ⟨h1, h2⟩ := hl.inRange nb hnb
    exact ⟨nb.index.toNat, by omega, by omega⟩
  have hsan : sanityCheck l (g.length : Int) g.length = .ok () := by
    unfold sanityCheck
    rw [if_neg]
    intro hc
    obtain ⟨x, hx, hb⟩ := List.any_eq_true.mp hc
    obtain ⟨j, h2, h3⟩ := hin x hx
    simp only [Bool.or_eq_true, decide_eq_true_eq] at hb
    omega
  refine ⟨l, ?_, hl⟩
  rw [Res.ok_bind, hsan, Res.ok_bind, Res.pure_eq, Res.ok_bind, forEach_connectOne e vals i v l hin g hg]

/-- All connection bodies, in any order without repetition. -/
theorem connectAll_ok (e : Env V C) (hs : e.knn.Nearest e.dist) (hK : 0 ≤ e.K) (hK1 : InI64 (e.K + 1)) (vals : List V)
    (hI : InI64 vals.length) (order : List Int) (hnd : order.Nodup) (ho : ∀ i ∈ order, 0 ≤ i ∧ i < vals.length) (g : Graph V C)
    (hg : Holds g vals) (r : Res (Graph V C)) (hr : ConnectAllRun e order g r) :
    ∃ (g' : Graph V C) (ans : Nat → List (Entry C)), r = .ok g' ∧ Holds g' vals ∧
      (∀ (i : Nat), (i : Int) ∉ order → g'[i]? = g[i]?) ∧
      ∀ (i : Nat) (n : Node V C), (i : Int) ∈ order → g[i]? = some n →
        IsKNearest (valDist e.dist vals n.value) 0 vals.length (e.K + 1).toNat (ans i) ∧
        g'[i]? = some ⟨n.value, n.ins ++ (ans i).flatMap (inOf e vals i n.value),
          n.outs ++ (ans i).flatMap (outOf e vals i n.value)⟩ := by
  have step : ∀ (i : Int) (g : Graph V C) (r : Res (Graph V C)), Holds g vals → 0 ≤ i ∧ i < vals.length → ConnectRun e i g r →
      ∃ v l, vals[i.toNat]? = some v ∧
        r = .ok (extend g i.toNat (l.flatMap (inOf e vals i.toNat v)) (l.flatMap (outOf e vals i.toNat v))) ∧
        IsKNearest (valDist e.dist vals v) 0 vals.length (e.K + 1).toNat l := by
    intro i g r hg hi hr
    have hlt : i.toNat < vals.length := by omega
    have hv := List.getElem?_eq_getElem hlt
    have hr' : ConnectRun e ((i.toNat : Nat) : Int) g r := by rw [Int.toNat_of_nonneg hi.1]; exact hr
    obtain ⟨l, h1, h2⟩ := connectRun_ok e hs hK hK1 g vals hg hI i.toNat _ hv r hr'
    exact ⟨_, l, hv, h1, h2⟩
  induction hr with
  | @done g => exact ⟨g, fun _ => [], rfl, hg, fun _ _ => rfl, fun i n hi => by cases hi⟩
  | @next i order g g1 r h rest ih =>
    obtain ⟨v, l, hv, h1, h2⟩ := step i g _ hg (ho i (by simp)) h
    cases h1
    obtain ⟨hni, hnd'⟩ := List.nodup_cons.mp hnd
    obtain ⟨g', ans, a1, a2, a3, a4⟩ := ih hnd' (fun j hj => ho j (by simp [hj])) (extend_holds hg _ _ _)
    have hi0 := (ho i (by simp)).1
    refine ⟨g', fun k => if k = i.toNat then l else ans k, a1, a2, ?_, ?_⟩
    · intro k hk
      rw [List.mem_cons, not_or] at hk
      rw [a3 k hk.2, extend_get]
      cases g[k]? with
      | none => rfl
      | some n =>
        have : ¬ i.toNat = k := fun h => hk.1 (by omega)
        simp [this]
    · intro k n hk hn
      by_cases hki : k = i.toNat
      · subst hki
        have hvn : v = n.value := by
          rw [hg.get, hn] at hv
          simpa using hv.symm
        subst hvn
        dsimp only
        rw [if_pos rfl]
        refine ⟨h2, ?_⟩
        rw [a3 _ (by rw [Int.toNat_of_nonneg hi0]; exact hni), extend_get, hn]
        simp
      · have hk' : (k : Int) ∈ order := by
          rcases List.mem_cons.mp hk with h | h
          · omega
          · exact h
        have hn' : (extend g i.toNat (l.flatMap (inOf e vals i.toNat v)) (l.flatMap (outOf e vals i.toNat v)))[k]? = some n := by
          rw [extend_get, hn]
          have : ¬ i.toNat = k := fun h => hki h.symm
          simp [this]
        have := a4 k n hk' hn'
        dsimp only
        rw [if_neg hki]
        exact this
  | @throws i order g x h =>
    obtain ⟨v, l, hv, h1, h2⟩ := step i g _ hg (ho i (by simp)) h
    cases h1
  | @ub i order g h =>
    obtain ⟨v, l, hv, h1, h2⟩ := step i g _ hg (ho i (by simp)) h
    cases h1

end CRU.Prm
