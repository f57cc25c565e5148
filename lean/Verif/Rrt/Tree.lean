import Verif.Rrt.Model
import Verif.Parallel.Run
/-
  C36, C37: linkage of planner trees and extraction of solution paths.
-/
namespace CRU.Rrt

variable {V : Type}

theorem getNode_ok {t : Tree V} {i : Int} {n : Node V} :
    getNode t i = .ok n ↔ 0 ≤ i ∧ t[i.toNat]? = some n := by
  unfold getNode atInt atChecked
  split
  · rename_i h; simp; omega
  · rename_i h
    cases hq : t[i.toNat]? <;> simp
    omega

theorem getNode_nat {t : Tree V} {i : Nat} {n : Node V} (h : t[i]? = some n) : getNode t (i : Int) = .ok n :=
  getNode_ok.2 ⟨by omega, by simpa using h⟩

theorem getNode_ne_ub (t : Tree V) (i : Int) : getNode t i ≠ .ub := by
  unfold getNode atInt atChecked
  split
  · simp
  · cases t[i.toNat]? <;> simp

theorem getNode_throw {t : Tree V} {i : Int} (h : i < 0 ∨ (t.length : Int) ≤ i) : getNode t i = .throw .outOfRange := by
  unfold getNode atInt atChecked
  split
  · rfl
  · have : t[i.toNat]? = none := by rw [List.getElem?_eq_none_iff]; omega
    rw [this]

theorem getNode_in {t : Tree V} {i : Int} (h0 : 0 ≤ i) (h1 : i < (t.length : Int)) :
    ∃ n, getNode t i = .ok n ∧ t[i.toNat]? = some n := by
  have : i.toNat < t.length := by omega
  exact ⟨t[i.toNat], getNode_ok.2 ⟨h0, by simp [this]⟩, by simp [this]⟩

theorem lt_of_get {α : Type} {l : List α} {i : Nat} {a : α} (h : l[i]? = some a) : i < l.length := by
  rcases Nat.lt_or_ge i l.length with h' | h'
  · exact h'
  · rw [List.getElem?_eq_none_iff.2 h'] at h; cases h

/-- Result of an early-exit loop whose body never throws. -/
theorem allRes_ok {α : Type} {p : α → Res Bool} {P : α → Prop} {l : List α}
    (h : ∀ x ∈ l, ∃ b, p x = .ok b ∧ (b = true ↔ P x)) : ∃ b, allRes p l = .ok b ∧ (b = true ↔ ∀ x ∈ l, P x) := by
  induction l with
  | nil => exact ⟨true, rfl, by simp⟩
  | cons x xs ih =>
    obtain ⟨b, hb, hP⟩ := h x (by simp)
    obtain ⟨c, hc, hQ⟩ := ih (fun y hy => h y (by simp [hy]))
    cases b
    · refine ⟨false, by simp [allRes, hb], ?_⟩
      simp only [Bool.false_eq_true, false_iff] at hP ⊢
      intro hall; exact hP (hall x (by simp))
    · refine ⟨c, by simp [allRes, hb, hc], ?_⟩
      rw [hQ]
      constructor
      · intro hall y hy
        rcases List.mem_cons.1 hy with rfl | hy
        · exact hP.1 rfl
        · exact hall y hy
      · intro hall y hy; exact hall y (by simp [hy])

/-- Linkage of the node at one index. -/
def NodeLinked (t : Tree V) (i : Nat) (n : Node V) : Prop :=
  n.parent < i ∧
    (0 ≤ n.parent → ∃ p, t[n.parent.toNat]? = some p ∧ (i : Int) ∈ p.children) ∧
    ∀ c ∈ n.children, (i : Int) < c ∧ ∃ m, t[c.toNat]? = some m ∧ m.parent = i

theorem checkParent_ok (t : Tree V) (i : Nat) (hi : i < t.length) (n : Node V) :
    ∃ b, checkParent t (i : Int) n = .ok b ∧
      (b = true ↔ n.parent < i ∧ (0 ≤ n.parent → ∃ p, t[n.parent.toNat]? = some p ∧ (i : Int) ∈ p.children)) := by
  unfold checkParent
  split
  · exact ⟨false, rfl, by simp; omega⟩
  · rename_i h1
    split
    · rename_i h2
      split
      · rename_i h3
        obtain ⟨p, hp, hp'⟩ := getNode_in h2.1 h2.2
        refine ⟨p.children.contains (i : Int), by simp [hp], ?_⟩
        rw [List.contains_iff_mem]
        constructor
        · intro hm; exact ⟨by omega, fun _ => ⟨p, hp', hm⟩⟩
        · rintro ⟨_, h⟩
          obtain ⟨q, hq, hm⟩ := h h2.1
          rw [hp'] at hq; cases hq; exact hm
      · exact ⟨false, rfl, by simp; omega⟩
    · exact ⟨true, rfl, by simp; omega⟩

theorem checkChild_ok (t : Tree V) (i : Nat) (c : Int) :
    ∃ b, checkChild t (i : Int) c = .ok b ∧
      (b = true ↔ (i : Int) < c ∧ ∃ m, t[c.toNat]? = some m ∧ m.parent = i) := by
  unfold checkChild
  split
  · rename_i h1
    split
    · rename_i h2
      obtain ⟨m, hm, hm'⟩ := getNode_in (t := t) (i := c) (by omega) h1.2
      refine ⟨decide (m.parent = (i : Int)), by simp [hm], ?_⟩
      rw [decide_eq_true_iff]
      constructor
      · intro h; exact ⟨by omega, m, hm', h⟩
      · rintro ⟨_, q, hq, h⟩
        rw [hm'] at hq; cases hq; exact h
    · exact ⟨false, rfl, by simp; omega⟩
  · rename_i h1
    refine ⟨false, rfl, ?_⟩
    simp only [Bool.false_eq_true, false_iff]
    rintro ⟨h, m, hm, -⟩
    have := lt_of_get hm
    omega

theorem checkNode_ok (t : Tree V) (i : Nat) (n : Node V) (h : t[i]? = some n) :
    ∃ b, checkNode t (i : Int) = .ok b ∧ (b = true ↔ NodeLinked t i n) := by
  unfold checkNode
  rw [getNode_nat h, Res.ok_bind]
  obtain ⟨b, hb, hP⟩ := checkParent_ok t i (lt_of_get h) n
  rw [hb, Res.ok_bind]
  obtain ⟨c, hc, hQ⟩ := allRes_ok (p := checkChild t (i : Int))
    (P := fun c => (i : Int) < c ∧ ∃ m, t[c.toNat]? = some m ∧ m.parent = i) (l := n.children)
    (fun c _ => checkChild_ok t i c)
  cases b
  · refine ⟨false, by simp, ?_⟩
    simp only [Bool.false_eq_true, false_iff] at hP ⊢
    intro hl; exact hP ⟨hl.1, hl.2.1⟩
  · refine ⟨c, by simp [hc], ?_⟩
    rw [hQ]
    have := hP.1 rfl
    exact ⟨fun h => ⟨this.1, this.2, h⟩, fun h => h.2.2⟩

/-- C36. `CheckNodeLinkage` never throws and accepts a node list exactly when its linkage is valid. -/
theorem C36_check (t : Tree V) : ∃ b, checkNodeLinkage t = .ok b ∧ (b = true ↔ Linked t) := by
  have key := allRes_ok (p := fun i : Nat => checkNode t (i : Int))
    (P := fun i : Nat => ∀ n, t[i]? = some n → NodeLinked t i n) (l := List.range t.length) (by
      intro i hi
      rw [List.mem_range] at hi
      have hn : t[i]? = some t[i] := by simp [hi]
      obtain ⟨b, hb, hP⟩ := checkNode_ok t i _ hn
      refine ⟨b, hb, hP.trans ⟨?_, fun h => h _ hn⟩⟩
      intro h n hn'
      rw [hn] at hn'; cases hn'; exact h)
  obtain ⟨b, hb, hP⟩ := key
  refine ⟨b, hb, hP.trans ⟨?_, fun h i _ n hn => h i n hn⟩⟩
  intro h i n hn
  exact h i (List.mem_range.2 (lt_of_get hn)) n hn

/-- C36. `SetNodes` installs a node list with valid linkage and otherwise leaves the tree as it was; the constructor from
nodes throws `std::invalid_argument` instead. -/
theorem C36_set_nodes (t nodes : Tree V) :
    (Linked nodes → setNodes t nodes = (nodes, .ok true) ∧ ofNodes nodes = .ok nodes) ∧
    (¬ Linked nodes → setNodes t nodes = (t, .ok false) ∧ ofNodes nodes = .throw .invalidArgument) := by
  obtain ⟨b, hb, hP⟩ := C36_check nodes
  constructor
  · intro h
    have : b = true := hP.2 h
    subst this
    simp [setNodes, ofNodes, hb]
  · intro h
    have : b = false := by
      cases b
      · rfl
      · exact absurd (hP.1 rfl) h
    subst this
    simp [setNodes, ofNodes, hb]

/-- The tree left behind by adding a node below an existing one: the new node at the end, and its index among the
parent's children. -/
theorem connect_eq (t : Tree V) (v : V) (parent : Int) (h0 : 0 ≤ parent) (h1 : parent < (t.length : Int)) :
    addNodeAndConnect t v parent =
      ((t ++ [(⟨v, parent, []⟩ : Node V)]).modify parent.toNat (fun n => addChildIndex n (t.length : Int)),
        .ok (t.length : Int)) := by
  unfold addNodeAndConnect
  obtain ⟨n, hn, _⟩ := getNode_in (t := t ++ [(⟨v, parent, []⟩ : Node V)]) h0 (by simp; omega)
  dsimp only
  rw [hn]
  simp

/-- Reading the tree left behind by `AddNodeAndConnect`. -/
theorem connect_get (t : Tree V) (v : V) (parent : Int) (h0 : 0 ≤ parent) (h1 : parent < (t.length : Int)) (i : Nat) :
    (addNodeAndConnect t v parent).1[i]? =
      if i = t.length then some ⟨v, parent, []⟩
      else if i = parent.toNat then (t[i]?).map (fun n => addChildIndex n (t.length : Int))
      else t[i]? := by
  rw [connect_eq t v parent h0 h1, List.getElem?_modify]
  rcases Nat.lt_trichotomy i t.length with h | h | h
  · rw [List.getElem?_append_left h, if_neg (by omega)]
    by_cases hp : i = parent.toNat
    · subst hp; simp
    · rw [if_neg hp]
      have : ¬ parent.toNat = i := fun h => hp h.symm
      simp [this]
  · subst h
    rw [if_pos rfl, List.getElem?_append_right (Nat.le_refl _)]
    have : ¬ parent.toNat = t.length := by omega
    simp [this]
  · rw [if_neg (by omega), if_neg (by omega)]
    have h2 : t[i]? = none := by rw [List.getElem?_eq_none_iff]; omega
    rw [h2, List.getElem?_append_right (by omega)]
    have : ([⟨v, parent, []⟩] : Tree V)[i - t.length]? = none := by rw [List.getElem?_eq_none_iff]; simp; omega
    rw [this]; rfl

theorem mem_addChildIndex {n : Node V} {c x : Int} : x ∈ (addChildIndex n c).children ↔ x ∈ n.children ∨ x = c := by
  unfold addChildIndex
  split
  · rename_i h
    constructor
    · exact Or.inl
    · rintro (h' | rfl)
      · exact h'
      · exact h
  · simp

theorem addChildIndex_parent {n : Node V} {c : Int} : (addChildIndex n c).parent = n.parent := by
  unfold addChildIndex; split <;> rfl

theorem addChildIndex_value {n : Node V} {c : Int} : (addChildIndex n c).value = n.value := by
  unfold addChildIndex; split <;> rfl

theorem addChildIndex_nodup {n : Node V} {c : Int} (h : n.children.Nodup) : (addChildIndex n c).children.Nodup := by
  unfold addChildIndex; split
  · exact h
  · rename_i hc
    rw [List.nodup_append]
    refine ⟨h, by simp, ?_⟩
    intro a ha b hb
    simp only [List.mem_singleton] at hb
    subst hb
    rintro rfl; exact hc ha

theorem connect_length (t : Tree V) (v : V) (parent : Int) (h0 : 0 ≤ parent) (h1 : parent < (t.length : Int)) :
    (addNodeAndConnect t v parent).1.length = t.length + 1 := by
  rw [connect_eq t v parent h0 h1]; simp

/-- C36. Adding a node below an existing one keeps the linkage valid and children listed once; the returned index is that
of the new node, and all other nodes keep their states and parents. -/
theorem C36_connect_partial (t : Tree V) (v : V) (parent : Int) (h0 : 0 ≤ parent) (h1 : parent < (t.length : Int))
    (hl : Linked t) :
    Linked (addNodeAndConnect t v parent).1 ∧
    (ChildrenOnce t → ChildrenOnce (addNodeAndConnect t v parent).1) ∧
    (addNodeAndConnect t v parent).2 = .ok (t.length : Int) ∧
    (addNodeAndConnect t v parent).1.length = t.length + 1 ∧
    (addNodeAndConnect t v parent).1[t.length]? = some ⟨v, parent, []⟩ ∧
    (∀ (i : Nat) (n : Node V), t[i]? = some n → ∃ m, (addNodeAndConnect t v parent).1[i]? = some m ∧
      m.value = n.value ∧ m.parent = n.parent ∧ ∀ c, c ∈ m.children ↔ c ∈ n.children ∨ (i = parent.toNat ∧ c = t.length)) := by
  have hget := connect_get t v parent h0 h1
  have hold : ∀ (i : Nat) (n : Node V), t[i]? = some n → ∃ m, (addNodeAndConnect t v parent).1[i]? = some m ∧
      m.value = n.value ∧ m.parent = n.parent ∧
      ∀ c, c ∈ m.children ↔ c ∈ n.children ∨ (i = parent.toNat ∧ c = t.length) := by
    intro i n hn
    have hi := lt_of_get hn
    rw [hget i, if_neg (by omega)]
    split
    · rename_i hp
      rw [hn]
      refine ⟨_, rfl, addChildIndex_value, addChildIndex_parent, ?_⟩
      intro c; rw [mem_addChildIndex]; simp [hp]
    · rename_i hp
      exact ⟨n, hn, rfl, rfl, fun c => by simp [hp]⟩
  refine ⟨?_, ?_, by rw [connect_eq t v parent h0 h1], connect_length t v parent h0 h1, by rw [hget]; simp, hold⟩
  · intro i n hn
    have hlen := lt_of_get hn
    rw [connect_length t v parent h0 h1] at hlen
    by_cases hi : i = t.length
    · subst hi
      rw [hget, if_pos rfl] at hn
      cases hn
      refine ⟨by simp; omega, fun _ => ?_, by simp⟩
      obtain ⟨p, _, hp⟩ := getNode_in h0 h1
      obtain ⟨m, hm, -, -, hc⟩ := hold _ p hp
      exact ⟨m, hm, (hc _).2 (Or.inr ⟨rfl, rfl⟩)⟩
    · have hlt : i < t.length := by omega
      have hq : t[i]? = some t[i] := by simp [hlt]
      obtain ⟨m, hm, hv, hpar, hch⟩ := hold i _ hq
      rw [hm] at hn; cases hn
      obtain ⟨l1, l2, l3⟩ := hl i _ hq
      refine ⟨by rw [hpar]; exact l1, ?_, ?_⟩
      · intro h
        rw [hpar] at h ⊢
        obtain ⟨p, hp, hmem⟩ := l2 h
        obtain ⟨m', hm', -, -, hc'⟩ := hold _ p hp
        exact ⟨m', hm', (hc' _).2 (Or.inl hmem)⟩
      · intro c hc
        rcases (hch c).1 hc with hc | ⟨hip, rfl⟩
        · obtain ⟨hlt', m', hm', hpm⟩ := l3 c hc
          obtain ⟨m2, hm2, -, hp2, -⟩ := hold _ m' hm'
          exact ⟨hlt', m2, hm2, by rw [hp2]; exact hpm⟩
        · refine ⟨by omega, ⟨v, parent, []⟩, ?_, ?_⟩
          · rw [show ((t.length : Int)).toNat = t.length by simp, hget, if_pos rfl]
          · simp; omega
  · intro hu n hn
    obtain ⟨i, hi⟩ := List.getElem?_of_mem hn
    rw [hget] at hi
    split at hi
    · cases hi; simp
    · split at hi
      · rw [Option.map_eq_some_iff] at hi
        obtain ⟨n0, hn0, rfl⟩ := hi
        exact addChildIndex_nodup (hu n0 (List.mem_of_getElem? hn0))
      · exact hu n (List.mem_of_getElem? hi)

/-- C36. Adding a root keeps the linkage valid. -/
theorem C36_add_root (t : Tree V) (v : V) (hl : Linked t) :
    Linked (addNode t v).1 ∧ (ChildrenOnce t → ChildrenOnce (addNode t v).1) ∧ (addNode t v).2 = (t.length : Int) ∧
    (addNode t v).1 = t ++ [⟨v, -1, []⟩] := by
  refine ⟨?_, ?_, by simp [addNode], rfl⟩
  · intro i n hn
    have lift : ∀ (j : Nat) (m : Node V), t[j]? = some m → (addNode t v).1[j]? = some m := by
      intro j m hm
      show (t ++ [_])[j]? = _
      rw [List.getElem?_append_left (lt_of_get hm)]; exact hm
    rcases Nat.lt_or_ge i t.length with h | h
    · have hq : t[i]? = some n := by
        have : (t ++ [(⟨v, -1, []⟩ : Node V)])[i]? = some n := hn
        rwa [List.getElem?_append_left h] at this
      obtain ⟨l1, l2, l3⟩ := hl i n hq
      refine ⟨l1, fun h => ?_, fun c hc => ?_⟩
      · obtain ⟨p, hp, hm⟩ := l2 h
        exact ⟨p, lift _ _ hp, hm⟩
      · obtain ⟨h1, m, hm, hp⟩ := l3 c hc
        exact ⟨h1, m, lift _ _ hm, hp⟩
    · have hn' : (t ++ [(⟨v, -1, []⟩ : Node V)])[i]? = some n := hn
      have hi := lt_of_get hn'
      simp at hi
      have : i = t.length := by omega
      subst this
      rw [List.getElem?_append_right (Nat.le_refl _)] at hn'
      simp at hn'
      subst hn'
      refine ⟨by simp; omega, by simp, by simp⟩
  · intro hu n hn
    rcases List.mem_append.1 hn with h | h
    · exact hu n h
    · simp at h; subst h; simp

/-- Calls that build a tree. -/
inductive GrowOp (V : Type) where
  | root (v : V)
  | below (v : V) (parent : Int)

/-- Effect of one call; the parent has to exist. -/
def grow (t : Tree V) : GrowOp V → Option (Tree V)
  | .root v => some (addNode t v).1
  | .below v p => if 0 ≤ p ∧ p < (t.length : Int) then some (addNodeAndConnect t v p).1 else none

/-- C36. Any history of insertions below existing nodes, starting from the empty tree or any tree with valid linkage,
leaves valid linkage with every child listed exactly once. -/
theorem C36_history_partial (ops : List (GrowOp V)) (t t' : Tree V) (hl : Linked t) (hu : ChildrenOnce t)
    (h : ops.foldlM grow t = some t') : Linked t' ∧ ChildrenOnce t' ∧ t'.length = t.length + ops.length := by
  induction ops generalizing t with
  | nil => simp at h; subst h; exact ⟨hl, hu, rfl⟩
  | cons op ops ih =>
    rw [List.foldlM_cons] at h
    cases op with
    | root v =>
      obtain ⟨a, b, -, d⟩ := C36_add_root t v hl
      obtain ⟨r1, r2, r3⟩ := ih _ a (b hu) h
      refine ⟨r1, r2, ?_⟩
      rw [r3, d]; simp; omega
    | below v p =>
      by_cases hp : 0 ≤ p ∧ p < (t.length : Int)
      · have : grow t (.below v p) = some (addNodeAndConnect t v p).1 := by simp [grow, hp]
        rw [this] at h
        obtain ⟨a, b, -, d, -⟩ := C36_connect_partial t v p hp.1 hp.2 hl
        obtain ⟨r1, r2, r3⟩ := ih _ a (b hu) h
        refine ⟨r1, r2, ?_⟩
        rw [r3, d]; simp; omega
      · simp [grow, hp] at h

example : ∃ t', [GrowOp.root 0, .below 1 0, .below 2 1, .below 3 0].foldlM grow ([] : Tree Nat) = some t' ∧
    t' = [⟨0, -1, [1, 3]⟩, ⟨1, 0, [2]⟩, ⟨2, 1, []⟩, ⟨3, 0, []⟩] := ⟨_, rfl, by decide⟩

/-- C36 fails as stated: a node below a non-existent parent is not refused. With the parent equal to the current size the
call returns normally and the node becomes its own parent; with a larger one it throws but a dangling node stays behind;
with a negative one it throws but a new root stays behind. -/
theorem C36_false :
    (addNodeAndConnect [⟨(7 : Nat), -1, []⟩] 8 1 = ([⟨7, -1, []⟩, ⟨8, 1, [1]⟩], .ok 1) ∧
      ¬ Linked (addNodeAndConnect [⟨(7 : Nat), -1, []⟩] 8 1).1) ∧
    (addNodeAndConnect [⟨(7 : Nat), -1, []⟩] 8 5 = ([⟨7, -1, []⟩, ⟨8, 5, []⟩], .throw .outOfRange) ∧
      ¬ Linked (addNodeAndConnect [⟨(7 : Nat), -1, []⟩] 8 5).1) ∧
    addNodeAndConnect [⟨(7 : Nat), -1, []⟩] 8 (-1) = ([⟨7, -1, []⟩, ⟨8, -1, []⟩], .throw .outOfRange) := by
  refine ⟨⟨by decide, fun h => ?_⟩, ⟨by decide, fun h => ?_⟩, by decide⟩
  · have := (h 1 ⟨8, 1, [1]⟩ (by decide)).1
    simp at this
  · have := (h 1 ⟨8, 5, []⟩ (by decide)).1
    simp at this

/-- C36. What `AddNodeAndConnect` does with a parent outside the tree, in general. -/
theorem C36_bad_parent (t : Tree V) (v : V) (parent : Int) (h : parent < 0 ∨ (t.length : Int) < parent) :
    addNodeAndConnect t v parent = (t ++ [⟨v, parent, []⟩], .throw .outOfRange) := by
  unfold addNodeAndConnect
  dsimp only
  rw [getNode_throw (by simp; omega)]

/-- C36. Removing a child drops exactly that index from the list. -/
theorem C36_child_lists (n : Node V) (c x : Int) :
    (x ∈ (addChildIndex n c).children ↔ x ∈ n.children ∨ x = c) ∧
    (n.children.Nodup → (addChildIndex n c).children.Nodup) ∧
    (x ∈ (removeChildIndex n c).children ↔ x ∈ n.children ∧ x ≠ c) :=
  ⟨mem_addChildIndex, addChildIndex_nodup, by simp [removeChildIndex]⟩

/-! ### Extraction -/

theorem extractLoop_linked {t : Tree V} (hl : Linked t) (j : Nat) : ∀ (parent : Int) (acc : List V) (fuel : Nat),
    parent < (j : Int) → j ≤ t.length → j < fuel →
    ∃ idxs vs, extractLoop t fuel parent acc = some (.ok (acc ++ vs.reverse)) ∧
      ValuesAt t idxs vs ∧ ((parent < 0 ∧ idxs = []) ∨ (0 ≤ parent ∧ RootChain t idxs parent.toNat)) := by
  induction j with
  | zero =>
    intro parent acc fuel h1 _ h3
    obtain ⟨f, rfl⟩ : ∃ f, fuel = f + 1 := ⟨fuel - 1, by omega⟩
    refine ⟨[], [], ?_, by simp [ValuesAt], Or.inl ⟨by omega, rfl⟩⟩
    unfold extractLoop
    rw [if_neg (by omega)]; simp
  | succ j ih =>
    intro parent acc fuel h1 h2 h3
    obtain ⟨f, rfl⟩ : ∃ f, fuel = f + 1 := ⟨fuel - 1, by omega⟩
    by_cases h0 : 0 ≤ parent
    · obtain ⟨p, hp, hp'⟩ := getNode_in (t := t) h0 (by omega)
      have hlt := (hl _ p hp').1
      obtain ⟨idxs, vs, he, hv, hc⟩ := ih p.parent (acc ++ [p.value]) f (by omega) (by omega) (by omega)
      refine ⟨idxs ++ [parent.toNat], vs ++ [p.value], ?_, ?_, Or.inr ⟨h0, ?_⟩⟩
      · unfold extractLoop
        rw [if_pos (by omega), hp]
        dsimp only
        rw [he]; simp
      · simp [ValuesAt, hp'] at hv ⊢; exact hv
      · rcases hc with ⟨hneg, rfl⟩ | ⟨hge, hch⟩
        · exact .root hp' hneg
        · exact .step hch hp' (by omega)
    · refine ⟨[], [], ?_, by simp [ValuesAt], Or.inl ⟨by omega, rfl⟩⟩
      unfold extractLoop
      rw [if_neg (by omega)]; simp

/-- C37. On a tree with valid linkage, extraction from any node terminates normally, and the path consists of the states
along the parent links from a root to that node. -/
theorem C37_extraction (t : Tree V) (hl : Linked t) (goal : Nat) (hg : goal < t.length) (fuel : Nat)
    (hf : t.length < fuel) :
    ∃ idxs vs, extractSolutionPath fuel t goal = some (.ok vs) ∧ RootChain t idxs goal ∧ ValuesAt t idxs vs := by
  obtain ⟨g, hgn, hg'⟩ := getNode_in (t := t) (i := (goal : Int)) (by omega) (by omega)
  have hg'' : t[goal]? = some g := by simpa using hg'
  have hlt := (hl goal g hg'').1
  obtain ⟨idxs, vs, he, hv, hc⟩ := extractLoop_linked hl goal g.parent [g.value] fuel hlt (by omega) (by omega)
  refine ⟨idxs ++ [goal], vs ++ [g.value], ?_, ?_, ?_⟩
  · unfold extractSolutionPath
    rw [hgn]
    dsimp only
    rw [he]; simp
  · rcases hc with ⟨hneg, rfl⟩ | ⟨hge, hch⟩
    · exact .root hg'' hneg
    · exact .step hch hg'' (by omega)
  · simp [ValuesAt, hg''] at hv ⊢; exact hv

/-- C37. A goal index outside the tree is rejected. -/
theorem C37_bad_goal (t : Tree V) (goal : Int) (h : goal < 0 ∨ (t.length : Int) ≤ goal) (fuel : Nat) :
    extractSolutionPath fuel t goal = some (.throw .outOfRange) := by
  unfold extractSolutionPath; rw [getNode_throw h]

/-- The chain from a root to a node is unique, so C37 determines the path. -/
theorem RootChain.unique {t : Tree V} {a b : List Nat} {i : Nat} (h1 : RootChain t a i) (h2 : RootChain t b i) : a = b := by
  induction h1 generalizing b with
  | root hr hn =>
    cases h2 with
    | root _ _ => rfl
    | step _ hn' hp => rw [hr] at hn'; cases hn'; omega
  | step h hn hp ih =>
    cases h2 with
    | root hr hneg => rw [hn] at hr; cases hr; omega
    | step h' hn' hp' =>
      rw [hn] at hn'; cases hn'
      rename_i q
      rw [hp] at hp'
      simp at hp'
      subst hp'
      rw [ih h']

/-- C37. The linkage hypothesis is needed: on the self-linked node that `AddNodeAndConnect` can create (`C36_false`),
extraction never finishes. -/
theorem C37_self_link_loops (fuel : Nat) :
    extractSolutionPath fuel (addNodeAndConnect [⟨(7 : Nat), -1, []⟩] 8 1).1 1 = none := by
  have h0 : (addNodeAndConnect [⟨(7 : Nat), -1, []⟩] 8 1).1 = [⟨7, -1, []⟩, ⟨8, 1, [1]⟩] := by decide
  rw [h0]
  have loop : ∀ (f : Nat) (acc : List Nat), extractLoop [⟨7, -1, []⟩, ⟨8, 1, [1]⟩] f 1 acc = none := by
    intro f
    induction f with
    | zero => intro acc; rfl
    | succ f ih => intro acc; exact ih _
  unfold extractSolutionPath
  rw [show getNode ([⟨7, -1, []⟩, ⟨8, 1, [1]⟩] : Tree Nat) 1 = .ok ⟨8, 1, [1]⟩ from by decide]
  dsimp only
  rw [loop]

example : Linked ([⟨0, -1, [1, 3]⟩, ⟨1, 0, [2]⟩, ⟨2, 1, []⟩, ⟨3, 0, []⟩] : Tree Nat) ∧
    extractSolutionPath 5 ([⟨0, -1, [1, 3]⟩, ⟨1, 0, [2]⟩, ⟨2, 1, []⟩, ⟨3, 0, []⟩] : Tree Nat) 2 = some (.ok [0, 1, 2]) := by
  refine ⟨?_, by decide⟩
  obtain ⟨b, hb, hP⟩ := C36_check ([⟨0, -1, [1, 3]⟩, ⟨1, 0, [2]⟩, ⟨2, 1, []⟩, ⟨3, 0, []⟩] : Tree Nat)
  have : checkNodeLinkage ([⟨0, -1, [1, 3]⟩, ⟨1, 0, [2]⟩, ⟨2, 1, []⟩, ⟨3, 0, []⟩] : Tree Nat) = .ok true := by decide
  rw [this] at hb; cases hb
  exact hP.1 rfl

end CRU.Rrt
