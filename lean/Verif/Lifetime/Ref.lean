import Verif.Base
import Mathlib.Tactic.SplitIfs
/-
  C94: `ReferencingMaybe` (maybe.hpp). Objects of the program and maybes that point to them; an object can be destroyed while a maybe
  still points to it.
-/
namespace CRU.Life.Ref

variable {V : Type}

/-! ### Model -/

/-- The objects of the program (`none`: destroyed) and the maybes: the pointer each holds, `none` is `nullptr`. (maybe.hpp:206) -/
structure World (V : Type) where
  objects : List (Option V)
  maybes : List (Option Nat)

/-- Something a program does. Copy and move construction have the same effect, and so have copy and move assignment. (maybe.hpp:209-219) -/
inductive Op (V : Type) where
  | newObject (v : V)
  | writeObject (o : Nat) (v : V)
  | destroyObject (o : Nat)
  | mkEmpty
  | mkRef (o : Nat)
  | construct (src : Nat)
  | assign (dst src : Nat)
  | reset (i : Nat)
  | setValue (i : Nat) (v : V)

/-- The maybe's pointer; naming a maybe that does not exist is outside the language. (maybe.hpp:206) -/
def World.ptr (w : World V) (i : Nat) : Res (Option Nat) :=
  match w.maybes[i]? with
  | some p => .ok p
  | none => .ub

/-- The object at an address: undefined if there is none any more. (the pointer dereferenced at maybe.hpp:227, 239) -/
def World.deref (w : World V) (o : Nat) : Res V :=
  match w.objects[o]? with
  | some (some v) => .ok v
  | _ => .ub

/-- maybe.hpp:247 `HasValue`, 249 `operator bool`. -/
def hasValue (w : World V) (i : Nat) : Res Bool := do
  let p ← w.ptr i
  .ok p.isSome

/-- maybe.hpp:223-245 `Value`, reading through the reference. -/
def value (w : World V) (i : Nat) : Res V := do
  match ← w.ptr i with
  | some o => w.deref o
  | none => .throw .runtimeError

/-- One operation; an exception leaves the world as it was (the second component says that one was thrown). (maybe.hpp:209-245) -/
def Op.run (w : World V) : Op V → Res (World V × Bool)
  | .newObject v => .ok ({ w with objects := w.objects ++ [some v] }, false)
  | .writeObject o v => do
      let _ ← w.deref o
      .ok ({ w with objects := w.objects.set o (some v) }, false)
  | .destroyObject o => do
      let _ ← w.deref o
      .ok ({ w with objects := w.objects.set o none }, false)
  -- 209
  | .mkEmpty => .ok ({ w with maybes := w.maybes ++ [none] }, false)
  -- 211, the argument is a reference to an object
  | .mkRef o => do
      let _ ← w.deref o
      .ok ({ w with maybes := w.maybes ++ [some o] }, false)
  -- 213-215
  | .construct src => do
      let p ← w.ptr src
      .ok ({ w with maybes := w.maybes ++ [p] }, false)
  -- 217-219
  | .assign dst src => do
      let _ ← w.ptr dst
      let p ← w.ptr src
      .ok ({ w with maybes := w.maybes.set dst p }, false)
  -- 221
  | .reset i => do
      let _ ← w.ptr i
      .ok ({ w with maybes := w.maybes.set i none }, false)
  -- 235-245, assignment through the reference returned
  | .setValue i v => do
      match ← w.ptr i with
      | some o => do
          let _ ← w.deref o
          .ok ({ w with objects := w.objects.set o (some v) }, false)
      | none => .ok (w, true)

/-- A program: operations in order, continuing after exceptions. (maybe.hpp:209-245) -/
def runOps (w : World V) : List (Op V) → Res (World V)
  | [] => .ok w
  | o :: os => do
      let r ← o.run w
      runOps r.1 os

/-! ### Specification -/

/-- Every maybe points nowhere or to an object that is alive. -/
def World.Sound (w : World V) : Prop := ∀ i o : Nat, w.maybes[i]? = some (some o) → ∃ v, w.objects[o]? = some (some v)

/-- The operation names only things that exist, and destroys no object that a maybe refers to. -/
def Op.Proper (w : World V) : Op V → Prop
  | .newObject _ | .mkEmpty => True
  | .writeObject o _ | .mkRef o => ∃ v, w.objects[o]? = some (some v)
  | .destroyObject o => (∃ v, w.objects[o]? = some (some v)) ∧ ∀ i : Nat, w.maybes[i]? ≠ some (some o)
  | .construct i | .reset i | .setValue i _ => i < w.maybes.length
  | .assign i j => i < w.maybes.length ∧ j < w.maybes.length

/-- A program all of whose operations are proper where they are executed. -/
inductive ProperProgram : World V → List (Op V) → Prop where
  | nil (w) : ProperProgram w []
  | cons {w : World V} {o os} (h : o.Proper w) (rest : ∀ w' t, o.run w = .ok (w', t) → ProperProgram w' os) : ProperProgram w (o :: os)

/-! ### Proofs -/

theorem ptr_ok {w : World V} {i : Nat} (h : i < w.maybes.length) : w.ptr i = .ok w.maybes[i] := by
  simp [World.ptr, h]

theorem deref_ok {w : World V} {o : Nat} {v : V} (h : w.objects[o]? = some (some v)) : w.deref o = .ok v := by
  simp [World.deref, h]

theorem step {w : World V} (hs : w.Sound) (o : Op V) (h : o.Proper w) : ∃ w' t, o.run w = .ok (w', t) ∧ w'.Sound := by
  have hset : ∀ (k : Nat) (v : V), World.Sound { w with objects := w.objects.set k (some v) } := by
    intro k v i o h
    obtain ⟨v', hv'⟩ := hs i o h
    by_cases e : k = o
    · subst e
      refine ⟨v, ?_⟩
      have := (List.getElem?_eq_some_iff.mp hv').1
      simp [this]
    · exact ⟨v', by simpa [List.getElem?_set, e] using hv'⟩
  have happ : ∀ p : Option Nat, (∀ o, p = some o → ∃ v, w.objects[o]? = some (some v)) → World.Sound { w with maybes := w.maybes ++ [p] } := by
    intro p hp i o h
    rw [List.getElem?_append] at h
    split_ifs at h with hi
    · exact hs i o h
    · have := List.mem_of_getElem? h
      exact hp o (List.mem_singleton.mp this).symm
  have hput : ∀ (k : Nat) (p : Option Nat), (∀ o, p = some o → ∃ v, w.objects[o]? = some (some v)) →
      World.Sound { w with maybes := w.maybes.set k p } := by
    intro k p hp i o h
    simp only [List.getElem?_set] at h
    split_ifs at h with h1 h2
    · exact hp o (by simpa using h)
    · exact hs i o h
  cases o with
  | newObject v =>
    refine ⟨_, _, rfl, fun i o h => ?_⟩
    obtain ⟨v', hv'⟩ := hs i o h
    exact ⟨v', by rw [List.getElem?_append_left (List.getElem?_eq_some_iff.mp hv').1]; exact hv'⟩
  | writeObject o v =>
    obtain ⟨v', hv'⟩ := h
    exact ⟨_, false, by simp only [Op.run, deref_ok hv', Res.ok_bind], hset o v⟩
  | destroyObject o =>
    obtain ⟨⟨v', hv'⟩, hn⟩ := h
    refine ⟨_, false, by simp only [Op.run, deref_ok hv', Res.ok_bind]; rfl, fun i k h => ?_⟩
    obtain ⟨x, hx⟩ := hs i k h
    have e : o ≠ k := fun e => hn i (e ▸ h)
    exact ⟨x, by simpa [List.getElem?_set, e] using hx⟩
  | mkEmpty => exact ⟨_, _, rfl, happ none (by simp)⟩
  | mkRef o =>
    obtain ⟨v', hv'⟩ := h
    exact ⟨_, false, by simp only [Op.run, deref_ok hv', Res.ok_bind], happ (some o) (fun o' e => by cases e; exact ⟨v', hv'⟩)⟩
  | construct i =>
    have h : i < w.maybes.length := h
    exact ⟨_, false, by simp only [Op.run, ptr_ok h, Res.ok_bind], happ w.maybes[i] (fun o e => hs i o (by rw [List.getElem?_eq_getElem h, e]))⟩
  | assign i j =>
    have h : i < w.maybes.length ∧ j < w.maybes.length := h
    have h2 := h.2
    exact ⟨_, false, by simp only [Op.run, ptr_ok h.1, ptr_ok h.2, Res.ok_bind],
      hput i w.maybes[j] (fun o e => hs j o (by rw [List.getElem?_eq_getElem h.2, e]))⟩
  | reset i =>
    have h : i < w.maybes.length := h
    exact ⟨_, false, by simp only [Op.run, ptr_ok h, Res.ok_bind], hput i none (by simp)⟩
  | setValue i v =>
    have h : i < w.maybes.length := h
    cases hp : w.maybes[i] with
    | none => exact ⟨w, true, by simp only [Op.run, ptr_ok h, Res.ok_bind, hp], hs⟩
    | some o =>
      obtain ⟨v', hv'⟩ := hs i o (by rw [List.getElem?_eq_getElem h, hp])
      exact ⟨_, false, by simp only [Op.run, ptr_ok h, Res.ok_bind, hp, deref_ok hv'], hset o v⟩

/-- **C94** (no dangling access): in every program in which the objects outlive the maybes that refer to them, nothing undefined
happens, however the maybes are copied, assigned and reset, and at the end every maybe either throws `std::runtime_error`, exactly if
it is empty, or gives the present value of the object it refers to. -/
theorem C94_safe {w : World V} (hs : w.Sound) {ops : List (Op V)} (h : ProperProgram w ops) :
    ∃ w', runOps w ops = .ok w' ∧ w'.Sound ∧ ∀ i, i < w'.maybes.length →
      (w'.maybes[i]? = some none ∧ hasValue w' i = .ok false ∧ value w' i = .throw .runtimeError) ∨
      ∃ o v, w'.maybes[i]? = some (some o) ∧ w'.objects[o]? = some (some v) ∧ hasValue w' i = .ok true ∧ value w' i = .ok v := by
  induction h with
  | nil w =>
    refine ⟨w, rfl, hs, fun i hi => ?_⟩
    cases hp : w.maybes[i] with
    | none => exact .inl ⟨by rw [List.getElem?_eq_getElem hi, hp], by simp [hasValue, ptr_ok hi, hp], by simp [value, ptr_ok hi, hp]⟩
    | some o =>
      obtain ⟨v, hv⟩ := hs i o (by rw [List.getElem?_eq_getElem hi, hp])
      exact .inr ⟨o, v, by rw [List.getElem?_eq_getElem hi, hp], hv, by simp [hasValue, ptr_ok hi, hp], by simp [value, ptr_ok hi, hp, deref_ok hv]⟩
  | @cons w o os h rest ih =>
    obtain ⟨w', t, e, hs'⟩ := step hs o h
    obtain ⟨w'', e', r⟩ := ih w' t e hs'
    exact ⟨w'', by simp only [runOps, e, Res.ok_bind, e'], r⟩

/-- **C94** (references, not copies): a maybe made from another or assigned from it refers to the same object, so that what is written
through one is read through the other and from the object, and no operation on maybes other than writing through one changes an object. -/
theorem C94_alias {w w' w'' : World V} {i j : Nat} {v : V} {t t' : Bool} (hi : i < w.maybes.length) (hj : j < w.maybes.length)
    (h : (Op.assign i j : Op V).run w = .ok (w', t)) :
    t = false ∧ w'.objects = w.objects ∧ w'.maybes[i]? = w.maybes[j]? ∧ (∀ k, k ≠ i → w'.maybes[k]? = w.maybes[k]?) ∧
    ((Op.setValue i v).run w' = .ok (w'', t') →
      (∀ o, w.maybes[j]? = some (some o) → t' = false ∧ value w'' i = .ok v ∧ value w'' j = .ok v ∧ w''.objects[o]? = some (some v) ∧
        ∀ o', o' ≠ o → w''.objects[o']? = w.objects[o']?) ∧
      (w.maybes[j]? = some none → t' = true ∧ w'' = w')) := by
  simp only [Op.run, ptr_ok hi, ptr_ok hj, Res.ok_bind, Res.ok.injEq, Prod.mk.injEq] at h
  obtain ⟨rfl, rfl⟩ := h
  refine ⟨rfl, rfl, by simp [hi, hj], fun k hk => by simp [List.getElem?_set, Ne.symm hk], fun h => ?_⟩
  have hlen : i < (w.maybes.set i w.maybes[j]).length := by simpa using hi
  simp only [Op.run, ptr_ok (w := { objects := w.objects, maybes := w.maybes.set i w.maybes[j] }) hlen, Res.ok_bind, List.getElem_set_self] at h
  refine ⟨fun o ho => ?_, fun ho => ?_⟩
  · have hp : w.maybes[j] = some o := by simpa [List.getElem?_eq_getElem hj] using ho
    rw [hp] at h
    cases hd : w.objects[o]? with
    | none => simp [World.deref, hd] at h
    | some x =>
      cases x with
      | none => simp [World.deref, hd] at h
      | some y =>
        simp only [World.deref, hd, Res.ok_bind, Res.ok.injEq, Prod.mk.injEq] at h
        obtain ⟨rfl, rfl⟩ := h
        have ho := (List.getElem?_eq_some_iff.mp hd).1
        have hm : (w.maybes.set i (some o))[j]? = some (some o) := by
          by_cases e : i = j
          · subst e; simp [hi]
          · rw [List.getElem?_set, if_neg e, List.getElem?_eq_getElem hj, hp]
        refine ⟨rfl, ?_, ?_, by simp [ho], fun o' h' => by simp [List.getElem?_set, Ne.symm h']⟩
        · simp [value, World.ptr, hi, World.deref, ho]
        · simp [value, World.ptr, hm, World.deref, ho]
  · have hp : w.maybes[j] = none := by simpa [List.getElem?_eq_getElem hj] using ho
    rw [hp] at h
    simp only [Res.ok.injEq, Prod.mk.injEq] at h
    exact ⟨h.2.symm, by rw [← h.1, hp]⟩

/-- **C94** (the operations one by one): what each constructor, assignment and `Reset` leave in the maybes, and that they leave the
objects alone. -/
theorem C94_operations {w w' : World V} {t : Bool} :
    ((Op.mkEmpty : Op V).run w = .ok (w', t) → w'.objects = w.objects ∧ w'.maybes = w.maybes ++ [none]) ∧
    (∀ o, (Op.mkRef o : Op V).run w = .ok (w', t) → w'.objects = w.objects ∧ w'.maybes = w.maybes ++ [some o]) ∧
    (∀ i, (Op.construct i : Op V).run w = .ok (w', t) → w'.objects = w.objects ∧ ∃ p, w.maybes[i]? = some p ∧ w'.maybes = w.maybes ++ [p]) ∧
    (∀ i, (Op.reset i : Op V).run w = .ok (w', t) → w'.objects = w.objects ∧ value w' i = .throw .runtimeError ∧
      ∀ k, k ≠ i → w'.maybes[k]? = w.maybes[k]?) := by
  refine ⟨fun h => ?_, fun o h => ?_, fun i h => ?_, fun i h => ?_⟩
  · simp only [Op.run, Res.ok.injEq, Prod.mk.injEq] at h
    obtain ⟨rfl, -⟩ := h
    exact ⟨rfl, rfl⟩
  · simp only [Op.run, Res.bind_eq_ok, Res.ok.injEq, Prod.mk.injEq] at h
    obtain ⟨-, -, rfl, -⟩ := h
    exact ⟨rfl, rfl⟩
  · simp only [Op.run, Res.bind_eq_ok, Res.ok.injEq, Prod.mk.injEq] at h
    obtain ⟨p, hp, rfl, -⟩ := h
    refine ⟨rfl, p, ?_, rfl⟩
    unfold World.ptr at hp
    split at hp
    · rename_i e; cases hp; exact e
    · simp at hp
  · simp only [Op.run, Res.bind_eq_ok, Res.ok.injEq, Prod.mk.injEq] at h
    obtain ⟨p, hp, rfl, -⟩ := h
    unfold World.ptr at hp
    split at hp
    · rename_i p' e
      have hi := (List.getElem?_eq_some_iff.mp e).1
      exact ⟨rfl, by simp [value, World.ptr, hi], fun k hk => by simp [List.getElem?_set, Ne.symm hk]⟩
    · simp at hp

/-- **C94** (what does not hold): a maybe does not notice that its object is gone. It still says it has a value, and reading it is undefined. -/
theorem C94_dangling_false : ∃ (ops : List (Op Nat)) (w : World Nat), runOps ⟨[], []⟩ ops = .ok w ∧ hasValue w 0 = .ok true ∧ value w 0 = .ub :=
  ⟨[.newObject 5, .mkRef 0, .destroyObject 0], ⟨[none], [some 0]⟩, rfl, rfl, rfl⟩

/-- A proper program: two maybes refer to one object, one writes, the other is reset, then the object dies after both are gone from it. -/
example : (⟨[], []⟩ : World Nat).Sound ∧
    ProperProgram (⟨[], []⟩ : World Nat) [.newObject 5, .mkRef 0, .construct 0, .setValue 1 7, .reset 0, .reset 1, .destroyObject 0] ∧
    (do let w ← runOps (⟨[], []⟩ : World Nat) [.newObject 5, .mkRef 0, .construct 0, .setValue 1 7]; value w 0) = .ok 7 := by
  refine ⟨fun i o h => by simp at h, ?_, rfl⟩
  refine .cons trivial fun w' t h => ?_
  cases h
  refine .cons ⟨5, rfl⟩ fun w' t h => ?_
  cases h
  refine .cons (by decide : 0 < 1) fun w' t h => ?_
  cases h
  refine .cons (by decide : 1 < 2) fun w' t h => ?_
  cases h
  refine .cons (by decide : 0 < 2) fun w' t h => ?_
  cases h
  refine .cons (by decide : 1 < 2) fun w' t h => ?_
  cases h
  refine .cons ⟨⟨7, rfl⟩, fun i => ?_⟩ fun w' t h => .nil _
  match i with
  | 0 => exact fun h => by cases h
  | 1 => exact fun h => by cases h
  | i + 2 => exact fun h => by cases h

end CRU.Life.Ref
