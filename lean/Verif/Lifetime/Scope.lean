import Verif.Base
import Mathlib.Data.List.Nodup
import Mathlib.Data.List.Count
/-
  C48: `OnScopeExit` (utility.hpp:183-222), used as a local variable of arbitrarily nested scopes that are left normally or by an
  exception.
-/
open Classical

namespace CRU.Scope

/-! ### Model -/

/-- What an execution does, in order. `A` is the type of actions handed to guards. (utility.hpp:183-222) -/
inductive Event (A : Type) where
  /-- ordinary work -/
  | emitted (n : Nat)
  /-- guard `id` was constructed with action `a` -/
  | constructed (id : Nat) (a : A)
  /-- `Disable` was called on guard `id` -/
  | disabled (id : Nat)
  /-- `IsEnabled` was called on guard `id` and answered `b` -/
  | observed (id : Nat) (b : Bool)
  /-- the destructor of guard `id` was entered -/
  | destroyed (id : Nat)
  /-- the action `a` of guard `id` was called -/
  | ran (id : Nat) (a : A)
  deriving DecidableEq

/-- Programs. Guards in scope are named by nesting depth, innermost first. The action of `scope` is a `std::function`, `none`
when empty. (utility.hpp:183-222) -/
inductive Stmt (A : Type) where
  | skip
  | emit (n : Nat)
  | raise (e : Exc)
  | seq (s t : Stmt A)
  | repeatN (n : Nat) (s : Stmt A)
  | tryCatch (s h : Stmt A)
  | disable (depth : Nat)
  | isEnabled (depth : Nat)
  | scope (action : Option A) (body : Stmt A)

/-- How a statement ends. `terminated` is `std::terminate`: a destructor is `noexcept`, so an action that throws ends the
program. -/
inductive Out where
  | normal
  | raised (e : Exc)
  | terminated
  deriving DecidableEq

/-- The living guards, innermost first, each with the present value of its `on_scope_exit_` member (utility.hpp:221); the next
guard identity; what has happened. -/
structure State (A : Type) where
  stack : List (Nat × Option A)
  next : Nat
  trace : List (Event A)

variable {A : Type}

def State.log (st : State A) (e : Event A) : State A := { st with trace := st.trace ++ [e] }

/-- utility.hpp:197-204 constructor, with a non-empty action: the member is the action. -/
def State.enter (st : State A) (a : A) : State A :=
  { stack := (st.next, some a) :: st.stack, next := st.next + 1, trace := st.trace ++ [.constructed st.next a] }

/-- utility.hpp:217 `Disable`: the member becomes empty. A depth that names no guard is not a C++ program. -/
def State.disable (st : State A) (k : Nat) : State A :=
  match st.stack[k]? with
  | none => st
  | some g => { st with stack := st.stack.set k (g.1, none), trace := st.trace ++ [.disabled g.1] }

/-- utility.hpp:215 `IsEnabled`. -/
def State.isEnabled (st : State A) (k : Nat) : State A :=
  match st.stack[k]? with
  | none => st
  | some g => st.log (.observed g.1 g.2.isSome)

/-- utility.hpp:206-212 destructor of the innermost guard; the second component says that `std::terminate` was called because the
action threw. -/
def State.leave (throws : A → Bool) (st : State A) : State A × Bool :=
  match st.stack with
  | [] => (st, false)
  | g :: rest =>
    let st' : State A := { st with stack := rest, trace := st.trace ++ [.destroyed g.1] }
    match g.2 with
    | none => (st', false)
    | some a => (st'.log (.ran g.1 a), throws a)

/-- `n` runs of a statement, stopped by an exception. -/
def iterate (step : State A → Out × State A) : Nat → State A → Out × State A
  | 0, st => (.normal, st)
  | n + 1, st => match step st with
    | (.normal, st') => iterate step n st'
    | r => r

/-- Execution. `throws` says which actions throw. Scopes are left by the normal end of the body and by exceptions alike (C++
destroys local variables in both cases; the exception is caught somewhere, so that the stack is unwound). (utility.hpp:183-222) -/
def run (throws : A → Bool) : Stmt A → State A → Out × State A
  | .skip, st => (.normal, st)
  | .emit n, st => (.normal, st.log (.emitted n))
  | .raise e, st => (.raised e, st)
  | .seq s t, st => match run throws s st with
    | (.normal, st') => run throws t st'
    | r => r
  | .repeatN n s, st => iterate (run throws s) n st
  | .tryCatch s h, st => match run throws s st with
    | (.raised _, st') => run throws h st'
    | r => r
  | .disable k, st => (.normal, st.disable k)
  | .isEnabled k, st => (.normal, st.isEnabled k)
  | .scope none _, st => (.raised .invalidArgument, st)
  | .scope (some a) body, st => match run throws body (st.enter a) with
    | (.terminated, st') => (.terminated, st')
    | (o, st') =>
      let r := st'.leave throws
      (if r.2 then .terminated else o, r.1)

def start : State A := ⟨[], 0, []⟩

/-! ### Specification -/

/-- A history of properly nested guard lifetimes: between a guard's construction and its destruction everything is properly nested;
its action runs immediately after the destruction begins if `Disable` was not called on it in its lifetime, and nothing runs
otherwise; no action runs at any other point. -/
inductive Proper : List (Event A) → Prop
  | nil : Proper []
  | emitted (n) : Proper [.emitted n]
  | disabled (id) : Proper [.disabled id]
  | observed (id b) : Proper [.observed id b]
  | append {s t} : Proper s → Proper t → Proper (s ++ t)
  | enabled {id a t} : Proper t → .disabled id ∉ t → Proper (.constructed id a :: t ++ [.destroyed id, .ran id a])
  | notEnabled {id a t} : Proper t → .disabled id ∈ t → Proper (.constructed id a :: t ++ [.destroyed id])

/-- The guards constructed in a history, in order. -/
def born (t : List (Event A)) : List Nat := t.filterMap fun e => match e with
  | .constructed id _ => some id
  | _ => none

/-- Number of times the action of a guard was called. -/
def runs (id : Nat) (t : List (Event A)) : Nat := t.countP fun e => match e with
  | .ran i _ => i == id
  | _ => false

/-- Number of times a guard was destroyed. -/
def deaths (id : Nat) (t : List (Event A)) : Nat := t.countP fun e => match e with
  | .destroyed i => i == id
  | _ => false

/-! ### Proofs -/

@[simp] theorem born_nil : born ([] : List (Event A)) = [] := rfl
@[simp] theorem born_append (s t : List (Event A)) : born (s ++ t) = born s ++ born t := by
  simp [born, List.filterMap_append]
@[simp] theorem born_constructed (id a) (t : List (Event A)) : born (.constructed id a :: t) = id :: born t := by simp [born]
@[simp] theorem born_emitted (n) (t : List (Event A)) : born (.emitted n :: t) = born t := by simp [born]
@[simp] theorem born_disabled (n) (t : List (Event A)) : born (.disabled n :: t) = born t := by simp [born]
@[simp] theorem born_observed (n b) (t : List (Event A)) : born (.observed n b :: t) = born t := by simp [born]
@[simp] theorem born_destroyed (n) (t : List (Event A)) : born (.destroyed n :: t) = born t := by simp [born]
@[simp] theorem born_ran (n a) (t : List (Event A)) : born (.ran n a :: t) = born t := by simp [born]

theorem mem_born {id : Nat} {t : List (Event A)} : id ∈ born t ↔ ∃ a, Event.constructed id a ∈ t := by
  induction t with
  | nil => simp
  | cons e t ih =>
    cases e <;> simp_all
    constructor
    · rintro (h | ⟨a, h⟩)
      · exact ⟨_, Or.inl ⟨h, rfl⟩⟩
      · exact ⟨a, Or.inr h⟩
    · rintro ⟨a, h | h⟩
      · exact Or.inl h.1
      · exact Or.inr ⟨a, h⟩

/-- Guards and history agree. -/
structure Inv (st : State A) : Prop where
  nodup : (st.stack.map Prod.fst).Nodup
  old : ∀ g ∈ st.stack, g.1 < st.next
  flag : ∀ g ∈ st.stack, (g.2.isSome ↔ Event.disabled g.1 ∉ st.trace)
  dis : ∀ id, Event.disabled id ∈ st.trace → id < st.next
  obs : ∀ p q id b, st.trace = p ++ .observed id b :: q → (b = true ↔ Event.disabled id ∉ p)

@[simp] theorem runs_nil (id) : runs id ([] : List (Event A)) = 0 := rfl
@[simp] theorem runs_append (id) (s t : List (Event A)) : runs id (s ++ t) = runs id s + runs id t := by
  simp [runs, List.countP_append]
@[simp] theorem deaths_nil (id) : deaths id ([] : List (Event A)) = 0 := rfl
@[simp] theorem deaths_append (id) (s t : List (Event A)) : deaths id (s ++ t) = deaths id s + deaths id t := by
  simp [deaths, List.countP_append]

/-- Exactly the enabled guards born in a history have run, once; all have died once. -/
structure Once (t : List (Event A)) (id : Nat) : Prop where
  runs : runs id t = if id ∈ born t ∧ Event.disabled id ∉ t then 1 else 0
  deaths : deaths id t = if id ∈ born t then 1 else 0

/-- What a statement does to the state. -/
structure Step (st st' : State A) (o : Out) (t : List (Event A)) : Prop where
  inv : Inv st'
  trace : st'.trace = st.trace ++ t
  next : st.next ≤ st'.next
  born_nodup : (born t).Nodup
  born_range : ∀ id ∈ born t, st.next ≤ id ∧ id < st'.next
  dis : o ≠ .terminated → ∀ id, Event.disabled id ∈ t → id ∈ st.stack.map Prod.fst ∨ id ∈ born t
  proper : o ≠ .terminated → Proper t
  once : o ≠ .terminated → ∀ id, Once t id
  names : o ≠ .terminated → st'.stack.map Prod.fst = st.stack.map Prod.fst
  acts : o ≠ .terminated → ∀ g ∈ st'.stack, ∀ a, g.2 = some a → (g.1, some a) ∈ st.stack

theorem obs_append {s t : List (Event A)} (hs : ∀ p q id b, s = p ++ .observed id b :: q → (b = true ↔ Event.disabled id ∉ p))
    (ht : ∀ id b, Event.observed id b ∉ t) :
    ∀ p q id b, s ++ t = p ++ .observed id b :: q → (b = true ↔ Event.disabled id ∉ p) := by
  intro p q id b h
  rcases List.append_eq_append_iff.mp h with ⟨u, hu, hv⟩ | ⟨u, hu, hv⟩
  · exact absurd (by rw [hv]; simp) (ht id b)
  · cases u with
    | nil =>
      simp only [List.nil_append] at hv
      exact absurd (by rw [← hv]; simp) (ht id b)
    | cons e u =>
      simp only [List.cons_append, List.cons.injEq] at hv
      exact hs p u id b (by rw [hu, hv.1])

theorem Step.refl {st : State A} (h : Inv st) (o : Out) : Step st st o [] where
  inv := h
  trace := by simp
  next := Nat.le_refl _
  born_nodup := by simp
  born_range := by simp
  dis := by simp
  proper _ := .nil
  once _ id := ⟨by simp, by simp⟩
  names _ := rfl
  acts _ g hg a ha := by rw [← ha]; exact hg

theorem Step.trans {st st' st'' : State A} {o o' : Out} {t t' : List (Event A)} (ho : o ≠ .terminated)
    (hi : Inv st) (h : Step st st' o t) (h' : Step st' st'' o' t') : Step st st'' o' (t ++ t') where
  inv := h'.inv
  trace := by rw [h'.trace, h.trace, List.append_assoc]
  next := Nat.le_trans h.next h'.next
  born_nodup := by
    rw [born_append]
    refine List.nodup_append.mpr ⟨h.born_nodup, h'.born_nodup, ?_⟩
    intro a ha b hb hab
    have h1 := h.born_range a ha
    have h2 := h'.born_range b hb
    omega
  born_range id hid := by
    rw [born_append, List.mem_append] at hid
    have h1 := h.next
    have h2 := h'.next
    rcases hid with hid | hid
    · have := h.born_range id hid; omega
    · have := h'.born_range id hid; omega
  dis h'o id hid := by
    rw [List.mem_append] at hid
    rw [born_append, List.mem_append]
    rcases hid with hid | hid
    · rcases h.dis ho id hid with h1 | h1
      · exact Or.inl h1
      · exact Or.inr (Or.inl h1)
    · rcases h'.dis h'o id hid with h1 | h1
      · rw [h.names ho] at h1
        exact Or.inl h1
      · exact Or.inr (Or.inr h1)
  proper h'o := .append (h.proper ho) (h'.proper h'o)
  once h'o id := by
    have ha := h.once ho id
    have hb := h'.once h'o id
    have hx : id ∈ born t → id ∉ born t' := fun h1 h2 => by
      have h3 := h.born_range id h1
      have h4 := h'.born_range id h2
      omega
    have hy : id ∈ born t → Event.disabled id ∉ t' := fun h1 h2 => by
      rcases h'.dis h'o id h2 with h3 | h3
      · rw [h.names ho] at h3
        obtain ⟨g, hg, rfl⟩ := List.mem_map.mp h3
        have := hi.old g hg
        have := h.born_range _ h1
        omega
      · exact hx h1 h3
    have hz : id ∈ born t' → Event.disabled id ∉ t := fun h1 h2 => by
      have h3 := h.inv.dis id (by rw [h.trace]; simp [h2])
      have := h'.born_range _ h1
      omega
    constructor
    · rw [runs_append, ha.runs, hb.runs, born_append]
      by_cases h1 : id ∈ born t <;> by_cases h2 : id ∈ born t' <;> simp_all
    · rw [deaths_append, ha.deaths, hb.deaths, born_append]
      by_cases h1 : id ∈ born t <;> by_cases h2 : id ∈ born t' <;> simp_all
  names h'o := by rw [h'.names h'o, h.names ho]
  acts h'o g hg a ha := h.acts ho _ (h'.acts h'o g hg a ha) a rfl

theorem Inv.log {st : State A} (h : Inv st) {e : Event A} (hd : ∀ id, e ≠ .disabled id)
    (ho : ∀ id b, e = .observed id b → (b = true ↔ Event.disabled id ∉ st.trace)) : Inv (st.log e) where
  nodup := h.nodup
  old := h.old
  flag g hg := by
    rw [h.flag g hg]
    have := hd g.1
    simp only [State.log, List.mem_append, List.mem_singleton, not_or]
    exact ⟨fun hh => ⟨hh, fun h' => this h'.symm⟩, And.left⟩
  dis id hid := by
    simp only [State.log, List.mem_append, List.mem_singleton] at hid
    rcases hid with hid | hid
    · exact h.dis id hid
    · exact absurd hid.symm (hd id)
  obs p q id b heq := by
    rcases List.append_eq_append_iff.mp (show st.trace ++ [e] = p ++ .observed id b :: q from heq) with ⟨u, hu, hv⟩ | ⟨u, hu, hv⟩
    · cases u with
      | nil =>
        simp only [List.nil_append, List.cons.injEq] at hv
        rw [hu, List.append_nil]
        exact ho id b hv.1
      | cons x u => simp at hv
    · cases u with
      | nil =>
        simp only [List.nil_append, List.cons.injEq] at hv
        rw [List.append_nil] at hu
        rw [← hu]
        exact ho id b hv.1.symm
      | cons x u =>
        simp only [List.cons_append, List.cons.injEq] at hv
        exact h.obs p u id b (by rw [hu, hv.1])

theorem step_emit {st : State A} (h : Inv st) (n : Nat) : Step st (st.log (.emitted n)) .normal [.emitted n] where
  inv := h.log (by simp) (by simp)
  trace := rfl
  next := Nat.le_refl _
  born_nodup := by simp
  born_range := by simp
  dis := by simp
  proper _ := .emitted n
  once _ id := ⟨by simp [runs], by simp [deaths]⟩
  names _ := rfl
  acts _ g hg a ha := by rw [← ha]; exact hg

theorem step_isEnabled {st : State A} (h : Inv st) (k : Nat) : ∃ t, Step st (st.isEnabled k) .normal t := by
  unfold State.isEnabled
  cases hk : st.stack[k]? with
  | none => exact ⟨[], Step.refl h _⟩
  | some g =>
    have hg : g ∈ st.stack := List.mem_of_getElem? hk
    refine ⟨[.observed g.1 g.2.isSome], ?_⟩
    exact {
      inv := h.log (by simp) (by
        intro id b hb
        simp only [Event.observed.injEq] at hb
        rw [← hb.1, ← hb.2]
        exact h.flag g hg)
      trace := rfl
      next := Nat.le_refl _
      born_nodup := by simp
      born_range := by simp
      dis := by simp
      proper := fun _ => .observed _ _
      once := fun _ id => ⟨by simp [runs], by simp [deaths]⟩
      names := fun _ => rfl
      acts := fun _ g hg a ha => by rw [← ha]; exact hg }

theorem step_disable {st : State A} (h : Inv st) (k : Nat) : ∃ t, Step st (st.disable k) .normal t := by
  unfold State.disable
  cases hk : st.stack[k]? with
  | none => exact ⟨[], Step.refl h _⟩
  | some g =>
    have hg : g ∈ st.stack := List.mem_of_getElem? hk
    obtain ⟨hlt, hge⟩ := List.getElem?_eq_some_iff.mp hk
    have hnames : (st.stack.set k (g.1, none)).map Prod.fst = st.stack.map Prod.fst := by
      rw [List.map_set]
      apply List.ext_getElem?
      intro i
      rw [List.getElem?_set]
      split
      · next hi =>
        subst hi
        simp [hlt, hge]
      · rfl
    have hmem : ∀ x ∈ st.stack.set k (g.1, none), x = (g.1, none) ∨ (x ∈ st.stack ∧ x.1 ≠ g.1) := by
      intro x hx
      obtain ⟨i, hi⟩ := List.mem_iff_getElem?.mp hx
      rw [List.getElem?_set] at hi
      split at hi
      · next he =>
        subst he
        left
        simp only [hlt, if_true, Option.some.injEq] at hi
        exact hi.symm
      · next hne =>
        right
        refine ⟨List.mem_of_getElem? hi, fun heq => hne ?_⟩
        have hik : i < st.stack.length := (List.getElem?_eq_some_iff.mp hi).1
        refine (List.Nodup.getElem_inj_iff h.nodup (hi := by simpa using hlt) (hj := by simpa using hik)).mp ?_
        simp only [List.getElem_map]
        rw [hge, (List.getElem?_eq_some_iff.mp hi).2, heq]
    refine ⟨[.disabled g.1], ?_⟩
    exact {
      inv := {
        nodup := by simp only [hnames]; exact h.nodup
        old := fun x hx => by
          rcases hmem x hx with rfl | ⟨hx, _⟩
          · exact h.old g hg
          · exact h.old x hx
        flag := fun x hx => by
          rcases hmem x hx with rfl | ⟨hx, hne⟩
          · simp
          · rw [h.flag x hx]
            simp [hne]
        dis := fun id hid => by
          simp only [List.mem_append, List.mem_singleton, Event.disabled.injEq] at hid
          rcases hid with hid | rfl
          · exact h.dis id hid
          · exact h.old g hg
        obs := obs_append h.obs (by simp) }
      trace := rfl
      next := Nat.le_refl _
      born_nodup := by simp
      born_range := by simp
      dis := fun _ id hid => by
        simp only [List.mem_singleton, Event.disabled.injEq] at hid
        left
        rw [hid]
        exact List.mem_map_of_mem hg
      proper := fun _ => .disabled _
      once := fun _ id => ⟨by simp [runs], by simp [deaths]⟩
      names := fun _ => hnames
      acts := fun _ x hx a ha => by
        rcases hmem x hx with rfl | ⟨hx, _⟩
        · simp at ha
        · rw [← ha]; exact hx }

theorem inv_enter {st : State A} (h : Inv st) (a : A) : Inv (st.enter a) where
  nodup := by
    simp only [State.enter, List.map_cons, List.nodup_cons]
    refine ⟨fun hm => ?_, h.nodup⟩
    obtain ⟨g, hg, he⟩ := List.mem_map.mp hm
    have := h.old g hg
    omega
  old g hg := by
    simp only [State.enter, List.mem_cons] at hg ⊢
    rcases hg with rfl | hg
    · simp
    · have := h.old g hg; omega
  flag g hg := by
    simp only [State.enter, List.mem_cons] at hg
    rcases hg with rfl | hg
    · simp only [State.enter, Option.isSome_some, List.mem_append, List.mem_singleton, true_iff, not_or]
      refine ⟨fun hd => ?_, by simp⟩
      have := h.dis _ hd
      omega
    · rw [h.flag g hg]
      simp [State.enter]
  dis id hid := by
    simp only [State.enter, List.mem_append, List.mem_singleton] at hid ⊢
    rcases hid with hid | hid
    · have := h.dis id hid; omega
    · simp at hid
  obs := obs_append h.obs (by simp)

/-- The common part of leaving a scope. -/
theorem step_scope {st st' : State A} (h : Inv st) (a : A) {o : Out} {t : List (Event A)} (ho : o ≠ .terminated)
    (hb : Step (st.enter a) st' o t) (throws : A → Bool) (o' : Out) : ∃ u, Step st (st'.leave throws).1 o' u ∧
      ((st'.leave throws).2 = true → throws a = true) := by
  have hn := hb.names ho
  have hdst : Event.disabled st.next ∉ st.trace := fun hd => absurd (h.dis _ hd) (Nat.lt_irrefl _)
  obtain ⟨g, rest, hst⟩ : ∃ g rest, st'.stack = g :: rest := by
    cases hs : st'.stack with
    | nil => rw [hs] at hn; simp [State.enter] at hn
    | cons g rest => exact ⟨g, rest, rfl⟩
  rw [hst] at hn
  simp only [State.enter, List.map_cons, List.cons.injEq] at hn
  obtain ⟨hg1, hrest⟩ := hn
  have hflag := hb.inv.flag g (by rw [hst]; simp)
  rw [hb.trace, hg1] at hflag
  have hflag' : g.2.isSome ↔ Event.disabled st.next ∉ t := by
    rw [hflag]
    simp [State.enter, hdst]
  have hnb : st.next ∉ born t := fun hm => by
    have := hb.born_range _ hm
    simp only [State.enter] at this
    omega
  have honce := hb.once ho
  have hnotst : ∀ id, id ∈ st.stack.map Prod.fst → id < st.next := fun id hm => by
    obtain ⟨x, hx, rfl⟩ := List.mem_map.mp hm
    exact h.old x hx
  have hnodup := hb.inv.nodup
  rw [hst] at hnodup
  have hle : st.next ≤ st'.next := by have := hb.next; simp [State.enter] at this; omega
  -- the state with the guard popped and destroyed
  have hpop : Inv ({ st' with stack := rest, trace := st'.trace ++ [.destroyed g.1] } : State A) := {
    nodup := (List.nodup_cons.mp hnodup).2
    old := fun x hx => hb.inv.old x (by rw [hst]; exact List.mem_cons_of_mem _ hx)
    flag := fun x hx => by
      rw [hb.inv.flag x (by rw [hst]; exact List.mem_cons_of_mem _ hx)]
      simp
    dis := fun id hid => by
      simp only [List.mem_append, List.mem_singleton] at hid
      rcases hid with hid | hid
      · exact hb.inv.dis id hid
      · simp at hid
    obs := obs_append hb.inv.obs (by simp) }
  have hacts : ∀ x ∈ rest, ∀ b, x.2 = some b → (x.1, some b) ∈ st.stack := by
    intro x hx b hxb
    have hm := hb.acts ho x (by rw [hst]; exact List.mem_cons_of_mem _ hx) b hxb
    simp only [State.enter, List.mem_cons, Prod.mk.injEq] at hm
    rcases hm with ⟨hm, _⟩ | hm
    · have : x.1 ∈ rest.map Prod.fst := List.mem_map_of_mem hx
      rw [List.map_cons, List.nodup_cons] at hnodup
      rw [hg1, ← hm] at hnodup
      exact absurd this hnodup.1
    · exact hm
  have hdis : ∀ u : List (Event A), (∀ id : Nat, Event.disabled id ∈ u → Event.disabled id ∈ t) → ∀ id, Event.disabled id ∈ u →
      id ∈ st.stack.map Prod.fst ∨ id = st.next ∨ id ∈ born t := by
    intro u hu id hid
    rcases hb.dis ho id (hu id hid) with h1 | h1
    · simp only [State.enter, List.map_cons, List.mem_cons] at h1
      rcases h1 with h1 | h1
      · exact Or.inr (Or.inl h1)
      · exact Or.inl h1
    · exact Or.inr (Or.inr h1)
  have hnd : (st.next :: born t).Nodup := List.nodup_cons.mpr ⟨hnb, hb.born_nodup⟩
  have hrange : ∀ id ∈ st.next :: born t, st.next ≤ id ∧ id < st'.next := by
    intro id hid
    have hlt : st.next < st'.next := by have := hb.next; simp [State.enter] at this; omega
    rcases List.mem_cons.mp hid with rfl | hid
    · exact ⟨Nat.le_refl _, hlt⟩
    · have := hb.born_range id hid
      simp [State.enter] at this
      omega
  unfold State.leave
  rw [hst]
  dsimp only
  cases hg2 : g.2 with
  | none =>
    have hd : Event.disabled st.next ∈ t := by
      by_contra hc
      have := hflag'.mpr hc
      rw [hg2] at this
      simp at this
    refine ⟨.constructed st.next a :: t ++ [.destroyed st.next], ?_, by simp⟩
    exact {
      inv := hpop
      trace := by simp [hb.trace, State.enter, hg1]
      next := hle
      born_nodup := by simpa using hnd
      born_range := by simpa using hrange
      dis := fun _ id hid => by
        have := hdis _ (fun id hid => by simpa using hid) id hid
        simpa using this
      proper := fun _ => .notEnabled (hb.proper ho) hd
      once := fun _ id => by
        have h1 := (honce id).runs
        have h2 := (honce id).deaths
        constructor
        · by_cases he : id = st.next
          · subst he
            simp only [hnb, false_and, if_false] at h1
            simp only [runs] at h1 ⊢
            simp [h1, hd]
          · simp only [runs] at h1 ⊢
            simp [h1, he]
        · by_cases he : id = st.next
          · subst he
            simp only [hnb, if_false] at h2
            simp only [deaths] at h2 ⊢
            simp [h2]
          · have he' : ¬ st.next = id := fun h => he h.symm
            simp only [deaths] at h2 ⊢
            simp [h2, he, he']
      names := fun _ => hrest
      acts := fun _ => hacts }
  | some b =>
    have hd : Event.disabled st.next ∉ t := hflag'.mp (by rw [hg2]; simp)
    have hba : b = a := by
      have hm := hb.acts ho g (by rw [hst]; simp) b hg2
      simp only [State.enter, List.mem_cons, Prod.mk.injEq, Option.some.injEq] at hm
      rcases hm with ⟨_, hm⟩ | hm
      · exact hm
      · have := h.old _ hm
        simp [hg1] at this
    subst hba
    refine ⟨.constructed st.next b :: t ++ [.destroyed st.next, .ran st.next b], ?_, by simp⟩
    exact {
      inv := hpop.log (by simp) (by simp)
      trace := by simp [hb.trace, State.enter, hg1, State.log]
      next := hle
      born_nodup := by simpa using hnd
      born_range := by simpa [State.log] using hrange
      dis := fun _ id hid => by
        have := hdis _ (fun id hid => by simpa using hid) id hid
        simpa using this
      proper := fun _ => .enabled (hb.proper ho) hd
      once := fun _ id => by
        have h1 := (honce id).runs
        have h2 := (honce id).deaths
        constructor
        · by_cases he : id = st.next
          · subst he
            simp only [hnb, false_and, if_false] at h1
            simp only [runs] at h1 ⊢
            simp [h1, hd]
          · have he' : ¬ st.next = id := fun h => he h.symm
            simp only [runs] at h1 ⊢
            simp [h1, he, he']
        · by_cases he : id = st.next
          · subst he
            simp only [hnb, if_false] at h2
            simp only [deaths] at h2 ⊢
            simp [h2]
          · have he' : ¬ st.next = id := fun h => he h.symm
            simp only [deaths] at h2 ⊢
            simp [h2, he, he']
      names := fun _ => hrest
      acts := fun _ => hacts }

/-- After termination nothing is claimed but the shape of the state. -/
theorem Step.toTerminated {st st' : State A} {o : Out} {t : List (Event A)} (h : Step st st' o t) : Step st st' .terminated t :=
  { h with
    dis := fun hh => absurd rfl hh
    proper := fun hh => absurd rfl hh
    once := fun hh => absurd rfl hh
    names := fun hh => absurd rfl hh
    acts := fun hh => absurd rfl hh }

theorem Step.retag {st st' : State A} {o : Out} (o' : Out) {t : List (Event A)} (ho : o ≠ .terminated) (h : Step st st' o t) :
    Step st st' o' t :=
  { h with
    dis := fun _ => h.dis ho
    proper := fun _ => h.proper ho
    once := fun _ => h.once ho
    names := fun _ => h.names ho
    acts := fun _ => h.acts ho }

theorem step_iterate {f : State A → Out × State A} (hf : ∀ st, Inv st → ∃ t, Step st (f st).2 (f st).1 t) :
    ∀ n st, Inv st → ∃ t, Step st (iterate f n st).2 (iterate f n st).1 t := by
  intro n
  induction n with
  | zero => exact fun st h => ⟨[], Step.refl h _⟩
  | succ n ih =>
    intro st h
    obtain ⟨t, ht⟩ := hf st h
    unfold iterate
    cases hr : f st with
    | mk o st' =>
      rw [hr] at ht
      cases o with
      | normal =>
        obtain ⟨t', ht'⟩ := ih st' ht.inv
        exact ⟨t ++ t', ht.trans (by simp) h ht'⟩
      | raised e => exact ⟨t, ht⟩
      | terminated => exact ⟨t, ht⟩

theorem step_run (throws : A → Bool) (s : Stmt A) : ∀ st, Inv st → ∃ t, Step st (run throws s st).2 (run throws s st).1 t := by
  induction s with
  | skip => exact fun st h => ⟨[], Step.refl h _⟩
  | emit n => exact fun st h => ⟨_, step_emit h n⟩
  | raise e => exact fun st h => ⟨[], Step.refl h _⟩
  | seq s t ihs iht =>
    intro st h
    obtain ⟨u, hu⟩ := ihs st h
    unfold run
    cases hr : run throws s st with
    | mk o st' =>
      rw [hr] at hu
      cases o with
      | normal =>
        obtain ⟨u', hu'⟩ := iht st' hu.inv
        exact ⟨u ++ u', hu.trans (by simp) h hu'⟩
      | raised e => exact ⟨u, hu⟩
      | terminated => exact ⟨u, hu⟩
  | repeatN n s ih => exact fun st h => step_iterate ih n st h
  | tryCatch s t ihs iht =>
    intro st h
    obtain ⟨u, hu⟩ := ihs st h
    unfold run
    cases hr : run throws s st with
    | mk o st' =>
      rw [hr] at hu
      cases o with
      | normal => exact ⟨u, hu⟩
      | raised e =>
        obtain ⟨u', hu'⟩ := iht st' hu.inv
        exact ⟨u ++ u', hu.trans (by simp) h hu'⟩
      | terminated => exact ⟨u, hu⟩
  | disable k => exact fun st h => step_disable h k
  | isEnabled k => exact fun st h => step_isEnabled h k
  | scope action body ih =>
    intro st h
    cases action with
    | none => exact ⟨[], Step.refl h _⟩
    | some a =>
      obtain ⟨u, hu⟩ := ih _ (inv_enter h a)
      unfold run
      cases hr : run throws body (st.enter a) with
      | mk o st' =>
        rw [hr] at hu
        have key : ∀ o, o ≠ .terminated → Step (st.enter a) st' o u → ∃ t, Step st (st'.leave throws).1
            (if (st'.leave throws).2 then .terminated else o) t := by
          intro o ho hu
          obtain ⟨t, ht, _⟩ := step_scope h a ho hu throws (if (st'.leave throws).2 then .terminated else o)
          exact ⟨t, ht⟩
        cases o with
        | normal => exact key _ (by simp) hu
        | raised e => exact key _ (by simp) hu
        | terminated =>
          refine ⟨.constructed st.next a :: u, ?_⟩
          have hnb : st.next ∉ born u := fun hm => by
            have := hu.born_range _ hm
            simp only [State.enter] at this
            omega
          have hn := hu.next
          simp only [State.enter] at hn
          dsimp only
          exact {
            inv := hu.inv
            trace := by rw [hu.trace]; simp [State.enter]
            next := by omega
            born_nodup := by simp [hnb, hu.born_nodup]
            born_range := fun id hid => by
              simp only [born_constructed, List.mem_cons] at hid
              rcases hid with rfl | hid
              · constructor <;> omega
              · have := hu.born_range id hid
                simp only [State.enter] at this
                omega
            dis := fun hh => absurd rfl hh
            proper := fun hh => absurd rfl hh
            once := fun hh => absurd rfl hh
            names := fun hh => absurd rfl hh
            acts := fun hh => absurd rfl hh }

theorem inv_start : Inv (start : State A) where
  nodup := by simp [start]
  old := by simp [start]
  flag := by simp [start]
  dis := by simp [start]
  obs := by simp [start]

/-! ### Theorems -/

/-- C48. For every program, with arbitrary nesting, loops, exceptions and handlers, that is not ended by a throwing action: the
whole history is properly nested, so that every guard is destroyed when its scope is left and its action runs then and only then,
if and only if `Disable` was not called on it in its lifetime. -/
theorem C48_proper_nesting (throws : A → Bool) (s : Stmt A) (h : (run throws s start).1 ≠ .terminated) :
    Proper (run throws s start).2.trace ∧ (born (run throws s start).2.trace).Nodup := by
  obtain ⟨t, ht⟩ := step_run throws s start inv_start
  rw [ht.trace]
  exact ⟨by simpa [start] using ht.proper h, by simpa [start] using ht.born_nodup⟩

/-- C48. Counting: the action of a guard is called exactly once if the guard was constructed and never disabled, and never
otherwise; every constructed guard is destroyed exactly once, nothing else is. -/
theorem C48_exactly_once (throws : A → Bool) (s : Stmt A) (h : (run throws s start).1 ≠ .terminated) (id : Nat) :
    let tr := (run throws s start).2.trace
    runs id tr = (if (∃ a, Event.constructed id a ∈ tr) ∧ Event.disabled id ∉ tr then 1 else 0) ∧
    deaths id tr = (if ∃ a, Event.constructed id a ∈ tr then 1 else 0) := by
  obtain ⟨t, ht⟩ := step_run throws s start inv_start
  have htr : (run throws s start).2.trace = t := by rw [ht.trace]; simp [start]
  simp only
  rw [htr]
  have := ht.once h id
  rw [← mem_born]
  refine ⟨?_, ?_⟩
  · rw [this.runs]; congr
  · rw [this.deaths]; congr

/-- C48. Whatever happened so far, including a terminated program: `IsEnabled` answers true exactly if `Disable` was not called on
the guard before. -/
theorem C48_is_enabled (throws : A → Bool) (s : Stmt A) (p q : List (Event A)) (id : Nat) (b : Bool)
    (h : (run throws s start).2.trace = p ++ .observed id b :: q) : b = true ↔ Event.disabled id ∉ p := by
  obtain ⟨t, ht⟩ := step_run throws s start inv_start
  exact ht.inv.obs p q id b h

/-- C48. An empty action throws `invalid_argument` at construction: the body is not entered and nothing happens. -/
theorem C48_empty_action (throws : A → Bool) (body : Stmt A) (st : State A) :
    run throws (.scope none body) st = (.raised .invalidArgument, st) := rfl

/-- If no action throws, the program is never ended by `std::terminate`. -/
theorem run_not_terminated {throws : A → Bool} (ht : ∀ a, throws a = false) (s : Stmt A) :
    ∀ st, (run throws s st).1 ≠ .terminated := by
  have leave : ∀ st : State A, (st.leave throws).2 = false := by
    intro st
    unfold State.leave
    split
    · rfl
    · dsimp only; split
      · rfl
      · exact ht _
  induction s with
  | skip => intro st; simp [run]
  | emit n => intro st; simp [run]
  | raise e => intro st; simp [run]
  | seq s t ihs iht =>
    intro st
    have h := ihs st
    unfold run
    cases hr : run throws s st with
    | mk o st' =>
      rw [hr] at h
      cases o with
      | normal => exact iht st'
      | raised e => simp
      | terminated => simp at h
  | repeatN n s ih =>
    intro st
    unfold run
    induction n generalizing st with
    | zero => simp [iterate]
    | succ n ihn =>
      have h := ih st
      unfold iterate
      cases hr : run throws s st with
      | mk o st' =>
        rw [hr] at h
        cases o with
        | normal => exact ihn st'
        | raised e => simp
        | terminated => simp at h
  | tryCatch s t ihs iht =>
    intro st
    have h := ihs st
    unfold run
    cases hr : run throws s st with
    | mk o st' =>
      rw [hr] at h
      cases o with
      | normal => simp
      | raised e => exact iht st'
      | terminated => simp at h
  | disable k => intro st; simp [run]
  | isEnabled k => intro st; simp [run]
  | scope action body ih =>
    intro st
    cases action with
    | none => simp [run]
    | some a =>
      have h := ih (st.enter a)
      unfold run
      cases hr : run throws body (st.enter a) with
      | mk o st' =>
        rw [hr] at h
        cases o with
        | normal => simp [leave]
        | raised e => simp [leave]
        | terminated => simp at h

/-- C48. The guard does not change how its scope is left: if no action throws, a scope ends the way its body ended, normally or
with the same exception, and no program is ended by `std::terminate` (so that the theorems above apply). -/
theorem C48_transparent {throws : A → Bool} (ht : ∀ a, throws a = false) (s : Stmt A) (a : A) (st : State A) :
    (run throws s st).1 ≠ .terminated ∧
    (run throws (.scope (some a) s) st).1 = (run throws s (st.enter a)).1 := by
  refine ⟨run_not_terminated ht s st, ?_⟩
  have h := run_not_terminated ht s (st.enter a)
  have h' := run_not_terminated ht (.scope (some a) s) st
  have hun : run throws (.scope (some a) s) st = match run throws s (st.enter a) with
    | (.terminated, st') => (.terminated, st')
    | (o, st') => (if (st'.leave throws).2 then .terminated else o, (st'.leave throws).1) := rfl
  rw [hun] at h' ⊢
  generalize run throws s (st.enter a) = r at h h'
  obtain ⟨o, st'⟩ := r
  cases o with
  | normal =>
    dsimp only at h' ⊢
    split at h'
    · exact absurd rfl h'
    · next hn => rw [if_neg hn]
  | raised e =>
    dsimp only at h' ⊢
    split at h'
    · exact absurd rfl h'
    · next hn => rw [if_neg hn]
  | terminated => exact absurd rfl h

/-- A program with two nested guards, one disabled from the inner scope, left by an exception. -/
def sample : Stmt Nat :=
  .tryCatch (.scope (some 7) (.seq (.scope (some 8) (.seq (.disable 1) (.seq (.isEnabled 0) (.raise .runtimeError)))) (.emit 1)))
    (.emit 2)

/-- Non-vacuity: the program above, whose actions do not throw, and its complete history. -/
example : (run (fun _ => false) sample start).1 = .normal ∧ (run (fun _ => false) sample start).2.trace =
    [.constructed 0 7, .constructed 1 8, .disabled 0, .observed 1 true, .destroyed 1, .ran 1 8, .destroyed 0, .emitted 2] := by
  constructor <;> rfl

/-- A throwing action ends the program. -/
example : (run (fun _ => true) (.scope (some 7) .skip) start).1 = .terminated := by rfl

end CRU.Scope
