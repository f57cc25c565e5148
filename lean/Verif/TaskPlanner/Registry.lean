import Verif.TaskPlanner.Props
/-
  C25 with a logging function that keeps state and may throw (simple_task_planner.hpp, ActionPrimitiveCollection).
-/
namespace CRU.Task.Registry

variable {S C ε : Type} [DecidableEq S] [LinearOrder C] [Add C] [Zero C] [OrderTop C]

/-! ### Model -/

/-- The collection and the messages logged so far (no project code: C++ objects and the record of the calls). -/
structure World (S C : Type) where
  prims : List (Primitive S C)
  logged : List String

/-- What a call throws (no project code: C++ exceptions). -/
inductive Thrown (ε : Type) where
  | own (e : Exc)
  | logging (x : ε)

/-- simple_task_planner.hpp:119-125 `Log`: the logging function, if there is one; its behaviour depends on the messages so far. A message is on record even if
the call throws. -/
def log (fn : Option (List String → String → Except ε Unit)) (logged : List String) (message : String) : List String × Except (Thrown ε) Unit :=
  match fn with
  | none => (logged, .ok ())
  | some f =>
    match f logged message with
    | .ok () => (logged ++ [message], .ok ())
    | .error x => (logged ++ [message], .error (.logging x))

/-- simple_task_planner.hpp:127-142 `RegisterPrimitive`. -/
def registerPrimitive (fn : Option (List String → String → Except ε Unit)) (w : World S C) (p : Primitive S C) : World S C × Except (Thrown ε) Unit :=
  if w.prims.any (fun q => q.name = p.name) then (w, .error (.own .invalidArgument))
  else
    match log fn w.logged ("Registering primitive [" ++ p.name ++ "]") with
    | (l, .error x) => (⟨w.prims, l⟩, .error x)
    | (l, .ok ()) => (⟨w.prims ++ [p], l⟩, .ok ())

/-- simple_task_planner.hpp:147-157 the loop of `UnregisterPrimitivesByName`: primitives still to be looked at, those to keep, messages. -/
def keepLoop (fn : Option (List String → String → Except ε Unit)) (names : List String) :
    List (Primitive S C) → List (Primitive S C) → List String → List String × Except (Thrown ε) (List (Primitive S C))
  | [], keep, logged => (logged, .ok keep)
  | p :: rest, keep, logged =>
    if p.name ∉ names then keepLoop fn names rest (keep ++ [p]) logged
    else
      match log fn logged ("Unregistering primitive [" ++ p.name ++ "]") with
      | (l, .error x) => (l, .error x)
      | (l, .ok ()) => keepLoop fn names rest keep l

/-- simple_task_planner.hpp:144-159 `UnregisterPrimitivesByName`. -/
def unregisterPrimitives (fn : Option (List String → String → Except ε Unit)) (w : World S C) (names : List String) :
    World S C × Except (Thrown ε) Unit :=
  match keepLoop fn names w.prims [] w.logged with
  | (l, .error x) => (⟨w.prims, l⟩, .error x)
  | (l, .ok keep) => (⟨keep, l⟩, .ok ())

/-- simple_task_planner.hpp:127-166 a call of one of the mutators (`UnregisterPrimitiveByName` is `UnregisterPrimitivesByName` with one name). -/
def call (fn : Option (List String → String → Except ε Unit)) (w : World S C) : CollOp S C → World S C × Except (Thrown ε) Unit
  | .register p => registerPrimitive fn w p
  | .unregister names => unregisterPrimitives fn w names
  | .clear => (⟨[], w.logged⟩, .ok ())

/-! ### Specification -/

/-- What a call that returns makes of a list of primitives. -/
def after (prims : List (Primitive S C)) : CollOp S C → List (Primitive S C)
  | .register p => prims ++ [p]
  | .unregister names => prims.filter fun p => p.name ∉ names
  | .clear => []

/-- The messages of a call that returns. -/
def messages (prims : List (Primitive S C)) : CollOp S C → List String
  | .register p => ["Registering primitive [" ++ p.name ++ "]"]
  | .unregister names => (prims.filter fun p => p.name ∈ names).map fun p => "Unregistering primitive [" ++ p.name ++ "]"
  | .clear => []

/-- The logging function throws nothing. -/
def Quiet (fn : Option (List String → String → Except ε Unit)) : Prop := ∀ f, fn = some f → ∀ l m, f l m = .ok ()

/-! ### Proofs -/

theorem log_ok {fn : Option (List String → String → Except ε Unit)} {l l' : List String} {m : String} (h : log fn l m = (l', .ok ())) :
    l' = l ++ (if fn.isSome then [m] else []) := by
  unfold log at h
  cases fn with
  | none => cases h; simp
  | some f =>
    dsimp only at h
    split at h <;> cases h
    rfl

theorem log_error {fn : Option (List String → String → Except ε Unit)} {l l' : List String} {m : String} {x : Thrown ε} (h : log fn l m = (l', .error x)) :
    ∃ f e, fn = some f ∧ f l m = .error e ∧ x = .logging e ∧ l' = l ++ [m] := by
  unfold log at h
  cases fn with
  | none => cases h
  | some f =>
    dsimp only at h
    split at h <;> cases h
    rename_i e he
    exact ⟨f, e, rfl, he, rfl, rfl⟩

theorem keepLoop_spec (fn : Option (List String → String → Except ε Unit)) (names : List String) (ps keep : List (Primitive S C)) (l : List String) :
    (∀ l' k, keepLoop fn names ps keep l = (l', .ok k) → k = keep ++ ps.filter (fun p => p.name ∉ names) ∧
      l' = l ++ (if fn.isSome then (ps.filter fun p => p.name ∈ names).map (fun p => "Unregistering primitive [" ++ p.name ++ "]") else [])) ∧
    (∀ l' x, keepLoop fn names ps keep l = (l', .error x) → ∃ f e a m, fn = some f ∧ f (l ++ a) m = .error e ∧ x = .logging e ∧ l' = l ++ a ++ [m] ∧
      (a ++ [m]) <+: (ps.filter fun p => p.name ∈ names).map (fun p => "Unregistering primitive [" ++ p.name ++ "]")) := by
  induction ps generalizing keep l with
  | nil =>
    refine ⟨fun l' k h => ?_, fun l' x h => ?_⟩
    · cases h; simp
    · cases h
  | cons p rest ih =>
    by_cases hp : p.name ∈ names
    · have e : keepLoop fn names (p :: rest) keep l = match log fn l ("Unregistering primitive [" ++ p.name ++ "]") with
        | (l, .error x) => (l, .error x)
        | (l, .ok ()) => keepLoop fn names rest keep l := by
        rw [keepLoop, if_neg (fun h => h hp)]
      have f1 : (p :: rest).filter (fun p => p.name ∈ names) = p :: rest.filter (fun p => p.name ∈ names) := by simp [hp]
      have f2 : (p :: rest).filter (fun p => p.name ∉ names) = rest.filter (fun p => p.name ∉ names) := by simp [hp]
      rw [e, f1, f2]
      rcases hlog : log fn l ("Unregistering primitive [" ++ p.name ++ "]") with ⟨l1, r⟩
      cases r with
      | error x =>
        refine ⟨fun l' k h => (by cases h), fun l' x' h => ?_⟩
        cases h
        obtain ⟨f, e, h1, h2, h3, h4⟩ := log_error hlog
        exact ⟨f, e, [], _, h1, by simpa using h2, h3, by simpa using h4, by simp⟩
      | ok u =>
        have hl := log_ok hlog
        refine ⟨fun l' k h => ?_, fun l' x h => ?_⟩
        · obtain ⟨a, b⟩ := (ih keep l1).1 l' k h
          refine ⟨a, ?_⟩
          rw [b, hl]
          split <;> simp
        · obtain ⟨f, e, a, m, h1, h2, h3, h4, h5⟩ := (ih keep l1).2 l' x h
          rw [h1, Option.isSome_some, if_pos rfl] at hl
          refine ⟨f, e, ("Unregistering primitive [" ++ p.name ++ "]") :: a, m, h1, ?_, h3, ?_, ?_⟩
          · rw [hl] at h2; simpa using h2
          · rw [h4, hl]; simp
          · rw [List.map_cons, List.cons_append]
            exact List.cons_prefix_cons.mpr ⟨rfl, h5⟩
    · have e : keepLoop fn names (p :: rest) keep l = keepLoop fn names rest (keep ++ [p]) l := by rw [keepLoop, if_pos hp]
      have f1 : (p :: rest).filter (fun p => p.name ∈ names) = rest.filter (fun p => p.name ∈ names) := by simp [hp]
      have f2 : (p :: rest).filter (fun p => p.name ∉ names) = p :: rest.filter (fun p => p.name ∉ names) := by simp [hp]
      rw [e, f1, f2]
      refine ⟨fun l' k h => ?_, (ih (keep ++ [p]) l).2⟩
      obtain ⟨a, b⟩ := (ih (keep ++ [p]) l).1 l' k h
      exact ⟨by rw [a]; simp, b⟩

/-! ### Theorems -/

/-- C25: a call that throws leaves the collection as it was; it throws because a primitive of the name is there already, and then nothing is logged, or because
the logging function threw at one of the messages of the call, and then the messages up to this one are on record. -/
theorem C25_strong_guarantee {fn : Option (List String → String → Except ε Unit)} {w w' : World S C} {o : CollOp S C} {x : Thrown ε}
    (h : call fn w o = (w', .error x)) : w'.prims = w.prims ∧
    ((x = .own .invalidArgument ∧ w'.logged = w.logged ∧ ∃ p, o = .register p ∧ ∃ q ∈ w.prims, q.name = p.name) ∨
     ∃ f e a m, fn = some f ∧ f (w.logged ++ a) m = .error e ∧ x = .logging e ∧ w'.logged = w.logged ++ a ++ [m] ∧ (a ++ [m]) <+: messages w.prims o) := by
  cases o with
  | clear => cases h
  | register p =>
    unfold call registerPrimitive at h
    dsimp only at h
    split at h
    · rename_i hex
      cases h
      obtain ⟨q, hq, he⟩ := List.any_eq_true.mp hex
      exact ⟨rfl, .inl ⟨rfl, rfl, p, rfl, q, hq, of_decide_eq_true he⟩⟩
    · split at h
      · rename_i l x' hlog
        cases h
        obtain ⟨f, e, h1, h2, h3, h4⟩ := log_error hlog
        exact ⟨rfl, .inr ⟨f, e, [], _, h1, by simpa using h2, h3, by simpa using h4, by simp [messages]⟩⟩
      · cases h
  | unregister names =>
    unfold call unregisterPrimitives at h
    dsimp only at h
    split at h
    · rename_i l x' hk
      cases h
      exact ⟨rfl, .inr ((keepLoop_spec fn names w.prims [] w.logged).2 _ _ hk)⟩
    · cases h

/-- C25: a call that returns has registered the primitive (no other of its name was there), removed exactly the named primitives, or all, and logged one message
for each primitive registered or unregistered by name, if there is a logging function. -/
theorem C25_returns {fn : Option (List String → String → Except ε Unit)} {w w' : World S C} {o : CollOp S C}
    (h : call fn w o = (w', .ok ())) : w'.prims = after w.prims o ∧ w'.logged = w.logged ++ (if fn.isSome then messages w.prims o else []) ∧
    ∀ p, o = .register p → ∀ q ∈ w.prims, q.name ≠ p.name := by
  cases o with
  | clear => cases h; exact ⟨rfl, by simp [messages], by intro p hp; cases hp⟩
  | register p =>
    unfold call registerPrimitive at h
    dsimp only at h
    split at h
    · cases h
    · rename_i hex
      split at h
      · cases h
      · rename_i l hlog
        cases h
        refine ⟨rfl, log_ok hlog, fun p' hp' q hq he => hex ?_⟩
        cases hp'
        exact List.any_eq_true.mpr ⟨q, hq, decide_eq_true he⟩
  | unregister names =>
    unfold call unregisterPrimitives at h
    dsimp only at h
    split at h
    · cases h
    · rename_i l k hk
      cases h
      obtain ⟨a, b⟩ := (keepLoop_spec fn names w.prims [] w.logged).1 _ _ hk
      exact ⟨by rw [a]; rfl, b, by intro p hp; cases hp⟩

/-- C25: with a logging function that throws nothing (or none) a call throws exactly if it registers a primitive of a name that is there already. -/
theorem C25_throws_iff {fn : Option (List String → String → Except ε Unit)} (hq : Quiet fn) (w : World S C) (o : CollOp S C) :
    (∃ x, (call fn w o).2 = .error x) ↔ ∃ p, o = .register p ∧ ∃ q ∈ w.prims, q.name = p.name := by
  constructor
  · rintro ⟨x, hx⟩
    rcases hc : call fn w o with ⟨w', r⟩
    rw [hc] at hx
    dsimp only at hx
    subst hx
    rcases (C25_strong_guarantee hc).2 with ⟨-, -, h⟩ | ⟨f, e, a, m, h1, h2, -⟩
    · exact h
    · rw [hq f h1] at h2; cases h2
  · rintro ⟨p, rfl, q, hq', he⟩
    rcases hc : call fn w (.register p) with ⟨w', r⟩
    cases r with
    | error x => exact ⟨x, rfl⟩
    | ok u => exact absurd he ((C25_returns hc).2.2 p rfl q hq')

/-- C25: after any history of calls, whether they returned or threw, whatever the logging function did (it may be another one at each call), the names are
distinct. -/
theorem C25_names_unique_logging (ops : List (CollOp S C × Option (List String → String → Except ε Unit))) :
    ((ops.foldl (fun w o => (call o.2 w o.1).1) (⟨[], []⟩ : World S C)).prims.map (·.name)).Nodup := by
  suffices ∀ w : World S C, (w.prims.map (·.name)).Nodup → ((ops.foldl (fun w o => (call o.2 w o.1).1) w).prims.map (·.name)).Nodup from
    this _ List.nodup_nil
  induction ops with
  | nil => exact fun w h => h
  | cons o ops ih =>
    intro w hnd
    refine ih _ ?_
    obtain ⟨o, fn⟩ := o
    dsimp only
    rcases hc : call fn w o with ⟨w', r⟩
    cases r with
    | error x => rw [(C25_strong_guarantee hc).1]; exact hnd
    | ok u =>
      obtain ⟨h1, -, h3⟩ := C25_returns hc
      rw [h1]
      cases o with
      | clear => exact List.nodup_nil
      | unregister names => exact hnd.sublist (List.filter_sublist.map _)
      | register p =>
        show ((w.prims ++ [p]).map (·.name)).Nodup
        rw [List.map_append, List.nodup_append]
        refine ⟨hnd, by simp, ?_⟩
        intro a ha b hb
        simp at hb
        subst hb
        obtain ⟨q, hq, rfl⟩ := List.mem_map.mp ha
        exact h3 p rfl q hq

/-! ### Concrete cases -/

private def prim (n : String) : Primitive Nat ℕ∞ where
  name := n
  candidate := fun _ => true
  outcomes := fun s => [(s, 1)]
  execute := fun s r => r = .ok [s]

/-- Logs the first message and throws at the second. -/
private def second : List String → String → Except Unit Unit := fun l _ => if l = [] then .ok () else .error ()

/-- Unregistering two of three primitives with a logging function that throws at its second message: nothing is removed, two messages are on record. -/
example : (call (some second) (⟨[prim "a", prim "b", prim "c"], []⟩ : World Nat ℕ∞) (.unregister ["a", "c"])).1.prims = [prim "a", prim "b", prim "c"] ∧
    (call (some second) (⟨[prim "a", prim "b", prim "c"], []⟩ : World Nat ℕ∞) (.unregister ["a", "c"])).1.logged =
      ["Unregistering primitive [a]", "Unregistering primitive [c]"] := ⟨rfl, by decide⟩

/-- The hypotheses of the two theorems are met. -/
example : ∃ w' : World Nat ℕ∞, ∃ x, call (some second) ⟨[prim "a", prim "b", prim "c"], []⟩ (.unregister ["a", "c"]) = (w', .error x) := ⟨_, _, rfl⟩

example : ∃ w' : World Nat ℕ∞, call (some second) ⟨[prim "a", prim "b"], []⟩ (.unregister ["b"]) = (w', .ok ()) ∧ w'.prims.map (·.name) = ["a"] :=
  ⟨_, rfl, by decide⟩

example : Quiet (ε := Unit) none := by intro f h; cases h

end CRU.Task.Registry
