import Verif.Parallel.Model
import Verif.Parallel.Lemmas
import Mathlib.Data.List.MinMax
/-
  Static parallel loops (parallelism.hpp:142-234, 423-442) whose bodies read and write shared data, run atomically, and may throw; for
  Prm/BuildThrow.lean.
-/
namespace CRU.Parallel

variable {κ S ε : Type}

/-! ### Model -/

/-- parallelism.hpp:181, 196-200, 203-206 (OpenMP: the exception assigned last is rethrown) and 229-232 (`std::async`: that of the first thread that
has one): `held` has the numbers of the work ranges that have thrown, and the exceptions, in the order in which they were thrown. -/
def rethrown (omp : Bool) (held : List (Nat × ε)) : Option ε :=
  if omp then held.getLast?.map (·.2) else (held.argmin (·.1)).map (·.2)

/-- parallelism.hpp:142-234, 423-442: possible outcomes of the loop. `body c s r`: in a state `s` of the shared data, the call `c` can do `r`: change it
and return, or throw. A work range ends with its first exception, the others go on. An exception of the library, or undefined behaviour, ends
the run here. -/
inductive LoopRun (omp : Bool) (body : κ → S → Res (S × Option ε) → Prop) : List (List κ) → List (Nat × ε) → S → Res (Except ε S) → Prop
  | done {ws : List (List κ)} {held : List (Nat × ε)} {s : S} (h : ∀ w ∈ ws, w = []) :
      LoopRun omp body ws held s (.ok (match rethrown omp held with | some x => .error x | none => .ok s))
  | next {ws : List (List κ)} {held : List (Nat × ε)} {s s1 : S} {i : Nat} {c : κ} {rest : List κ} {r : Res (Except ε S)}
      (hi : ws[i]? = some (c :: rest)) (hb : body c s (.ok (s1, none))) (hr : LoopRun omp body (ws.set i rest) held s1 r) :
      LoopRun omp body ws held s r
  | raises {ws : List (List κ)} {held : List (Nat × ε)} {s s1 : S} {i : Nat} {c : κ} {rest : List κ} {x : ε} {r : Res (Except ε S)}
      (hi : ws[i]? = some (c :: rest)) (hb : body c s (.ok (s1, some x))) (hr : LoopRun omp body (ws.set i []) (held ++ [(i, x)]) s1 r) :
      LoopRun omp body ws held s r
  | throws {ws : List (List κ)} {held : List (Nat × ε)} {s : S} {i : Nat} {c : κ} {rest : List κ} {x : Exc}
      (hi : ws[i]? = some (c :: rest)) (hb : body c s (.throw x)) : LoopRun omp body ws held s (.throw x)
  | ub {ws : List (List κ)} {held : List (Nat × ε)} {s : S} {i : Nat} {c : κ} {rest : List κ}
      (hi : ws[i]? = some (c :: rest)) (hb : body c s .ub) : LoopRun omp body ws held s .ub

/-! ### Proofs -/

/-- The bodies in the order given, none of which throws. -/
inductive Steps (body : κ → S → Res (S × Option ε) → Prop) : List κ → S → S → Prop
  | nil {s : S} : Steps body [] s s
  | cons {c : κ} {tr : List κ} {s s1 s2 : S} (h : body c s (.ok (s1, none))) (rest : Steps body tr s1 s2) : Steps body (c :: tr) s s2

theorem rethrown_none {omp : Bool} {held : List (Nat × ε)} (h : rethrown omp held = none) : held = [] := by
  unfold rethrown at h
  split at h
  · simpa using h
  · simpa using h

theorem rethrown_some {omp : Bool} {held : List (Nat × ε)} {x : ε} (h : rethrown omp held = some x) : ∃ i, (i, x) ∈ held := by
  unfold rethrown at h
  split at h
  · obtain ⟨p, hp, rfl⟩ := Option.map_eq_some_iff.mp h
    exact ⟨p.1, List.mem_of_getLast? hp⟩
  · obtain ⟨p, hp, rfl⟩ := Option.map_eq_some_iff.mp h
    exact ⟨p.1, List.argmin_mem hp⟩

theorem mem_set_flatten {ws : List (List κ)} {i : Nat} {c : κ} {rest w : List κ} (hi : ws[i]? = some (c :: rest)) (hw : ∀ d ∈ w, d ∈ rest)
    {d : κ} (hd : d ∈ (ws.set i w).flatten) : d ∈ ws.flatten := by
  obtain ⟨l, hl, hdl⟩ := List.mem_flatten.mp hd
  rcases List.mem_or_eq_of_mem_set hl with h | rfl
  · exact List.mem_flatten.mpr ⟨l, h, hdl⟩
  · exact List.mem_flatten.mpr ⟨_, List.mem_of_getElem? hi, List.mem_cons_of_mem _ (hw d hdl)⟩

/-- The outcome of a loop whose bodies keep an invariant and have no undefined behaviour and no exception of the library: either some body throws, and
the loop throws an exception that one of them has thrown; or none does, and the bodies have run in some order that the threads allow. -/
theorem loopRun_spec {omp : Bool} {body : κ → S → Res (S × Option ε) → Prop} {Inv : S → Prop} {Bad : ε → Prop} {P : κ → Prop}
    (hbody : ∀ c s r, P c → Inv s → body c s r → ∃ s1 o, r = .ok (s1, o) ∧ Inv s1 ∧ ∀ x, o = some x → Bad x)
    {ws : List (List κ)} {held : List (Nat × ε)} {s : S} {r : Res (Except ε S)} (h : LoopRun omp body ws held s r) (hP : ∀ c ∈ ws.flatten, P c)
    (hs : Inv s) (hheld : ∀ p ∈ held, Bad p.2) :
    (∃ x, r = .ok (.error x) ∧ Bad x) ∨
    ∃ s', r = .ok (.ok s') ∧ Inv s' ∧ held = [] ∧ ∃ tr, Interleaving ws tr ∧ Steps body tr s s' := by
  induction h with
  | @done ws held s h =>
    cases hx : rethrown omp held with
    | some x =>
      obtain ⟨i, hi⟩ := rethrown_some hx
      exact .inl ⟨x, rfl, hheld _ hi⟩
    | none => exact .inr ⟨s, rfl, hs, rethrown_none hx, [], .done h, .nil⟩
  | @next ws held s s1 i c rest r hi hb _ ih =>
    have hc : P c := hP c (List.mem_flatten.mpr ⟨_, List.mem_of_getElem? hi, by simp⟩)
    obtain ⟨s1', o, he, hs1, -⟩ := hbody c s _ hc hs hb
    cases he
    rcases ih (fun d hd => hP d (mem_set_flatten hi (fun d h => h) hd)) hs1 hheld with h | ⟨s', h1, h2, h3, tr, h4, h5⟩
    · exact .inl h
    · exact .inr ⟨s', h1, h2, h3, c :: tr, .step i c rest tr hi h4, .cons hb h5⟩
  | @raises ws held s s1 i c rest x r hi hb _ ih =>
    have hc : P c := hP c (List.mem_flatten.mpr ⟨_, List.mem_of_getElem? hi, by simp⟩)
    obtain ⟨s1', o, he, hs1, hx⟩ := hbody c s _ hc hs hb
    cases he
    rcases ih (fun d hd => hP d (mem_set_flatten hi (w := []) (by simp) hd)) hs1 (by
        intro p hp
        rcases List.mem_append.mp hp with h | h
        · exact hheld p h
        · rw [List.mem_singleton.mp h]; exact hx x rfl) with h | ⟨s', h1, h2, h3, -⟩
    · exact .inl h
    · simp at h3
  | @throws ws held s i c rest x hi hb =>
    have hc : P c := hP c (List.mem_flatten.mpr ⟨_, List.mem_of_getElem? hi, by simp⟩)
    obtain ⟨s1', o, he, -⟩ := hbody c s _ hc hs hb
    cases he
  | @ub ws held s i c rest hi hb =>
    have hc : P c := hP c (List.mem_flatten.mpr ⟨_, List.mem_of_getElem? hi, by simp⟩)
    obtain ⟨s1', o, he, -⟩ := hbody c s _ hc hs hb
    cases he

theorem sum_set_lt {ws : List (List κ)} {i : Nat} {c : κ} {rest w : List κ} (hi : ws[i]? = some (c :: rest)) (hw : w.length ≤ rest.length) :
    (ws.set i w).flatten.length < ws.flatten.length := by
  induction ws generalizing i with
  | nil => simp at hi
  | cons l ws ih =>
    cases i with
    | zero =>
      simp only [List.getElem?_cons_zero, Option.some.injEq] at hi
      subst hi
      simp only [List.set_cons_zero, List.flatten_cons, List.length_append, List.length_cons]
      omega
    | succ i =>
      simp only [List.getElem?_cons_succ] at hi
      have := ih hi
      simp only [List.set_cons_succ, List.flatten_cons, List.length_append]
      omega

/-- Every loop whose bodies end can end. -/
theorem loopRun_exists {body : κ → S → Res (S × Option ε) → Prop} {Inv : S → Prop} {P : κ → Prop}
    (hkeep : ∀ c s s1 o, P c → Inv s → body c s (.ok (s1, o)) → Inv s1) (hex : ∀ c s, P c → Inv s → ∃ r, body c s r) (omp : Bool)
    (ws : List (List κ)) (hP : ∀ c ∈ ws.flatten, P c) (held : List (Nat × ε)) (s : S) (hs : Inv s) : ∃ r, LoopRun omp body ws held s r := by
  generalize hn : ws.flatten.length = n
  induction n using Nat.strong_induction_on generalizing ws held s with
  | _ n ih =>
    by_cases hall : ∀ w ∈ ws, w = []
    · exact ⟨_, .done hall⟩
    · obtain ⟨w, hw, hne⟩ : ∃ w ∈ ws, w ≠ [] := by
        by_contra hc
        exact hall fun w hw => by
          by_contra h
          exact hc ⟨w, hw, h⟩
      obtain ⟨i, hi⟩ := List.mem_iff_getElem?.mp hw
      obtain ⟨c, rest, rfl⟩ := List.exists_cons_of_ne_nil hne
      have hc : P c := hP c (List.mem_flatten.mpr ⟨_, hw, by simp⟩)
      obtain ⟨r, hr⟩ := hex c s hc hs
      match r, hr with
      | .throw x, hr => exact ⟨_, .throws hi hr⟩
      | .ub, hr => exact ⟨_, .ub hi hr⟩
      | .ok (s1, none), hr =>
        obtain ⟨r2, h2⟩ := ih _ (by rw [← hn]; exact sum_set_lt hi le_rfl) (ws.set i rest)
          (fun d hd => hP d (mem_set_flatten hi (fun d h => h) hd)) held s1 (hkeep c s s1 _ hc hs hr) rfl
        exact ⟨r2, .next hi hr h2⟩
      | .ok (s1, some x), hr =>
        obtain ⟨r2, h2⟩ := ih _ (by rw [← hn]; exact sum_set_lt hi (by simp)) (ws.set i [])
          (fun d hd => hP d (mem_set_flatten hi (by simp) hd)) (held ++ [(i, x)]) s1 (hkeep c s s1 _ hc hs hr) rfl
        exact ⟨r2, .raises hi hr h2⟩

end CRU.Parallel
