import Verif.Base
/-
  C49: `ChangeOmpNumThreadsWrapper` and `DisableOmpWrapper` (openmp_helpers.hpp:138-193) in arbitrarily nested programs.
-/
namespace CRU.Omp

/-! ### Model -/

/-- The runtime. `enabled`: the build has OpenMP (`_OPENMP`). `deliver n` is the number of threads a parallel region started
outside other regions gets when the setting (the nthreads-var ICV) is `n`, after thread limit and dynamic adjustment. It is taken to be the same
throughout. (openmp_helpers.hpp:20-33) -/
structure Runtime where
  enabled : Bool
  deliver : Int → Int

/-- The setting, and whether the code runs inside a parallel region. (openmp_helpers.hpp:26-33, 90-103) -/
structure State where
  setting : Int
  inRegion : Bool
  deriving DecidableEq

/-- openmp_helpers.hpp:109-122 `GetNumOmpThreads`, outside a region: a parallel region is started and its size reported. -/
def getNum (rt : Runtime) (st : State) : Int := if rt.enabled then rt.deliver st.setting else 1

/-- openmp_helpers.hpp:90-103 `GetMaxNumOmpThreads`, outside a region: the setting. -/
def getMax (rt : Runtime) (st : State) : Int := if rt.enabled then st.setting else 1

/-- openmp_helpers.hpp:26-33 `IsOmpInParallel`. -/
def isInParallel (rt : Runtime) (st : State) : Bool := rt.enabled && st.inRegion

/-- openmp_helpers.hpp:161-163, 168-170 `omp_set_num_threads`, compiled only with OpenMP. -/
def set (rt : Runtime) (st : State) (n : Int) : State := if rt.enabled then { st with setting := n } else st

/-- Programs. `rawSet` is other code calling `omp_set_num_threads`; `region` runs its body in a parallel region, whose settings
belong to the region; `ifMax` decides by what `GetMaxNumOmpThreads` returns. (openmp_helpers.hpp:138-193) -/
inductive Stmt where
  | skip
  | raise (e : Exc)
  | seq (s t : Stmt)
  | tryCatch (s h : Stmt)
  | rawSet (n : Int)
  | region (s : Stmt)
  | guarded (n : Int) (s : Stmt)
  | ifMax (p : Int → Bool) (s t : Stmt)

/-- openmp_helpers.hpp:146-164 the constructor: the saved thread count and the new state, or an exception. -/
def construct (rt : Runtime) (st : State) (n : Int) : Except Exc (Int × State) :=
  if isInParallel rt st then .error .runtimeError
  else if n ≤ 0 then .error .invalidArgument
  else .ok (getNum rt st, set rt st n)

/-- Execution: the exception with which the statement was left, if any, and the state. The destructor
(openmp_helpers.hpp:166-171) runs on both kinds of exit. -/
def run (rt : Runtime) : Stmt → State → Option Exc × State
  | .skip, st => (none, st)
  | .raise e, st => (some e, st)
  | .seq s t, st => match run rt s st with
    | (none, st') => run rt t st'
    | r => r
  | .tryCatch s h, st => match run rt s st with
    | (some _, st') => run rt h st'
    | r => r
  | .rawSet n, st => (none, set rt st n)
  | .region s, st => ((run rt s { st with inRegion := true }).1, st)
  | .guarded n s, st => match construct rt st n with
    | .error e => (some e, st)
    | .ok (saved, st') =>
      let r := run rt s st'
      (r.1, set rt r.2 saved)
  | .ifMax p s t, st => if p (getMax rt st) then run rt s st else run rt t st

/-- openmp_helpers.hpp:183-187 `DisableOmpWrapper`. -/
def Stmt.disabled (s : Stmt) : Stmt := .guarded 1 s

/-! ### Specification -/

/-- The program changes the thread count only through the wrappers (code inside parallel regions may do as it likes, it has its
own setting). -/
def OnlyWrappers : Stmt → Prop
  | .skip => True
  | .raise _ => True
  | .seq s t => OnlyWrappers s ∧ OnlyWrappers t
  | .tryCatch s h => OnlyWrappers s ∧ OnlyWrappers h
  | .rawSet _ => False
  | .region _ => True
  | .guarded _ _ => True
  | .ifMax _ s t => OnlyWrappers s ∧ OnlyWrappers t

/-- A setting that was delivered once is delivered again, as with any thread limit. -/
def Stable (rt : Runtime) : Prop := ∀ n, rt.deliver (rt.deliver n) = rt.deliver n

/-! ### Theorems -/

theorem run_inRegion (rt : Runtime) (s : Stmt) : ∀ st, (run rt s st).2.inRegion = st.inRegion := by
  induction s with
  | skip => intro st; rfl
  | raise e => intro st; rfl
  | seq s t ihs iht =>
    intro st
    unfold run
    have h := ihs st
    generalize run rt s st = r at h
    obtain ⟨o, st'⟩ := r
    cases o with
    | none => exact (iht st').trans h
    | some e => exact h
  | tryCatch s t ihs iht =>
    intro st
    unfold run
    have h := ihs st
    generalize run rt s st = r at h
    obtain ⟨o, st'⟩ := r
    cases o with
    | none => exact h
    | some e => exact (iht st').trans h
  | rawSet n => intro st; unfold run set; dsimp only; split <;> rfl
  | region s ih => intro st; rfl
  | guarded n s ih =>
    intro st
    unfold run
    cases hc : construct rt st n with
    | error e => rfl
    | ok p =>
      obtain ⟨saved, st'⟩ := p
      have h1 : (run rt s st').2.inRegion = st'.inRegion := ih st'
      have h2 : st'.inRegion = st.inRegion := by
        unfold construct at hc
        split at hc
        · cases hc
        · split at hc
          · cases hc
          · injection hc with hc
            injection hc with _ hc
            rw [← hc]
            unfold set
            split <;> rfl
      dsimp only
      unfold set
      split
      · exact h1.trans h2
      · exact h1.trans h2
  | ifMax p s t ihs iht =>
    intro st
    unfold run
    split
    · exact ihs st
    · exact iht st

/-- C49. A bad wrapper changes nothing: inside a parallel region it throws `runtime_error`, with a thread count below one
`invalid_argument`, and the body is not entered. -/
theorem C49_rejects (rt : Runtime) (n : Int) (s : Stmt) (st : State) :
    (rt.enabled = true → st.inRegion = true → run rt (.guarded n s) st = (some .runtimeError, st)) ∧
    (st.inRegion = false → n ≤ 0 → run rt (.guarded n s) st = (some .invalidArgument, st)) := by
  constructor
  · intro h1 h2
    simp [run, construct, isInParallel, h1, h2]
  · intro h1 h2
    simp [run, construct, isInParallel, h1, h2]

/-- C49. Inside the wrapper's scope the setting is the requested one, and the scope ends the way its body ended. -/
theorem C49_takes_effect (rt : Runtime) (n : Int) (s : Stmt) (st : State) (hr : st.inRegion = false) (hn : 0 < n) :
    (run rt (.guarded n s) st).1 = (run rt s (set rt st n)).1 ∧ (rt.enabled = true → (set rt st n).setting = n) := by
  have : ¬ n ≤ 0 := by omega
  constructor
  · simp [run, construct, isInParallel, hr, this]
  · intro h
    simp [set, h]

/-- C49. Code in the scope of a wrapper that asks `GetMaxNumOmpThreads` gets the requested count — 1 in the scope of a
`DisableOmpWrapper`, with and without OpenMP — and decides accordingly. -/
theorem C49_count_in_scope (rt : Runtime) (p : Int → Bool) (s t : Stmt) (st : State) (hr : st.inRegion = false) :
    (∀ n, 0 < n → rt.enabled = true → run rt (.guarded n (.ifMax p s t)) st = run rt (.guarded n (if p n then s else t)) st) ∧
    run rt (.disabled (.ifMax p s t)) st = run rt (.disabled (if p 1 then s else t)) st := by
  have h1 : ∀ n, 0 < n → rt.enabled = true → run rt (.guarded n (.ifMax p s t)) st = run rt (.guarded n (if p n then s else t)) st := by
    intro n hn he
    have : ¬ n ≤ 0 := by omega
    simp only [run, construct, isInParallel, hr, Bool.and_false, Bool.false_eq_true, if_false, this, getMax, set, he, if_true]
    split <;> rfl
  refine ⟨h1, ?_⟩
  by_cases he : rt.enabled = true
  · exact h1 1 (by omega) he
  · have h2 : ¬ (1 : Int) ≤ 0 := by omega
    simp only [Stmt.disabled, run, construct, isInParallel, hr, Bool.and_false, Bool.false_eq_true, if_false, getMax, set, he, h2]
    split <;> rfl

/-- Non-vacuity: in a scope that asks for five threads other code sets nine, a nested scope disables the threads; the innermost
code sees one thread and throws because of it. -/
example : run ⟨true, fun n => min n 16⟩ (.guarded 5 (.seq (.rawSet 9) (.disabled (.ifMax (fun n => n == 1) (.raise .runtimeError) .skip))))
    ⟨3, false⟩ = (some .runtimeError, ⟨3, false⟩) := rfl

/-- C49, proved part. Whatever the body of a wrapper does — nested wrappers, other code changing the setting, exceptions — the
number of threads reported by `GetNumOmpThreads` after the scope is the one before. Also for every program that uses only
wrappers. Missing: the setting itself (`GetMaxNumOmpThreads`) may differ, see `C49_false`. -/
theorem C49_restores_partial (rt : Runtime) (hs : Stable rt) (st : State) :
    (∀ n s, getNum rt (run rt (.guarded n s) st).2 = getNum rt st) ∧
    (∀ s, OnlyWrappers s → getNum rt (run rt s st).2 = getNum rt st) := by
  have hg : ∀ n s st, getNum rt (run rt (.guarded n s) st).2 = getNum rt st := by
    intro n s st
    unfold run construct
    split
    · next h => split at h <;> first | rfl | (split at h <;> first | rfl | cases h)
    · next h =>
      split at h
      · cases h
      · split at h
        · cases h
        · injection h with h
          injection h with h1 h2
          rw [← h1]
          unfold getNum set
          by_cases he : rt.enabled = true
          · simp [he, hs st.setting]
          · simp [he]
  refine ⟨fun n s => hg n s st, fun s => ?_⟩
  induction s generalizing st with
  | skip => intro _; rfl
  | raise e => intro _; rfl
  | seq s t ihs iht =>
    intro ⟨h1, h2⟩
    unfold run
    have h := ihs st h1
    generalize run rt s st = r at h
    obtain ⟨o, st'⟩ := r
    cases o with
    | none => exact (iht st' h2).trans h
    | some e => exact h
  | tryCatch s t ihs iht =>
    intro ⟨h1, h2⟩
    unfold run
    have h := ihs st h1
    generalize run rt s st = r at h
    obtain ⟨o, st'⟩ := r
    cases o with
    | none => exact h
    | some e => exact (iht st' h2).trans h
  | rawSet n => intro h; exact h.elim
  | region s ih => intro _; rfl
  | guarded n s ih => exact fun _ => hg n s st
  | ifMax p s t ihs iht =>
    intro ⟨h1, h2⟩
    unfold run
    split
    · exact ihs st h1
    · exact iht st h2

/-- C49. If the runtime delivers the setting in force before (no thread limit or dynamic adjustment below it), the setting itself
is restored too, and the whole state with it. -/
theorem C49_setting_restored_partial (rt : Runtime) (he : rt.enabled = true) (st : State)
    (hd : rt.deliver st.setting = st.setting) :
    (∀ n s, (run rt (.guarded n s) st).2 = st) ∧ (∀ s, OnlyWrappers s → (run rt s st).2 = st) := by
  have hg : ∀ n s st, rt.deliver st.setting = st.setting → (run rt (.guarded n s) st).2 = st := by
    intro n s st hd
    have hin := run_inRegion rt (.guarded n s) st
    unfold run construct at hin ⊢
    split
    · next h => split at h <;> first | rfl | (split at h <;> first | rfl | cases h)
    · next h =>
      split at h
      · cases h
      · next hp =>
        split at h
        · cases h
        · next hn =>
          injection h with h
          injection h with h1 h2
          simp only [hp, hn, if_false, Bool.false_eq_true] at hin
          rw [← h1]
          unfold set getNum at hin ⊢
          simp only [he, if_true, hd] at hin ⊢
          rw [h2.symm]
          unfold set
          simp only [he, if_true]
          cases st
          simp_all
  refine ⟨fun n s => hg n s st hd, fun s => ?_⟩
  intro hw
  induction s generalizing st with
  | skip => rfl
  | raise e => rfl
  | seq s t ihs iht =>
    have h := ihs st hd hw.1
    unfold run
    generalize run rt s st = r at h
    obtain ⟨o, st'⟩ := r
    simp only at h
    subst h
    cases o with
    | none => exact iht _ hd hw.2
    | some e => rfl
  | tryCatch s t ihs iht =>
    have h := ihs st hd hw.1
    unfold run
    generalize run rt s st = r at h
    obtain ⟨o, st'⟩ := r
    simp only at h
    subst h
    cases o with
    | none => rfl
    | some e => exact iht _ hd hw.2
  | rawSet n => exact hw.elim
  | region s ih => rfl
  | guarded n s ih => exact hg n s st hd
  | ifMax p s t ihs iht =>
    unfold run
    split
    · exact ihs st hd hw.1
    · exact iht st hd hw.2

/-- C49 is false of the setting: the wrapper saves the number of threads delivered, not the setting. With a thread limit of 2 and
a setting of 4, an empty wrapper scope leaves the setting at 2. -/
theorem C49_false : ∃ (rt : Runtime) (st : State), Stable rt ∧
    getMax rt st = 4 ∧ getMax rt (run rt (.guarded 1 .skip) st).2 = 2 := by
  refine ⟨⟨true, fun n => min n 2⟩, ⟨4, false⟩, ?_, rfl, rfl⟩
  intro n
  show min (min n 2) 2 = min n 2
  omega

/-- Non-vacuity: a thread limit is stable; a nested program left by an exception restores the count of 3. -/
example : Stable ⟨true, fun n => min n 16⟩ ∧
    run ⟨true, fun n => min n 16⟩ (.guarded 5 (.seq (.disabled (.rawSet 9)) (.seq (.rawSet 12) (.raise .runtimeError)))) ⟨3, false⟩
      = (some .runtimeError, ⟨3, false⟩) := by
  refine ⟨?_, rfl⟩
  intro n
  show min (min n 16) 16 = min n 16
  omega

end CRU.Omp
