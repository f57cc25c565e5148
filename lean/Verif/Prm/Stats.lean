import Verif.Prm.Throw
/-
  C66, C108: the statistics that `GrowRoadMap` returns, counted over the samples it drew.
-/
namespace CRU.Prm
open CRU.Graph CRU.Knn CRU.Parallel CRU.GraphSearch

variable {V C σ ε : Type} [LinearOrder C] [Zero C]

/-- What became of a sample. -/
inductive Fate where
  /-- the state was not valid -/
  | refused
  /-- the state was added to the roadmap -/
  | added
  /-- the roadmap had the state already -/
  | known
  deriving DecidableEq

/-- The size of the roadmap after a sample. -/
def Fate.next (n : Nat) : Fate → Nat
  | .added => n + 1
  | _ => n

/-- The samples of a run that begins with a roadmap of `n` nodes and the functions in state `s` and ends with `n'` nodes and state `s'`: before each
sample, and at the end, the termination check is asked with the number of nodes at that time. -/
inductive Samples (ge : GrowEnv σ V) : Nat → σ → List (V × Fate) → Nat → Prop
  | stop {n : Nat} {s : σ} (h : (ge.terminate s n).1 = true) : Samples ge n s [] n
  | draw {n n' : Nat} {s s1 s2 s3 : σ} {x : V} {f : Fate} {l : List (V × Fate)} (h : ge.terminate s n = (false, s1)) (hs : ge.sample s1 = (x, s2))
      (hv : ge.stateValid s2 x = (decide (f ≠ .refused), s3)) (rest : Samples ge (f.next n) s3 l n') : Samples ge n s ((x, f) :: l) n'

/-- How many samples had a fate. -/
def times (f : Fate) (l : List (V × Fate)) : Nat := (l.filter fun x => decide (x.2 = f)).length

theorem times_cons (f : Fate) (x : V) (f' : Fate) (l : List (V × Fate)) : times f ((x, f') :: l) = (if f' = f then 1 else 0) + times f l := by
  unfold times
  by_cases h : f' = f
  · rw [List.filter_cons_of_pos (by simp [h]), if_pos h, List.length_cons]; omega
  · rw [List.filter_cons_of_neg (by simp [h]), if_neg h]; omega

/-- C66: the statistics count the samples that were drawn, those that were refused, those that were added and those that were known. -/
theorem C66_grow_statistics (e : Env V C) (ge : GrowEnv σ V) (hs : e.knn.Sound e.dist) (hK : 0 ≤ e.K) (hinf : e.infeasible < 0)
    (hth : InI64 e.threads) (s : σ) (g g' : Graph V C) (st : Stats) (hr : GrowRun e ge s g ⟨0, 0, 0, 0⟩ (g', .ok st)) (hsz : InI64 g'.length) :
    ∃ l, Samples ge g.length s l g'.length ∧ st.total = l.length ∧ st.failed = times .refused l ∧ st.successful = times .added l ∧
      st.duplicate = times .known l := by
  have key : ∀ (s : σ) (g : Graph V C) (st0 : Stats) (out : Graph V C × Res Stats), GrowRun e ge s g st0 out → InI64 out.1.length →
      ∀ st, out.2 = .ok st → ∃ l, Samples ge g.length s l out.1.length ∧ st.total = st0.total + l.length ∧ st.failed = st0.failed + times .refused l ∧
        st.successful = st0.successful + times .added l ∧ st.duplicate = st0.duplicate + times .known l := by
    intro s g st0 out h hsz st hst
    induction h with
    | stop h =>
      cases hst
      exact ⟨[], .stop h, by simp [times]⟩
    | @failed s g st0 out s1 s2 s3 x h h2 h3 _ ih =>
      obtain ⟨l, k1, k2, k3, k4, k5⟩ := ih hsz hst
      refine ⟨(x, .refused) :: l, .draw h h2 (by simpa using h3) k1, ?_⟩
      simp only [times_cons, List.length_cons, reduceCtorEq, if_true, if_false]
      dsimp only at k2 k3 k4 k5
      omega
    | @grown s g g' st0 out s1 s2 s3 x i h h2 h3 ha rest ih =>
      have hg' : g'.length ≤ out.1.length := grow_length rest
      have hgg : g.length ≤ g'.length := addNode_length ha
      have hlen : g'.length ≤ g.length + 1 := by
        rcases C40_add_node_partial e hs hK hinf x .roadmapToNew g.length g (by omega) le_rfl (by unfold InI64 at *; omega) hth _ ha with
          ⟨_, k, m, hk, _⟩ | ⟨g'', l, b1, b2, b3, b4, _⟩
        · cases hk; omega
        · cases b1; rw [b4.length]
      obtain ⟨l, k1, k2, k3, k4, k5⟩ := ih hsz hst
      by_cases hlt : (g'.length : Int) > g.length
      · rw [if_pos hlt] at k2 k3 k4 k5
        have hn : g'.length = g.length + 1 := by omega
        refine ⟨(x, .added) :: l, .draw h h2 (by simpa using h3) (by rw [hn] at k1; exact k1), ?_⟩
        simp only [times_cons, List.length_cons, reduceCtorEq, if_true, if_false]
        dsimp only at k2 k3 k4 k5
        omega
      · rw [if_neg hlt] at k2 k3 k4 k5
        have hn : g'.length = g.length := by omega
        refine ⟨(x, .known) :: l, .draw h h2 (by simpa using h3) (by rw [hn] at k1; exact k1), ?_⟩
        simp only [times_cons, List.length_cons, reduceCtorEq, if_true, if_false]
        dsimp only at k2 k3 k4 k5
        omega
    | throws => cases hst
    | ub => cases hst
  obtain ⟨l, k1, k2, k3, k4, k5⟩ := key s g _ _ hr hsz st rfl
  dsimp only at k2 k3 k4 k5
  exact ⟨l, k1, by omega, by omega, by omega, by omega⟩

/-- The run of Prm/Grow.lean: 0 and 5 are added, the second 5 is known, 7 is refused. -/
example {g' : Graph Int Int} (hr : GrowRun (upEnv false) exampleGrow 0 [] ⟨0, 0, 0, 0⟩ (g', .ok ⟨4, 2, 1, 1⟩)) (h : g'.length = 2) :
    ∃ l, Samples exampleGrow 0 0 l 2 ∧ l.length = 4 ∧ times .refused l = 1 ∧ times .added l = 2 ∧ times .known l = 1 := by
  obtain ⟨l, k1, k2, k3, k4, k5⟩ := C66_grow_statistics (upEnv false) exampleGrow (upEnv_sound _) (by decide) (by decide) (by decide) 0 [] g' _ hr
    (by rw [h]; decide)
  rw [h] at k1
  exact ⟨l, k1, k2.symm, k3.symm, k4.symm, k5.symm⟩

namespace Throw

/-- As `Prm.Samples`, for functions that may throw. -/
inductive Samples (ge : GrowEnv σ V ε) : Nat → σ → List (V × Fate) → Nat → Prop
  | stop {n : Nat} {s s1 : σ} (h : ge.terminate s n = (.ok true, s1)) : Samples ge n s [] n
  | draw {n n' : Nat} {s s1 s2 s3 : σ} {x : V} {f : Fate} {l : List (V × Fate)} (h : ge.terminate s n = (.ok false, s1))
      (hs : ge.sample s1 = (.ok x, s2)) (hv : ge.stateValid s2 x = (.ok (decide (f ≠ .refused)), s3)) (rest : Samples ge (f.next n) s3 l n') :
      Samples ge n s ((x, f) :: l) n'

/-- C108: the statistics of a run that nothing interrupted. -/
theorem C108_grow_statistics (e : Env V C ε) (ge : GrowEnv σ V ε) (hs : e.knn.Sound e.dist) (hK : 0 ≤ e.K) (hinf : e.infeasible < 0)
    (hth : InI64 e.threads) (hsym : e.symmetric = true → ∀ a b, e.valid a b = e.valid b a ∧ e.dist a b = e.dist b a) (s : σ) (g g' : Graph V C)
    (st : Stats) (hr : GrowRun e ge s g ⟨0, 0, 0, 0⟩ (g', .ok (.ok st))) (hsz : InI64 g'.length) :
    ∃ l, Samples ge g.length s l g'.length ∧ st.total = l.length ∧ st.failed = times .refused l ∧ st.successful = times .added l ∧
      st.duplicate = times .known l := by
  have key : ∀ (s : σ) (g : Graph V C) (st0 : Stats) (out : Graph V C × Res (Except ε Stats)), GrowRun e ge s g st0 out → InI64 out.1.length →
      ∀ st, out.2 = .ok (.ok st) → ∃ l, Samples ge g.length s l out.1.length ∧ st.total = st0.total + l.length ∧ st.failed = st0.failed + times .refused l ∧
        st.successful = st0.successful + times .added l ∧ st.duplicate = st0.duplicate + times .known l := by
    intro s g st0 out h hsz st hst
    induction h with
    | stop h =>
      cases hst
      exact ⟨[], .stop h, by simp [times]⟩
    | terminateRaises => cases hst
    | sampleRaises => cases hst
    | validRaises => cases hst
    | @failed s g st0 out s1 s2 s3 x h h2 h3 _ ih =>
      obtain ⟨l, k1, k2, k3, k4, k5⟩ := ih hsz hst
      refine ⟨(x, .refused) :: l, .draw h h2 (by simpa using h3) k1, ?_⟩
      simp only [times_cons, List.length_cons, reduceCtorEq, if_true, if_false]
      dsimp only at k2 k3 k4 k5
      omega
    | @grown s g g' st0 out s1 s2 s3 x i h h2 h3 ha rest ih =>
      have hg' : g'.length ≤ out.1.length := grow_length rest
      have hgg : g.length ≤ g'.length := add_length ha
      have hlen := (add_grown e hs hK hinf hsym x g (by unfold InI64 at *; omega) hth ha).2.1
      obtain ⟨l, k1, k2, k3, k4, k5⟩ := ih hsz hst
      by_cases hlt : (g'.length : Int) > g.length
      · rw [if_pos hlt] at k2 k3 k4 k5
        have hn : g'.length = g.length + 1 := by omega
        refine ⟨(x, .added) :: l, .draw h h2 (by simpa using h3) (by rw [hn] at k1; exact k1), ?_⟩
        simp only [times_cons, List.length_cons, reduceCtorEq, if_true, if_false]
        dsimp only at k2 k3 k4 k5
        omega
      · rw [if_neg hlt] at k2 k3 k4 k5
        have hn : g'.length = g.length := by omega
        refine ⟨(x, .known) :: l, .draw h h2 (by simpa using h3) (by rw [hn] at k1; exact k1), ?_⟩
        simp only [times_cons, List.length_cons, reduceCtorEq, if_true, if_false]
        dsimp only at k2 k3 k4 k5
        omega
    | addRaises => cases hst
    | addThrows => cases hst
    | addUb => cases hst
  obtain ⟨l, k1, k2, k3, k4, k5⟩ := key s g _ _ hr hsz st rfl
  dsimp only at k2 k3 k4 k5
  exact ⟨l, k1, by omega, by omega, by omega, by omega⟩

/-- The roadmap has the state 0. The state 7 is sampled and refused, then 0 is sampled and known. -/
example : ∃ ge : GrowEnv Nat Int String, GrowRun Demo.env ge 0 [⟨0, [], []⟩] ⟨0, 0, 0, 0⟩ ([⟨0, [], []⟩], .ok (.ok ⟨2, 0, 1, 1⟩)) ∧
    ∃ l, Samples ge 1 0 l 1 ∧ l.length = 2 ∧ times .refused l = 1 ∧ times .added l = 0 ∧ times .known l = 1 := by
  let ge : GrowEnv Nat Int String := ⟨fun s => (.ok (if s = 0 then 7 else 0), s + 1), fun s q => (.ok (decide (q < 6)), s), fun s _ => (.ok (decide (s = 2)), s)⟩
  have r := AddNodeRun.duplicate (ops := graphOps) (e := Demo.env) (state := 0) (dir := .roadmapToNew) (maxNode := 1)
      (g := [(⟨0, [], []⟩ : Node Int Int)]) (d := ⟨0, 0⟩) (Demo.env_query 0 .roadmapToNew) rfl rfl
  have hr : GrowRun Demo.env ge 0 [⟨0, [], []⟩] ⟨0, 0, 0, 0⟩ ([⟨0, [], []⟩], .ok (.ok ⟨2, 0, 1, 1⟩)) :=
    .failed rfl rfl rfl (.grown rfl rfl rfl r (.stop rfl))
  refine ⟨ge, hr, ?_⟩
  obtain ⟨l, k1, k2, k3, k4, k5⟩ := C108_grow_statistics Demo.env ge Demo.env_sound (by decide) (by decide) (by decide) (by intro h; cases h) 0 _ _ _ hr
    (by decide)
  exact ⟨l, k1, k2.symm, k3.symm, k4.symm, k5.symm⟩

end Throw
end CRU.Prm
