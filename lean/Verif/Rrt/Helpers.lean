import Verif.Rrt.Kinematic
import Verif.Knn.Props
import Verif.Utility.Props
/-
  C63, C64: the helper functions for planners: timeouts, sampling, choice of tree, nearest neighbours.
-/
namespace CRU.Rrt
open CRU.Fl CRU.Util CRU.Knn CRU.Parallel

variable {V S σ : Type}

/-! ### Timeouts: model -/

/-- simple_rrt_planner.hpp:1363-1366 `TimeoutCheckHelper`: the timeout in seconds and the start time, a reading of the
steady clock in nanoseconds. -/
structure Timer where
  timeout : ℚ
  start : Option Int
  deriving DecidableEq

/-- simple_rrt_planner.hpp:1369-1376, the constructor. (A NaN timeout is accepted by the code; doubles are finite here.) -/
def makeTimer (timeout : ℚ) : Res Timer := if timeout ≤ 0 then .throw .runtimeError else .ok ⟨timeout, none⟩

/-- simple_rrt_planner.hpp:1382-1383: comparison of `duration<int64_t, nano>` with `duration<double>` takes place in
`duration<double, nano>`. -/
def Timer.late (fl : ℚ → ℚ) (t : Timer) (start now : Int) : Bool := decide (fl (t.timeout * 1000000000) < fl ((now - start : Int) : ℚ))

/-- simple_rrt_planner.hpp:1378-1390 `Check`; `now` is the clock reading. -/
def Timer.check (fl : ℚ → ℚ) (t : Timer) (now : Int) : Res Bool :=
  match t.start with
  | some s => .ok (t.late fl s now)
  | none => .throw .runtimeError

/-- simple_rrt_planner.hpp:1405-1410 `Start`. -/
def Timer.begin (t : Timer) (now : Int) : Timer := { t with start := some now }

/-- simple_rrt_planner.hpp:1412-1416 `Reset`. -/
def Timer.reset (t : Timer) : Timer := { t with start := none }

/-- simple_rrt_planner.hpp:1392-1403 `CheckOrStart`. -/
def Timer.checkOrStart (fl : ℚ → ℚ) (t : Timer) (now : Int) : Bool × Timer :=
  match t.start with
  | some s => (t.late fl s now, t)
  | none => (false, t.begin now)

/-- Successive calls of a termination function made by simple_rrt_planner.hpp:1423-1450 (both helpers); `nows` are the
clock readings. -/
def timeoutAnswers (fl : ℚ → ℚ) : Timer → List Int → List Bool
  | _, [] => []
  | t, now :: nows => (t.checkOrStart fl now).1 :: timeoutAnswers fl (t.checkOrStart fl now).2 nows

/-! ### Timeouts: theorems -/

/-- C63. A timeout that is not positive is rejected, checking before starting throws, after a reset too. -/
theorem C63_rejects (fl : ℚ → ℚ) (timeout : ℚ) (now : Int) :
    (timeout ≤ 0 → makeTimer timeout = .throw .runtimeError) ∧
    (0 < timeout → ∃ t, makeTimer timeout = .ok t ∧ t.timeout = timeout ∧ t.check fl now = .throw .runtimeError) ∧
    (∀ t : Timer, t.reset.check fl now = .throw .runtimeError) := by
  refine ⟨fun h => by simp [makeTimer, h], fun h => ⟨⟨timeout, none⟩, by simp [makeTimer, not_le.mpr h], rfl, rfl⟩, fun t => rfl⟩

theorem answers_started (fl : ℚ → ℚ) (t : Timer) (s : Int) (nows : List Int) (h : t.start = some s) :
    timeoutAnswers fl t nows = nows.map fun n => t.late fl s n := by
  induction nows with
  | nil => rfl
  | cons n nows ih => simp [timeoutAnswers, Timer.checkOrStart, h, ih]

/-- C63. The first call of a timeout function answers no, whenever it is made; each later call answers whether more than
the timeout has passed since the first. If the clock never goes back, no call after a yes answers no. -/
theorem C63_timeout_function {fl : ℚ → ℚ} (hfl : Nearest 53 (-1074) fl) {timeout : ℚ} {t : Timer} (h : makeTimer timeout = .ok t)
    (first : Int) (nows : List Int) :
    timeoutAnswers fl t (first :: nows) =
      false :: nows.map (fun n => decide (fl (timeout * 1000000000) < fl ((n - first : Int) : ℚ))) ∧
    ((first :: nows).Pairwise (· ≤ ·) → (timeoutAnswers fl t (first :: nows)).Pairwise (fun a b => a = true → b = true)) := by
  unfold makeTimer at h
  split at h
  · cases h
  · simp only [Res.ok.injEq] at h
    subst h
    have e1 : timeoutAnswers fl ⟨timeout, none⟩ (first :: nows) =
      false :: nows.map (fun n => decide (fl (timeout * 1000000000) < fl ((n - first : Int) : ℚ))) := by
      show false :: timeoutAnswers fl ⟨timeout, some first⟩ nows = _
      rw [answers_started fl _ first nows rfl]
      rfl
    refine ⟨e1, fun hp => ?_⟩
    rw [e1]
    rw [List.pairwise_cons] at hp
    refine List.pairwise_cons.mpr ⟨by simp, ?_⟩
    rw [List.pairwise_map]
    refine hp.2.imp ?_
    intro a b hab ha
    simp only [decide_eq_true_eq] at ha ⊢
    exact lt_of_lt_of_le ha (hfl.mono (by exact_mod_cast (by omega : a - first ≤ b - first)))

/-- C63. The answer is exact up to one rounding of the timeout: yes once more than `timeout * (1 + 2^-53)` has passed, no
as long as less than `timeout * (1 - 2^-53)` has (intervals up to 2^53 nanoseconds, 104 days). -/
theorem C63_accuracy {fl : ℚ → ℚ} (hfl : Nearest 53 (-1074) fl) {t : Timer} (h0 : (2 : ℚ) ^ (-1022 : Int) ≤ t.timeout * 1000000000)
    {start now : Int} (hs : start ≤ now) (he : now - start ≤ 2 ^ 53) :
    (t.timeout * 1000000000 * (1 + 2 ^ (-53 : Int)) < ((now - start : Int) : ℚ) → (t.begin start).check fl now = .ok true) ∧
    (((now - start : Int) : ℚ) < t.timeout * 1000000000 * (1 - 2 ^ (-53 : Int)) → (t.begin start).check fl now = .ok false) := by
  have hpos : 0 < t.timeout * 1000000000 := lt_of_lt_of_le (two_zpow_pos _) h0
  have hr : fl ((now - start : Int) : ℚ) = ((now - start : Int) : ℚ) :=
    hfl.fix (rep_int (by norm_num) (by norm_num) (by rw [abs_of_nonneg (by omega)]; exact he))
  have herr := hfl.rel_err (by norm_num) (x := t.timeout * 1000000000) (by rw [abs_of_pos hpos]; simpa using h0)
  rw [abs_of_pos hpos, show (2 : ℚ) ^ (-((53 : Nat) : Int)) = 2 ^ (-53 : Int) from rfl] at herr
  obtain ⟨h1, h2⟩ := abs_le.mp herr
  have hc : (t.begin start).check fl now = .ok (decide (fl (t.timeout * 1000000000) < fl ((now - start : Int) : ℚ))) := rfl
  rw [hc, hr]
  constructor
  · intro h
    congr 1
    exact decide_eq_true (by linarith)
  · intro h
    congr 1
    exact decide_eq_false (by linarith)

example : ∃ t, makeTimer 2 = .ok t ∧ timeoutAnswers (nearest 53 (-1074)) t [50, 51, 2000000050, 2000000051, 9000000000] =
    [false, false, false, true, true] := ⟨⟨2, none⟩, by decide +kernel, by decide +kernel⟩

/-- Planning with a timeout function: the termination check of `e` is replaced; `clock` reads the clock. (simple_rrt_planner.hpp:1423-1435) -/
def Env.withTimeout (fl : ℚ → ℚ) (clock : σ → Int) (e : Env σ V S) : Env (σ × Timer) V S where
  sample s := ((e.sample s.1).1, ((e.sample s.1).2, s.2))
  nearest s t x := ((e.nearest s.1 t x).1, ((e.nearest s.1 t x).2, s.2))
  propagate s q x := ((e.propagate s.1 q x).1, ((e.propagate s.1 q x).2, s.2))
  stateAdded := e.stateAdded.map fun f s t i => ((f s.1 t i).1, ((f s.1 t i).2, s.2))
  goalReached s v := ((e.goalReached s.1 v).1, ((e.goalReached s.1 v).2, s.2))
  goalCallback := e.goalCallback.map fun f s t i => ((f s.1 t i).1, ((f s.1 t i).2, s.2))
  terminate s n := ((s.2.checkOrStart fl (clock s.1)).1, ((e.terminate s.1 n).2, (s.2.checkOrStart fl (clock s.1)).2))

/-- A clock that never goes back during the other functions and advances by at least a nanosecond from one termination
check to the next. -/
structure Env.Clock (e : Env σ V S) (clock : σ → Int) : Prop where
  sample : ∀ s, clock s ≤ clock (e.sample s).2
  nearest : ∀ s t x, clock s ≤ clock (e.nearest s t x).2
  propagate : ∀ s q x, clock s ≤ clock (e.propagate s q x).2
  stateAdded : ∀ f, e.stateAdded = some f → ∀ s t i, clock s ≤ clock (f s t i).2
  goalReached : ∀ s v, clock s ≤ clock (e.goalReached s v).2
  goalCallback : ∀ f, e.goalCallback = some f → ∀ s t i, clock s ≤ clock (f s t i).2
  terminate : ∀ s n, clock s < clock (e.terminate s n).2

/-- Upper bound, in nanoseconds, on the time at which the timer answers yes. -/
def Timer.limit (t : Timer) : Nat := ⌈t.timeout * 2000000000⌉.toNat + 1

/-- What is left of the time. -/
def timeLeft (clock : σ → Int) (s : σ × Timer) : Nat :=
  match s.2.start with
  | none => s.2.limit + 2
  | some s0 => (s0 + s.2.limit + 1 - clock s.1).toNat

theorem late_of_limit {fl : ℚ → ℚ} (hfl : Nearest 53 (-1074) fl) (t : Timer) {start now : Int}
    (h : (t.limit : Int) < now - start) : t.late fl start now = true := by
  unfold Timer.late
  refine decide_eq_true ?_
  have h1 : t.timeout * 2000000000 + 1 < ((now - start : Int) : ℚ) := by
    have a1 := Int.le_ceil (t.timeout * 2000000000)
    have a2 : ⌈t.timeout * 2000000000⌉ ≤ ((⌈t.timeout * 2000000000⌉.toNat : Nat) : Int) := Int.self_le_toNat _
    have a3 : ⌈t.timeout * 2000000000⌉ + 1 < now - start := by unfold Timer.limit at h; push_cast at h; omega
    have a4 : ((⌈t.timeout * 2000000000⌉ : Int) : ℚ) + 1 < ((now - start : Int) : ℚ) := by exact_mod_cast a3
    linarith
  -- a rounded number is at most twice it plus one half
  set T := t.timeout * 1000000000 with hT
  have h1' : 2 * T + 1 < ((now - start : Int) : ℚ) := by rw [hT]; linarith
  have hn1 : (1 : ℚ) ≤ ((now - start : Int) : ℚ) := by
    have : (0 : Int) ≤ t.limit := by omega
    have : 1 ≤ now - start := by omega
    exact_mod_cast this
  have hone : fl 1 = 1 := hfl.fix (by simpa using rep_int (p := 53) (emin := -1074) (i := 1) (by norm_num) (by norm_num) (by norm_num))
  have rel : ∀ x : ℚ, 1 ≤ |x| → |fl x - x| ≤ 2 ^ (-53 : Int) * |x| := fun x hx =>
    hfl.rel_err (by norm_num) (le_trans (by
      calc (2 : ℚ) ^ ((-1074 : Int) + (53 : Nat) - 1) ≤ 2 ^ (0 : Int) := zpow_le_zpow_right₀ (by norm_num) (by norm_num)
        _ = 1 := by norm_num) hx)
  have hq : (2 : ℚ) ^ (-53 : Int) ≤ 1 / 8 := by norm_num
  have hq0 : (0 : ℚ) < 2 ^ (-53 : Int) := two_zpow_pos _
  by_cases hT1 : 1 ≤ T
  · have e1 := (abs_le.mp (rel T (by rw [abs_of_nonneg (by linarith)]; exact hT1))).2
    have e2 := (abs_le.mp (rel ((now - start : Int) : ℚ) (by rw [abs_of_nonneg (by linarith)]; exact hn1))).1
    rw [abs_of_nonneg (by linarith)] at e1
    rw [abs_of_nonneg (by linarith)] at e2
    have e3 : 2 ^ (-53 : Int) * T ≤ 1 / 8 * T := mul_le_mul_of_nonneg_right hq (by linarith)
    have e4 : 2 ^ (-53 : Int) * ((now - start : Int) : ℚ) ≤ 1 / 8 * ((now - start : Int) : ℚ) := mul_le_mul_of_nonneg_right hq (by linarith)
    generalize ((now - start : Int) : ℚ) = N at *
    generalize (2 : ℚ) ^ (-53 : Int) * T = p1 at *
    generalize (2 : ℚ) ^ (-53 : Int) * N = p2 at *
    linarith
  · have e1 : fl T ≤ 1 := by rw [← hone]; exact hfl.mono (by linarith)
    have hn2 : (2 : ℚ) ≤ ((now - start : Int) : ℚ) := by
      have : 2 ≤ now - start := by unfold Timer.limit at h; push_cast at h; omega
      exact_mod_cast this
    have e2 : fl 2 = 2 := hfl.fix (by simpa using rep_int (p := 53) (emin := -1074) (i := 2) (by norm_num) (by norm_num) (by norm_num))
    have := hfl.mono hn2
    rw [e2] at this
    linarith

theorem timeLeft_mono {clock : σ → Int} {a b : σ} {t : Timer} (h : clock a ≤ clock b) :
    timeLeft clock (b, t) ≤ timeLeft clock (a, t) := by
  unfold timeLeft
  cases t.start with
  | none => exact Nat.le_refl _
  | some s0 => dsimp only; omega

theorem withTimeout_bounded {fl : ℚ → ℚ} (hfl : Nearest 53 (-1074) fl) {e : Env σ V S} {clock : σ → Int} (hc : e.Clock clock) :
    (e.withTimeout fl clock).Bounded (timeLeft clock) := by
  refine ⟨fun s => timeLeft_mono (hc.sample _), fun s t x => timeLeft_mono (hc.nearest _ _ _),
    fun s q x => timeLeft_mono (hc.propagate _ _ _), ?_, fun s v => timeLeft_mono (hc.goalReached _ _), ?_, ?_⟩
  · intro f hf s t i
    simp only [Env.withTimeout, Option.map_eq_some_iff] at hf
    obtain ⟨f', hf', rfl⟩ := hf
    exact timeLeft_mono (hc.stateAdded f' hf' _ _ _)
  · intro f hf s t i
    simp only [Env.withTimeout, Option.map_eq_some_iff] at hf
    obtain ⟨f', hf', rfl⟩ := hf
    exact timeLeft_mono (hc.goalCallback f' hf' _ _ _)
  · rintro ⟨c, t⟩ n h
    have ht := hc.terminate c n
    simp only [Env.withTimeout] at h ⊢
    unfold Timer.checkOrStart at h ⊢
    cases hs : t.start with
    | none =>
      simp only [timeLeft, Timer.begin, hs]
      show (clock c + t.limit + 1 - clock (e.terminate c n).2).toNat < _
      omega
    | some s0 =>
      rw [hs] at h
      dsimp only at h
      have hle : ¬ ((t.limit : Int) < clock c - s0) := fun hh => by rw [late_of_limit hfl t hh] at h; cases h
      simp only [timeLeft, hs]
      omega

/-- C63. With a timeout function, planning returns: whatever the other functions do, as long as the clock advances. -/
theorem C63_rrt_ends {fl : ℚ → ℚ} (hfl : Nearest 53 (-1074) fl) (e : Env σ V S) (hro : e.ReadOnly) (hw : e.WellFormed)
    (clock : σ → Int) (hc : e.Clock clock) (t₀ : Tree V) (s : σ) (timer : Timer) (hl : Linked t₀) (hne : t₀ ≠ [])
    (hcb : e.goalCallback ≠ none) :
    ∃ fuel t s' r, rrtPlanMultiPath (e.withTimeout fl clock) fuel t₀ (s, timer) = some ((t, s'), .ok r) := by
  refine C38_returns (e.withTimeout fl clock) ⟨?_, ?_⟩ ⟨fun s t x => hw.nearest _ _ _, fun s q x => hw.propagate _ _ _⟩ _ (withTimeout_bounded hfl hc)
    t₀ (s, timer) hl hne (Or.inl ?_)
  · intro f hf s t i
    simp only [Env.withTimeout, Option.map_eq_some_iff] at hf
    obtain ⟨f', hf', rfl⟩ := hf
    exact hro.1 f' hf' _ _ _
  · intro f hf s t i
    simp only [Env.withTimeout, Option.map_eq_some_iff] at hf
    obtain ⟨f', hf', rfl⟩ := hf
    exact hro.2 f' hf' _ _ _
  · simp only [Env.withTimeout, ne_eq, Option.map_eq_none_iff]
    exact hcb

/-- The same for the bidirectional planner. (simple_rrt_planner.hpp:1437-1450) -/
def BiEnv.withTimeout (fl : ℚ → ℚ) (clock : σ → Int) (e : BiEnv σ V) : BiEnv (σ × Timer) V where
  selectSample s a b x := ((e.selectSample s.1 a b x).1, ((e.selectSample s.1 a b x).2, s.2))
  stateSample s := ((e.stateSample s.1).1, ((e.stateSample s.1).2, s.2))
  treeSample s t x := ((e.treeSample s.1 t x).1, ((e.treeSample s.1 t x).2, s.2))
  nearest s t v x := ((e.nearest s.1 t v x).1, ((e.nearest s.1 t v x).2, s.2))
  propagate s q v x := ((e.propagate s.1 q v x).1, ((e.propagate s.1 q v x).2, s.2))
  stateAdded := e.stateAdded.map fun f s t i x => ((f s.1 t i x).1, ((f s.1 t i x).2, s.2))
  connected s a b x := ((e.connected s.1 a b x).1, ((e.connected s.1 a b x).2, s.2))
  bridgeCallback := e.bridgeCallback.map fun f s a i b j x => ((f s.1 a i b j x).1, ((f s.1 a i b j x).2, s.2))
  selectActive s a b x := ((e.selectActive s.1 a b x).1, ((e.selectActive s.1 a b x).2, s.2))
  terminate s m n := ((s.2.checkOrStart fl (clock s.1)).1, ((e.terminate s.1 m n).2, (s.2.checkOrStart fl (clock s.1)).2))

/-- A clock that never goes back and advances from one termination check to the next. -/
structure BiEnv.Clock (e : BiEnv σ V) (clock : σ → Int) : Prop where
  selectSample : ∀ s a b x, clock s ≤ clock (e.selectSample s a b x).2
  stateSample : ∀ s, clock s ≤ clock (e.stateSample s).2
  treeSample : ∀ s t x, clock s ≤ clock (e.treeSample s t x).2
  nearest : ∀ s t v x, clock s ≤ clock (e.nearest s t v x).2
  propagate : ∀ s q v x, clock s ≤ clock (e.propagate s q v x).2
  stateAdded : ∀ f, e.stateAdded = some f → ∀ s t i x, clock s ≤ clock (f s t i x).2
  connected : ∀ s a b x, clock s ≤ clock (e.connected s a b x).2
  bridgeCallback : ∀ f, e.bridgeCallback = some f → ∀ s a i b j x, clock s ≤ clock (f s a i b j x).2
  selectActive : ∀ s a b x, clock s ≤ clock (e.selectActive s a b x).2
  terminate : ∀ s m n, clock s < clock (e.terminate s m n).2

theorem biWithTimeout_bounded {fl : ℚ → ℚ} (hfl : Nearest 53 (-1074) fl) {e : BiEnv σ V} {clock : σ → Int} (hc : e.Clock clock) :
    (e.withTimeout fl clock).Bounded (timeLeft clock) := by
  refine ⟨fun s a b x => timeLeft_mono (hc.selectSample _ _ _ _), fun s => timeLeft_mono (hc.stateSample _),
    fun s t x => timeLeft_mono (hc.treeSample _ _ _), fun s t v x => timeLeft_mono (hc.nearest _ _ _ _),
    fun s q v x => timeLeft_mono (hc.propagate _ _ _ _), ?_, fun s a b x => timeLeft_mono (hc.connected _ _ _ _), ?_,
    fun s a b x => timeLeft_mono (hc.selectActive _ _ _ _), ?_⟩
  · intro f hf s t i x
    simp only [BiEnv.withTimeout, Option.map_eq_some_iff] at hf
    obtain ⟨f', hf', rfl⟩ := hf
    exact timeLeft_mono (hc.stateAdded f' hf' _ _ _ _)
  · intro f hf s a i b j x
    simp only [BiEnv.withTimeout, Option.map_eq_some_iff] at hf
    obtain ⟨f', hf', rfl⟩ := hf
    exact timeLeft_mono (hc.bridgeCallback f' hf' _ _ _ _ _ _)
  · rintro ⟨c, t⟩ m n h
    have ht := hc.terminate c m n
    simp only [BiEnv.withTimeout] at h ⊢
    unfold Timer.checkOrStart at h ⊢
    cases hs : t.start with
    | none =>
      simp only [timeLeft, Timer.begin, hs]
      show (clock c + t.limit + 1 - clock (e.terminate c m n).2).toNat < _
      omega
    | some s0 =>
      rw [hs] at h
      dsimp only at h
      have hle : ¬ ((t.limit : Int) < clock c - s0) := fun hh => by rw [late_of_limit hfl t hh] at h; cases h
      simp only [timeLeft, hs]
      omega

/-- C63. The same for the bidirectional planner. -/
theorem C63_birrt_ends {fl : ℚ → ℚ} (hfl : Nearest 53 (-1074) fl) (e : BiEnv σ V) (hro : e.ReadOnly) (hw : e.WellFormed)
    (clock : σ → Int) (hc : e.Clock clock) (a₀ b₀ : Tree V) (s : σ) (timer : Timer) (ha : Linked a₀) (hb : Linked b₀)
    (hna : a₀ ≠ []) (hnb : b₀ ≠ []) (hcb : e.bridgeCallback ≠ none) :
    ∃ fuel a b s' r, biRRTPlanMultiPath (e.withTimeout fl clock) fuel a₀ b₀ (s, timer) = some ((a, b, s'), .ok r) := by
  refine C39_returns (e.withTimeout fl clock) ⟨?_, ?_⟩ ⟨fun s t x => hw.treeSample _ _ _, fun s t v x => hw.nearest _ _ _ _,
    fun s q v x => hw.propagate _ _ _ _⟩ _ (biWithTimeout_bounded hfl hc) a₀ b₀ (s, timer) ha hb hna hnb ?_
  · intro f hf s t i x
    simp only [BiEnv.withTimeout, Option.map_eq_some_iff] at hf
    obtain ⟨f', hf', rfl⟩ := hf
    exact hro.1 f' hf' _ _ _ _
  · intro f hf s a i b j x
    simp only [BiEnv.withTimeout, Option.map_eq_some_iff] at hf
    obtain ⟨f', hf', rfl⟩ := hf
    exact hro.2 f' hf' _ _ _ _ _ _
  · simp only [BiEnv.withTimeout, ne_eq, Option.map_eq_none_iff]
    exact hcb

/-! ### Sampling and choice: model -/

/-- simple_rrt_planner.hpp:1453-1478 `MakeUniformRandomBiRRTSelectSampleTypeFunction`: from the value drawn, whether to
sample from a tree. -/
def makeSelectSample (bias : ℚ) : Res (ℚ → Bool) :=
  if bias ≥ 0 ∧ bias ≤ 1 then .ok fun u => decide (u ≤ bias) else .throw .invalidArgument

/-- simple_rrt_planner.hpp:1480-1512 `MakeUniformRandomBiRRTSelectActiveTreeFunction`. -/
def makeSelectActive (p : ℚ) : Res (ℚ → Side → Side) :=
  if p ≥ 0 ∧ p ≤ 1 then
    .ok fun u x => if u ≤ p then (if x = .start then .goal else .start) else x
  else .throw .invalidArgument

/-- simple_rrt_planner.hpp:1544-1559, construction of `StateAndGoalsSamplingFunction`. -/
def checkGoalSampling (bias : ℚ) (goals : List S) : Res Unit :=
  if bias < 0 ∨ bias > 1 then .throw .invalidArgument
  else if goals.isEmpty then .throw .invalidArgument
  else .ok ()

/-- simple_rrt_planner.hpp:1561-1580 `Sample`: `unit` draws from [0, 1), `state` samples a state. -/
def goalSample (fl : ℚ → ℚ) (unit : σ → ℚ × σ) (state : σ → S × σ) (goals : List S) (bias : ℚ) (s : σ) : Res (S × σ) :=
  let u := unit s
  if u.1 > bias then .ok (state u.2)
  else if goals.length = 1 then do
    let g ← atChecked goals 0
    pure (g, u.2)
  else do
    let v := unit u.2
    let i ← randomIndex fl u64 v.1 goals.length
    let g ← atInt goals i
    pure (g, v.2)

/-- simple_rrt_planner.hpp:1591-1604 `MakeUniformRandomBiRRTTreeSamplingFunction`. -/
def treeSample (fl : ℚ → ℚ) (u : ℚ) (t : Tree V) : Res Int := randomIndex fl i64 u t.length

/-- simple_rrt_planner.hpp:1610-1645, 1652-1663 and 1669-1702: nearest neighbour by linear search, serial or parallel.
`out` is the outcome of one run. -/
def NearestRun {D : Type} [LinearOrder D] (ps : Nat → List (Entry D) → List (Entry D)) (b : Backend) (threads : Int)
    (dist : V → S → D) (t : Tree V) (x : S) (out : Res Int) : Prop :=
  ∃ r, KnnRun ps b threads t (fun n => dist n.value x) 0 t.length 1 r ∧
    out = r.bind fun l => if l.length > 0 then (atChecked l 0).bind fun e => .ok e.index else .throw .runtimeError

/-! ### Sampling and choice: theorems -/

/-- C64. A bias outside [0, 1] is rejected by all three helpers, and an empty list of goals by the sampling helper. -/
theorem C64_rejects (bias : ℚ) (goals : List S) (h : bias < 0 ∨ 1 < bias) :
    makeSelectSample bias = .throw .invalidArgument ∧ makeSelectActive bias = .throw .invalidArgument ∧
    checkGoalSampling bias goals = .throw .invalidArgument ∧
    checkGoalSampling (1 / 2) ([] : List S) = .throw .invalidArgument := by
  have h' : ¬ (bias ≥ 0 ∧ bias ≤ 1) := by rintro ⟨a, b⟩; rcases h with h | h <;> linarith
  refine ⟨by simp only [makeSelectSample, h', if_false], by simp only [makeSelectActive, h', if_false], ?_, ?_⟩
  · unfold checkGoalSampling; rw [if_pos h]
  · unfold checkGoalSampling; rw [if_neg (by norm_num)]; rfl

/-- C64. For draws in [0, 1): bias 1 always samples a tree, always switches and always samples a goal; bias 0 never does,
unless exactly 0 is drawn. -/
theorem C64_extremes {fl : ℚ → ℚ} {u : ℚ} (h0 : 0 ≤ u) (h1 : u < 1) :
    (∃ f g, makeSelectSample 1 = .ok f ∧ makeSelectActive 1 = .ok g ∧ f u = true ∧ ∀ x, g u x ≠ x) ∧
    (∃ f g, makeSelectSample 0 = .ok f ∧ makeSelectActive 0 = .ok g ∧ (f u = true ↔ u = 0) ∧ ∀ x, g u x ≠ x ↔ u = 0) ∧
    (∀ (unit : σ → ℚ × σ) (state : σ → S × σ) (goals : List S) (s : σ), (unit s).1 = u →
      (0 < u → goalSample fl unit state goals 0 s = .ok (state (unit s).2)) ∧
      ∀ r, goalSample fl unit state goals 1 s = .ok r → r.1 ∈ goals) := by
  refine ⟨⟨_, _, if_pos (by norm_num), if_pos (by norm_num), decide_eq_true h1.le, fun x => ?_⟩,
    ⟨_, _, if_pos (by norm_num), if_pos (by norm_num), ?_, fun x => ?_⟩, ?_⟩
  · rw [if_pos h1.le]; cases x <;> simp
  · simp only [decide_eq_true_eq]; exact ⟨fun h => le_antisymm h h0, fun h => h.le⟩
  · by_cases hu : u ≤ 0
    · rw [if_pos hu]
      have : u = 0 := le_antisymm hu h0
      cases x <;> simp [this]
    · rw [if_neg hu]
      have : u ≠ 0 := fun h => hu h.le
      simp [this]
  · intro unit state goals s hu
    refine ⟨fun hpos => ?_, fun r hr => ?_⟩
    · unfold goalSample; dsimp only; rw [if_pos (by rw [hu]; exact hpos)]
    · unfold goalSample at hr
      dsimp only at hr
      rw [if_neg (by rw [hu]; exact not_lt.mpr h1.le)] at hr
      split at hr
      · obtain ⟨g, hg, hr⟩ := Res.bind_eq_ok.mp hr
        simp only [Res.pure_eq, Res.ok.injEq] at hr
        subst hr
        unfold atChecked at hg
        split at hg
        · next x hx => cases hg; exact List.mem_of_getElem? hx
        · cases hg
      · obtain ⟨i, -, hr⟩ := Res.bind_eq_ok.mp hr
        obtain ⟨g, hg, hr⟩ := Res.bind_eq_ok.mp hr
        simp only [Res.pure_eq, Res.ok.injEq] at hr
        subst hr
        by_cases hin : 0 ≤ i ∧ i.toNat < goals.length
        · rw [CRU.atInt_ok goals i hin.1 hin.2] at hg
          cases hg
          exact List.getElem_mem _
        · rw [CRU.atInt_none goals i hin] at hg
          cases hg

/-- C64. Sampling states and goals never throws after construction and yields either a state sample or one of the goals:
a state exactly when more than the bias is drawn. -/
theorem C64_goal_sampling {fl : ℚ → ℚ} (hfl : Nearest 53 (-1074) fl) (unit : σ → ℚ × σ) (state : σ → S × σ) (goals : List S)
    (bias : ℚ) (hunit : ∀ s, 0 ≤ (unit s).1 ∧ (unit s).1 < 1 ∧ Rep 53 (-1074) (unit s).1)
    (hc : checkGoalSampling bias goals = .ok ()) (hlen : goals.length ≤ u64.hi) (s : σ) :
    ∃ r, goalSample fl unit state goals bias s = .ok r ∧
      ((bias < (unit s).1 ∧ r = state (unit s).2) ∨ ((unit s).1 ≤ bias ∧ r.1 ∈ goals)) := by
  have hne : goals ≠ [] := by
    rintro rfl
    unfold checkGoalSampling at hc
    split at hc <;> cases hc
  have hpos : 1 ≤ goals.length := List.length_pos_iff.mpr hne
  unfold goalSample
  dsimp only
  by_cases hu : (unit s).1 > bias
  · rw [if_pos hu]; exact ⟨_, rfl, Or.inl ⟨hu, rfl⟩⟩
  · rw [if_neg hu]
    by_cases h1 : goals.length = 1
    · rw [if_pos h1]
      have hg : goals[0]? = some goals[0] := by simp
      refine ⟨(goals[0], (unit s).2), ?_, Or.inr ⟨not_lt.mp hu, by simp⟩⟩
      simp [atChecked, hg]
    · rw [if_neg h1]
      obtain ⟨a, b, c⟩ := hunit (unit s).2
      obtain ⟨i, hi, i0, i1⟩ := C46_index_in_range hfl (t := u64) (by simp [u64]) c a b (size := (goals.length : Int)) (by omega) hlen
      have hi1 : i.toNat < goals.length := by omega
      refine ⟨(goals[i.toNat], (unit (unit s).2).2), ?_, Or.inr ⟨not_lt.mp hu, by simp⟩⟩
      rw [hi]
      simp only [Res.ok_bind]
      have : atInt goals i = .ok goals[i.toNat] := by
        unfold atInt; rw [if_neg (by omega)]; simp [atChecked, hi1]
      rw [this]; rfl

/-- C64. The tree sampling function returns the index of a node of the tree; for an empty tree it throws. -/
theorem C64_tree_sampling {fl : ℚ → ℚ} (hfl : Nearest 53 (-1074) fl) {u : ℚ} (h0 : 0 ≤ u) (h1 : u < 1) (hr : Rep 53 (-1074) u)
    (t : Tree V) (hlen : t.length ≤ i64.hi) :
    (t ≠ [] → ∃ i : Int, treeSample fl u t = .ok i ∧ ∃ n, getNode t i = .ok n) ∧
    (t = [] → treeSample fl u t = .throw .invalidArgument) := by
  constructor
  · intro hne
    have hpos : 1 ≤ t.length := List.length_pos_iff.mpr hne
    obtain ⟨i, hi, i0, i1⟩ := C46_index_in_range hfl (t := i64) (by simp [i64]) hr h0 h1 (size := (t.length : Int)) (by omega) hlen
    obtain ⟨n, hn, -⟩ := getNode_in (t := t) (i := i) (by omega) (by omega)
    exact ⟨i, hi, n, hn⟩
  · rintro rfl
    exact C46_empty_throws fl i64 u (by simp)

/-- C64. No goal and no node is left out (up to 2^50 of them): for each node there is a draw for which the tree sampling function returns it, and for
each goal a second draw for which the goal is sampled whenever the first draw chose to sample a goal. -/
theorem C64_sampling_onto {fl : ℚ → ℚ} (hfl : Nearest 53 (-1074) fl) :
    (∀ (t : Tree V) (i : Nat), t.length ≤ 2 ^ 50 → i < t.length → ∃ u, Rep 53 (-1074) u ∧ 0 ≤ u ∧ u < 1 ∧ treeSample fl u t = .ok i) ∧
    (∀ (goals : List S) (g : S), goals.length ≤ 2 ^ 50 → g ∈ goals → ∃ v, Rep 53 (-1074) v ∧ 0 ≤ v ∧ v < 1 ∧
      ∀ (unit : σ → ℚ × σ) (state : σ → S × σ) (bias : ℚ) (s : σ), (unit s).1 ≤ bias → (unit (unit s).2).1 = v →
        ∃ s', goalSample fl unit state goals bias s = .ok (g, s')) := by
  refine ⟨fun t i h50 hi => ?_, fun goals g h50 hg => ?_⟩
  · exact C46_index_onto hfl (t := i64) (by simp [i64]) (size := (t.length : Int)) (by simp only [i64]; omega) (by exact_mod_cast h50) (i := (i : Int))
      (by omega) (by exact_mod_cast hi)
  · obtain ⟨i, hi, rfl⟩ := List.getElem_of_mem hg
    obtain ⟨v, r1, r2, r3, r4⟩ := C46_index_onto hfl (t := u64) (by simp [u64]) (size := (goals.length : Int)) (by simp only [u64]; omega)
      (by exact_mod_cast h50) (i := (i : Int)) (by omega) (by exact_mod_cast hi)
    refine ⟨v, r1, r2, r3, fun unit state bias s h1 h2 => ?_⟩
    unfold goalSample
    dsimp only
    rw [if_neg (not_lt.mpr h1)]
    by_cases hl : goals.length = 1
    · rw [if_pos hl]
      obtain rfl : i = 0 := by omega
      have hg : goals[0]? = some goals[0] := by simp
      exact ⟨(unit s).2, by simp [atChecked, hg]⟩
    · rw [if_neg hl, h2, r4, Res.ok_bind]
      have : atInt goals i = .ok goals[i] := by
        unfold atInt; rw [if_neg (by omega)]; simp [atChecked, hi]
      exact ⟨(unit (unit s).2).2, by rw [this]; rfl⟩

theorem isKNearest_one {D : Type} [LinearOrder D] {dist : Int → D} {n : Nat} (hn : 1 ≤ n) {r : List (Entry D)}
    (h : IsKNearest dist 0 n 1 r) : ∃ e, r = [e] ∧ 0 ≤ e.index ∧ e.index < n ∧ ∀ j, 0 ≤ j → j < (n : Int) → dist e.index ≤ dist j := by
  have hl := h.length
  have : r.length = 1 := by omega
  obtain ⟨e, rfl⟩ := List.length_eq_one_iff.mp this
  have hr := h.inRange e (by simp)
  refine ⟨e, rfl, hr.1, hr.2, ?_⟩
  intro j h0 h1
  by_cases hj : j = e.index
  · rw [hj]
  · rw [← h.trueDist e (by simp)]
    exact h.nearest e (by simp) j h0 h1 (by simpa using hj)

/-- C64. On every run, serial or parallel (threads with distinct numbers), the nearest-neighbour helpers return the index
of a node none is closer than; on an empty tree they throw `std::runtime_error`. -/
theorem C64_nearest {D : Type} [LinearOrder D] (ps : Nat → List (Entry D) → List (Entry D)) (hps : LawfulPartialSort ps)
    (b : Backend) (threads : Int) (dist : V → S → D) (t : Tree V) (x : S) (hI : InI64 t.length) (hth : InI64 threads)
    (h1 : 1 ≤ threads) (htid : ∀ i : Nat, (i : Int) < threads → (b.tid i : Int) < threads)
    (hinj : ∀ i j : Nat, (i : Int) < threads → (j : Int) < threads → b.tid i = b.tid j → i = j)
    (out : Res Int) (hrun : NearestRun ps b threads dist t x out) :
    (t = [] → out = .throw .runtimeError) ∧
    (t ≠ [] → ∃ (i : Nat) (n : Node V), out = .ok (i : Int) ∧ t[i]? = some n ∧ ∀ m ∈ t, dist n.value x ≤ dist m.value x) := by
  obtain ⟨r, hr, rfl⟩ := hrun
  constructor
  · rintro rfl
    have : r = .ok [] := by
      unfold KnnRun at hr
      split at hr
      · simpa [KnnParallelRun] using hr
      · simpa [knnSerial] using hr
    subst this
    rfl
  · intro hne
    have hpos : 1 ≤ t.length := List.length_pos_iff.mpr hne
    let d : Int → D := fun i => match t[i.toNat]? with
      | some n => dist n.value x
      | none => dist (t.head hne).value x
    have hd : ∀ i (h : i < t.length), d (i : Int) = (fun n : Node V => dist n.value x) t[i] := by
      intro i h; simp [d, h]
    have key : ∃ l, r = .ok l ∧ IsKNearest d 0 t.length 1 l := by
      unfold KnnRun at hr
      split at hr
      · obtain ⟨l, hl, hk, -⟩ := C09_parallel_knn_correct ps hps b threads t (fun n => dist n.value x) d hd 0 t.length 1
          (Nat.zero_le _) (Nat.le_refl _) (by norm_num) hI hth h1 htid hinj r hr
        exact ⟨l, hl, hk⟩
      · obtain ⟨l, hl, hk, -⟩ := C08_serial_knn_correct ps hps t (fun n => dist n.value x) d hd 0 t.length 1
          (Nat.zero_le _) (Nat.le_refl _) (by norm_num)
        exact ⟨l, hr.trans hl, hk⟩
    obtain ⟨l, rfl, hk⟩ := key
    obtain ⟨e, rfl, e0, e1, emin⟩ := isKNearest_one hpos hk
    have hlt : e.index.toNat < t.length := by omega
    refine ⟨e.index.toNat, t[e.index.toNat], ?_, by simp [hlt], ?_⟩
    · show Res.ok e.index = _
      congr 1; omega
    · intro m hm
      obtain ⟨j, hj, rfl⟩ := List.mem_iff_getElem.mp hm
      have := emin (j : Int) (by omega) (by omega)
      rw [hd j hj] at this
      have h2 := hd e.index.toNat hlt
      rw [show ((e.index.toNat : Nat) : Int) = e.index by omega] at h2
      rw [h2] at this
      exact this

example : ∃ out, NearestRun psSort .async 3 (fun (v : Nat) (x : Nat) => (v - x) + (x - v))
    [⟨9, -1, [1, 2]⟩, ⟨4, 0, []⟩, ⟨6, 0, []⟩] 5 out ∧ (out = .ok 1 ∨ out = .ok 2) := by
  obtain ⟨r, hr⟩ := C09_parallel_runs_exist psSort 3 ([⟨9, -1, [1, 2]⟩, ⟨4, 0, []⟩, ⟨6, 0, []⟩] : Tree Nat)
    (fun n => (n.value - 5) + (5 - n.value)) 0 0 3 1 (by decide) (by decide) (by decide) (by decide) (by decide)
  refine ⟨_, ⟨r, ?_, rfl⟩, ?_⟩
  · unfold KnnRun; rw [if_pos (by decide)]; exact hr
  · obtain ⟨i, n, h1, h2, h3⟩ := (C64_nearest psSort psSort_lawful .async 3 (fun (v : Nat) (x : Nat) => (v - x) + (x - v))
      [⟨9, -1, [1, 2]⟩, ⟨4, 0, []⟩, ⟨6, 0, []⟩] 5 (by decide) (by decide) (by decide) (by intro t h; exact h)
      (by intro t u _ _ h; exact h) _ ⟨r, by unfold KnnRun; rw [if_pos (by decide)]; exact hr, rfl⟩).2 (by simp)
    rw [h1]
    have hi : i < 3 := by
      by_contra hc
      rw [List.getElem?_eq_none (by simpa using hc)] at h2
      cases h2
    interval_cases i
    · simp at h2
      subst h2
      have := h3 ⟨4, 0, []⟩ (by simp)
      simp at this
    · exact Or.inl rfl
    · exact Or.inr rfl

example : ∃ r, goalSample (nearest 53 (-1074)) (fun s : Nat => (1 / 2, s + 1)) (fun s => (99, s)) [7, 8, 9] (3 / 4) 0 = .ok r ∧
    r = (8, 2) := ⟨_, by decide +kernel, rfl⟩

end CRU.Rrt
