import Verif.Int64
import Verif.Parallel.Spec
/-
  Model of include/common_robotics_utilities/parallelism.hpp.
-/
namespace CRU.Parallel

/-- parallelism.hpp:32-44 `DegreeOfParallelism(num_threads)`; the value is the stored thread count. -/
def mkDegree (numThreads : Int) : Res Int :=
  if numThreads ≥ 1 then .ok numThreads else .throw .invalidArgument

/-- parallelism.hpp:57-103 `CalcStaticThreadRangeStartAndEnd`, with int64 overflow as undefined behaviour.
`Int.tdiv`/`Int.tmod` are C++ `/` and `%`. -/
def calcStatic (rangeStart rangeEnd numThreads threadNum : Int) : Res (Int × Int) :=
  if rangeEnd < rangeStart then .throw .invalidArgument
  else if numThreads < 1 then .throw .invalidArgument
  else if threadNum < 0 ∨ threadNum ≥ numThreads then .throw .invalidArgument
  else do
    let rangeSize ← chk64 (rangeEnd - rangeStart)
    let quotient := rangeSize.tdiv numThreads
    let remainder := rangeSize.tmod numThreads
    let remainderRange ← chk64 (quotient + 1)
    if threadNum < remainder then do
      let off ← chk64 (threadNum * remainderRange)
      let start ← chk64 (rangeStart + off)
      let stop ← chk64 (start + remainderRange)
      pure (start, stop)
    else do
      let off1 ← chk64 (remainder * remainderRange)
      let a ← chk64 (rangeStart + off1)
      let off2 ← chk64 ((threadNum - remainder) * quotient)
      let start ← chk64 (a + off2)
      let stop ← chk64 (start + quotient)
      pure (start, stop)

/-- parallelism.hpp:105-136 `ThreadWorkRange`. -/
structure WorkRange where
  start : Int
  stop : Int
  thread : Int
  deriving DecidableEq, Repr

/-- parallelism.hpp:110-124, the checking constructor. -/
def mkWorkRange (start stop thread : Int) : Res WorkRange :=
  if stop < start then .throw .invalidArgument
  else if thread < 0 then .throw .invalidArgument
  else .ok ⟨start, stop, thread⟩

/-- parallelism.hpp:138 `ParallelForBackend`, after BEST_AVAILABLE has been resolved (lines 174-176, 270-272).
`omp tid`: the OpenMP runtime executes iteration `t` on the team thread `tid t`. -/
inductive Backend where
  | omp (tid : Nat → Nat)
  | async

/-- Thread number passed to the functor for iteration `t` (parallelism.hpp:192 resp. 215). -/
def Backend.tid : Backend → Nat → Nat
  | omp f, t => f t
  | async, t => t

/-- parallelism.hpp:184-194 / 209-225: the work ranges handed to the workers `t, t+1, …` (`k` of them). -/
def staticRanges (b : Backend) (s e : Int) (n : Int) : Nat → Nat → Res (List WorkRange)
  | 0, _ => .ok []
  | k + 1, t => do
    let r ← calcStatic s e n t
    let w ← mkWorkRange r.1 r.2 (b.tid t)
    let ws ← staticRanges b s e n k (t + 1)
    pure (w :: ws)

/-- parallelism.hpp:142-234 `StaticParallelForRangeLoop`: the list of functor calls it makes, one per worker. The calls
of different workers run concurrently; see `Interleaving`. -/
def staticRangeLoop (b : Backend) (threads s e : Int) : Res (List WorkRange) :=
  if e < s then .throw .runtimeError
  else do
    let total ← chk64 (e - s)
    if total = 0 then pure []
    else if ¬ threads > 1 ∨ total = 1 then do
      let w ← mkWorkRange s e 0
      pure [w]
    else
      let real := min threads total
      staticRanges b s e real real.toNat 0

/-- One functor call of an index loop: `functor(thread_num, index)`. (parallelism.hpp:239-251) -/
structure Call where
  thread : Int
  index : Int
  deriving DecidableEq, Repr

/-- parallelism.hpp:430-438 / 453-461 `ranged_functor`: the calls one work range expands to, in order
(`for (index = start; index < end; index++)`). -/
def expand (w : WorkRange) : List Call :=
  (List.range (w.stop - w.start).toNat).map fun (k : Nat) => { thread := w.thread, index := w.start + (k : Int) }

/-- parallelism.hpp:423-442 `StaticParallelForIndexLoop`: per worker, its calls in order. -/
def staticIndexLoop (b : Backend) (threads s e : Int) : Res (List (List Call)) := do
  let ws ← staticRangeLoop b threads s e
  pure (ws.map expand)

/-- parallelism.hpp:280-287, OpenMP `schedule(dynamic)`: the calls for indices `i, i+1, …` (`k` of them); every iteration
is its own unit of work, run by an arbitrary team thread. -/
def dynamicOmpRanges (tid : Int → Nat) : Nat → Int → Res (List WorkRange)
  | 0, _ => .ok []
  | k + 1, i => do
    let w ← mkWorkRange i (i + 1) (tid i)
    let ws ← dynamicOmpRanges tid k (i + 1)
    pure (w :: ws)

/-! ### Dynamic loop, async backend: dispatcher and workers as a transition system -/

/-- Progress of one worker task (parallelism.hpp:382-400): created, inside the functor, past the scope-exit
notification that decrements `num_live_workers` (385-395), future ready. -/
inductive Phase where
  | created | running | notified | ready
  deriving DecidableEq, Repr

/-- An entry of `active_workers`: the arguments the lambda was given, and its progress. (parallelism.hpp:376-403) -/
structure Worker where
  index : Int
  thread : Nat
  phase : Phase
  deriving DecidableEq, Repr

/-- Position of the dispatching thread in the loop at parallelism.hpp:349-417.
`unwind`: `future.get()` rethrew an exception (359) and the stack is being unwound, the destructors of the remaining
`std::async` futures block until their tasks finish. -/
inductive Pc where
  | head | scan (k : Nat) | dispatch | wait | done | unwind | threw | noThreadNumbers
  deriving DecidableEq, Repr

/-- (parallelism.hpp:302-347) -/
structure DynState where
  pc : Pc
  dispatched : Nat
  live : Nat
  queue : List Nat
  active : List Worker
  /-- history variable: functor calls started so far, latest first -/
  calls : List Call
  /-- history variable: functor calls that have returned or thrown, latest first -/
  completed : List Call
  deriving DecidableEq, Repr

/-- parallelism.hpp:303-347: initial state for `real_num_threads = n`. -/
def dynInit (n : Nat) : DynState :=
  { pc := .head, dispatched := 0, live := 0, queue := List.range n, active := [], calls := [], completed := [] }

/-- One step of the dispatching thread (parallelism.hpp:349-417); `none` when it is blocked.
The argument given to worker number `workers_dispatched` is `workers_dispatched` itself (line 401).
`throws` tells on which index the functor throws. The lock acquisition, `num_live_workers++`, the checkout and the
`std::async` call (376-403) are one step: workers touch only `num_live_workers` and their own future. -/
def mainStep (n : Nat) (total : Nat) (throws : Int → Bool) (st : DynState) : Option DynState :=
  match st.pc with
  | .head => some { st with pc := if st.active.length > 0 ∨ st.dispatched < total then .scan 0 else .done }
  | .scan k =>
    match st.active[k]? with
    | none => some { st with pc := .dispatch }
    | some w =>
      if w.phase = .ready then
        if throws w.index then some { st with pc := .unwind, active := st.active.eraseIdx k }
        else some { st with pc := .scan k, active := st.active.eraseIdx k, queue := st.queue ++ [w.thread] }
      else some { st with pc := .scan (k + 1) }
  | .dispatch =>
    if st.active.length < n ∧ st.dispatched < total then
      match st.queue with
      | [] => some { st with pc := .noThreadNumbers, live := st.live + 1 }
      | t :: q => some { st with
          live := st.live + 1
          queue := q
          active := st.active ++ [{ index := (st.dispatched : Int), thread := t, phase := .created }]
          dispatched := st.dispatched + 1 }
    else some { st with pc := if st.active.length > 0 then .wait else .head }
  | .wait => if st.live < st.active.length then some { st with pc := .head } else none
  | .unwind => if st.active.all (fun w => w.phase = .ready) then some { st with pc := .threw, active := [] } else none
  | .done => none
  | .threw => none
  | .noThreadNumbers => none

/-- One step of worker `k` (parallelism.hpp:382-400); `none` when it has finished or does not exist. -/
def workerStep (st : DynState) (k : Nat) : Option DynState :=
  match st.active[k]? with
  | none => none
  | some w =>
    match w.phase with
    | .created => some { st with
        active := st.active.set k { w with phase := .running }
        calls := { thread := w.thread, index := w.index } :: st.calls }
    | .running => some { st with
        active := st.active.set k { w with phase := .notified }
        live := st.live - 1
        completed := { thread := w.thread, index := w.index } :: st.completed }
    | .notified => some { st with active := st.active.set k { w with phase := .ready } }
    | .ready => none

/-- A step of the whole system, by the dispatcher or by some worker. (parallelism.hpp:349-411) -/
inductive DynStep (n total : Nat) (throws : Int → Bool) : DynState → DynState → Prop where
  | main {s s'} : mainStep n total throws s = some s' → DynStep n total throws s s'
  | worker {s s'} (k : Nat) : workerStep s k = some s' → DynStep n total throws s s'

/-- States reachable from the initial one under some schedule. (parallelism.hpp:302-411) -/
inductive Reachable (n total : Nat) (throws : Int → Bool) : DynState → Prop where
  | init : Reachable n total throws (dynInit n)
  | step {s s'} : Reachable n total throws s → DynStep n total throws s s' → Reachable n total throws s'

/-- parallelism.hpp:239-299 and 424-465: what `DynamicParallelForIndexLoop` does before handing work to the async
dispatcher: either it fails, or it finishes with the given per-worker call sequences, or (async backend)
it enters the dispatcher with `real_num_threads` and `total_range`. -/
inductive DynPlan where
  | units (ws : List (List Call))
  | dispatcher (n total : Nat)
  deriving DecidableEq

/-- (parallelism.hpp:423-465) -/
def dynamicIndexLoop (useOmp : Bool) (tid : Int → Nat) (threads s e : Int) : Res DynPlan :=
  if e < s then .throw .runtimeError
  else do
    let total ← chk64 (e - s)
    if total = 0 then pure (.units [])
    else if ¬ threads > 1 ∨ total = 1 then do
      let w ← mkWorkRange s e 0
      pure (.units [expand w])
    else
      let real := min threads total
      if useOmp then do
        let ws ← dynamicOmpRanges tid total.toNat s
        pure (.units (ws.map expand))
      else pure (.dispatcher real.toNat total.toNat)

/-- A complete, exception-free execution of `DynamicParallelForIndexLoop`, observed as the sequence of functor calls in
the order in which they start. (parallelism.hpp:423-465) -/
def DynTrace (useOmp : Bool) (tid : Int → Nat) (threads s e : Int) (tr : List Call) : Prop :=
  (∃ ws, dynamicIndexLoop useOmp tid threads s e = .ok (.units ws) ∧ Interleaving ws tr) ∨
  (∃ n total st, dynamicIndexLoop useOmp tid threads s e = .ok (.dispatcher n total) ∧
    Reachable n total (fun _ => false) st ∧ st.pc = .done ∧ tr = st.calls.reverse)

end CRU.Parallel
