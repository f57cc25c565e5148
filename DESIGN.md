# Formal model of common_robotics_utilities in Lean 4

## 1. Method

The C++ sources in `/repo` were read as text and transcribed, function by function, into small total Lean functions
(`/verif/lean/Verif/<Area>/Model.lean`; each definition cites file and lines). Specifications that do not mention the
model live in `Spec` sections/files; helper lemmas are in `Lemmas.lean` files, and the theorems that state the listed
properties live in `Props.lean` files (one per area), each followed by an `example` that shows its hypotheses are met by
a concrete non-trivial case.

Conventions used throughout:

* **Outcomes.** `CRU.Res α` (`Verif/Base.lean`) has three outcomes: `ok a`, `throw e` (a C++ exception, with its class),
  and `ub` (undefined behaviour: out-of-range `operator[]`, bad shift, …). `.at()` becomes a function that throws; a raw
  `[]` becomes one that yields `ub`. "Never undefined" is therefore a theorem, not an assumption.
* **Integers.** `int64_t`/`size_t` are `Int`/`Nat` unless the property is about wrap-around; then 64-bit arithmetic is
  modelled explicitly (mod 2^64, or `UInt64`), and each file says which.
* **Doubles.** Algorithms that only *compare and add* doubles are proved for an abstract cost type with the laws that
  non-NaN IEEE doubles do satisfy (linear order, monotone addition, `x ≤ x + w` for `w ≥ 0`; no associativity, no
  cancellation). Geometry is proved over an ordered field / the reals and the note says "exact arithmetic".
* **Priority queues, hash maps, schedules.** `std::priority_queue` is any function that pops some minimal element;
  tie-breaking is universally quantified. Hash maps are finite maps. Threads are modelled by explicit schedules
  (interleavings), universally quantified.
* **Callbacks** (`std::function`) are arbitrary functions; stateful ones are given an explicit state or an arbitrary
  answer list.
* **Loops** are structural recursion, folds, or take fuel; with fuel, the theorem quantifies over all fuel and, where
  termination is the property, a sufficient fuel is proved to exist.

## 2. Trusted base

* Lean 4.33.0's kernel. No axioms of our own; `#print axioms` on every property theorem shows at most `propext`,
  `Classical.choice`, `Quot.sound`. No compiled-code proof tactic is used.
* The fidelity of the transcription (by reading); the standard library's documented contracts (`std::vector`, `map`,
  `partial_sort`, `priority_queue`, `reverse`, `memcpy`, `fmod`, zlib's stream contract) as written in the model comments.
* The specification files.

## 3. Properties and plan

* **C01 Base64 round trip** — `Verif/Base64`: Encode/Decode over byte lists with explicit index arithmetic, table lookups as `Res`; induction over 3-byte blocks.
* **C02 Base64 encoding is RFC 4648 canonical** — Independent RFC 4648 spec over a bit list; equality by induction over blocks.
* **C03 Base64 decoding stays inside its buffers** — Decode on `List (Fin 256)`-valued chars with `ub` for table index ≥ 256 (a negative char becomes a huge size_t). The property is FALSE of the code (char ≥ 0x80): negation witness, and `_partial` for 7-bit strings.
* **C04 Static thread ranges partition the work** — `Verif/Parallel`: function on `Int`, omega/nonlinear arithmetic.
* **C05 Static parallel loops visit every index exactly once** — Work items as blocks; schedules as arbitrary interleavings of the workers' call traces; trace is a permutation of the range.
* **C06 Dynamic parallel loops visit every index exactly once** — FALSE for the async backend when range_start ≠ 0: witness; `_partial` for range_start = 0 and for the other backends.
* **C07 Dynamic async loop: bounded concurrency and exclusive thread numbers** — Transition system of dispatcher/worker/wake-up steps, invariant by induction over steps.
* **C08 Serial K-nearest-neighbours is correct** — partial_sort = any function returning a permutation whose first K are sorted and ≤ the rest.
* **C09 Parallel K-nearest-neighbours agrees with serial** — Per-thread results over the static partition, merge, same spec.
* **C10 Primitive serialization round trip** — Byte lists; little-endian `BitVec` encodings.
* **C11 Container serialization round trip** — Compositional round-trip predicate for a serializer/deserializer pair, closed under the combinators.
* **C12 Deserialization never reads outside the buffer** — `Res` model with `ub`; 64-bit modular offset arithmetic.
* **C13 Network byte order round trip** — Host endianness as a parameter.
* **C14 Graph linkage is preserved by every mutator** — `Verif/Graph`: graph as list of nodes; mutators as `Res`-valued functions; induction over op lists.
* **C15 CheckGraphLinkage decides linkage** — Boolean function vs Prop specification.
* **C16 Graph serialization round trip** — Instance of C11 plus C15.
* **C17 PruneGraph removes exactly the requested nodes** — Renumbering map, spec by node/edge sets.
* **C18 Graph overlay behaves like a modified copy** — Overlay state = base + association list; refinement to plain graph, induction over ops.
* **C19 A* returns only real paths** — `Verif/Astar`: the loop is a relation (any element of minimal value may be popped), costs any `CostLaws` type (`Verif/Cost.lean`; exact and rounded instances); invariant over queue and explored map with a ghost timestamp, so extraction ends and its path is a walk.
* **C20 A* is optimal with an admissible heuristic** — FALSE in general (start that meets the goal returned early): witness; `_partial` when no start meets the goal or a cheapest one does; `C20_optimal_iff` characterises exactly when the answer is optimal and `C20_goal_start` what is returned otherwise. Classical frontier invariant.
* **C21 A* is complete and terminates** — Frontier invariant for completeness; termination by a lexicographic measure (simple walks that could still improve the explored map, queue length) over a finite closed state set.
* **C22 Dijkstra distances are shortest** — `Verif/GraphSearch`: relation over pops; invariant: waiting nodes are queued at their distance, explored distances bound the queue, back-pointer paths run through explored nodes. Any graph type via `Access`.
* **C23 Graph A* respects the graph and the lazy edge checks** — Instantiation of the A* theorems with graph out-edges.
* **C24 Task planner sequences are executable** — Instantiation of A* with (state, primitive index) nodes.
* **C25 Action primitive names stay unique** — Induction over operation sequences; with logging functions that keep state and throw in TaskPlanner/Registry (loop characterised for a return and for each message that may throw).
* **C26 Grid index mapping is a bijection** — `Verif/Voxel`: integer arithmetic with int64 overflow as `ub`; the mapping is stated as an injection onto `[0, total)` with the inverse.
* **C27 Voxel grid behaves like a finite map** — Refinement of the array grid to a function from cells, one step and then induction over op lists.
* **C28 Voxel grid mutable-access hook sees the accessed cell** — FALSE: (X,Y,Y) passed by the GridIndex overload; witness and `_partial` for the (x,y,z) overload and cells with y = z.
* **C29 Dynamic spatial hashed grid behaves like a map of cells** — `Verif/Voxel/Dynamic`: refinement to a map region×cell → value, in exact arithmetic; `Verif/Voxel/DynamicFloat`: the same for histories in an arbitrary arithmetic, keyed by the computed chunk and cell, and the computed cell is the true one for locations a few rounding errors away from the cell walls; FALSE on the walls with rounding (a location may be rounded out of its chunk and the access throws): witness.
* **C30 DTW distance is the optimal warping cost** — FALSE on a tie; witness; `_partial`: a real warping path cost, ≥ optimum, = optimum without the bad tie; history independence.
* **C31 Hausdorff distance** — Fold model, schedule-quantified parallel version.
* **C32 K-means labels** — Loop as a relation (random draws, map order and schedules arbitrary); fixpoint on exit; termination because the cost strictly decreases over a finite set of labellings. Findings: the average of an empty cluster is asked for (duplicates), more clusters than data never returns, `num_clusters * 5` overflows `int`.
* **C33 Hierarchical clustering** — Candidate scans (serial; parallel as per-thread slots under every interleaving) select a closest pair; a merge replaces two groups by their union; invariants over the group list; termination by the number of groups; end to end through the C52 matrix.
* **C34 Shortcut smoothing preserves endpoints and validity** — `Verif/Path/Smooth`: attempts, backtracking and the loop over arbitrary draws; a replacement relation (ends, validity, sublist, length) closed under joining and splicing. Percent-valid test shown exact for up to 2^52 states.
* **C35 Resampling keeps the path's states** — `Verif/Path/Resample`: blocks per segment, with round-to-nearest quotients; spacing bound including rounding; witnesses for underflow (last state dropped) and the undefined conversion beyond 2^32 pieces.
* **C36 RRT tree linkage is an invariant** — Tree as node list (Rrt/Model); specification `Linked`, `ChildrenOnce` (Rrt/Spec). Invariant over insertion histories and over both planners. `C36_false`: AddNodeAndConnect with parent = Size() is accepted and links the node to itself; with other bad parents it throws but leaves a dangling node. The positive part is `_partial`: parents that exist.
* **C37 RRT solution extraction terminates and follows parents** — Induction on the node index: parents have smaller indices. `RootChain.unique` makes the path determined. `C37_self_link_loops`: on the tree that C36_false produces, extraction never ends.
* **C38 RRT plans are sound** — Planner loop over an environment of stateful callbacks (state threaded explicitly, so every random or adaptive behaviour is covered); loop runs on fuel, `C38_returns` shows that some fuel suffices. Callbacks may inspect but not edit the tree (`ReadOnly`). `C38_false`: missing goal callback throws bad_function_call.
* **C39 BiRRT plans are sound** — Two-tree planner loop in the same style (Rrt/BiModel); also: the connection check is asked about every added state, each yes gives one path. Rrt/BiActive: the active tree and the counters, stated by replacing or counting the user functions rather than by the loop state. `C39_false`: missing bridge callback throws.
* **C40 PRM roadmap edges were checked in their own direction** — Model Prm/Model (provider as a relation, parallel distance loop in any order, graph or overlay); FALSE for asymmetric functions with NEW_STATE_TO_ROADMAP: exact characterisation and witness; `_partial` otherwise.
* **C41 PRM queries do not modify the roadmap and construction links consistently** — Model Prm/BuildModel (sampling, connection in any schedule order, mirror pass) and Prm/Model (UpdateRoadMapEdges); edge set characterised by an invariant on recorded pairs; queries by refinement of the overlay.
* **C42 PRNG state machine laws** — BitVec 64 machines, arbitrary call histories; bijectivity of xorshift-multiply; zero-freeness by invertible linear steps; the XorShift128+ period by a GF(2) polynomial certificate (Cert.lean, generated) checked by the kernel: the characteristic polynomial annihilates all states, x^(2^128-1) = 1, x^((2^128-1)/p) - 1 invertible for every prime p. FALSE part: XorShift1024* re-seeding does not reset the position: witness.
* **C43 Bit set/get laws** — `Verif/Utility`: `SetBit`/`GetBit` on `BitVec` of the unsigned type, with the shift-width precondition; outside the width the shift is undefined (`C43_outside`).
* **C44 Clamp and spread** — `Verif/Utility`: `ClampValue`, `ClampValueAndWarn`, `ClampSpread` over a linear order.
* **C45 Subset and collection equality are multiset relations** — `Verif/Utility`: `IsSubset`, `CollectionsEqual` as loops over occurrence-count maps, equivalent to `List.Subperm` / `List.Perm`.
* **C46 Random index stays in range** — `Verif/Float` (any round-to-nearest binary format) and `Verif/Utility`: product `u * size` rounded, floor cast; the proof needs only `u < 1` representable. Range version partial (UB/throw for full 64-bit ranges).
* **C47 OwningMaybe object lifetimes** — `Verif/Lifetime/Maybe`: `OwningMaybe` operations over a heap of objects with construction/destruction events; invariants over histories. FALSE when a copy constructor throws: witness.
* **C48 OnScopeExit runs exactly once** — `Verif/Lifetime/Scope`: a small language of nested scopes, loops, exceptions and handlers with `OnScopeExit` locals; the event history is properly nested (inductive specification) and actions are counted.
* **C49 OpenMP thread-count wrappers restore the previous setting** — `Verif/Lifetime/Omp`: nested programs over the thread-count setting, with the count a region is actually given as a function of it. FALSE for the setting under a thread limit (the wrapper saves the delivered count): witness; the delivered count is restored.
* **C50 Continuous revolute arithmetic** — Model Math/Revolute: exact reals with abstract half-period; double version in Math/RevoluteFloat with round-to-nearest-even (FloatEven).
* **C51 Weighted averaging and multilinear interpolation identities** — Model Math/Average over an ordered field; convex-combination and exactness-on-multilinear-functions lemmas.
* **C52 Pairwise distance matrix** — Write-set disjointness; permutation of writes.
* **C53 Truncated Gaussian samples stay in bounds** — Model Gaussian/Sample. FALSE for the uniform rejection case (draws from the unstandardised range) and for zero stddev: witnesses; `_partial` for the other cases.
* **C54 Colour channel round trip** — Model Color/Model with float as rationals, infinities and NaN and any rounding to nearest with 24 bits; error bounds.
* **C55 zlib framing loses nothing** — Model Zlib/Model: zlib is a state machine parameter with arbitrary chunking; invariant on array, cursor and buffer; termination by a ranking function of the library. A toy library meets the hypotheses.
* **C56 Matrix serialization round trip** — FALSE for empty matrices (`&buffer[size]`): witness; `_partial` for non-empty ones; `Serialization/Eigen`: exact condition under which the deserializer is undefined.
* **C57 In-place network serialization** — FALSE near 2^64: witness; `_partial` without wrap-around.
* **C58 Graph in- and out-edge lists stay in step** — `Verif/Graph`: `Mirrored` invariant, preserved by the mutators and by pruning.
* **C59 Dijkstra results survive serialization** — `Verif/GraphSearch`: record of two memcpyable vectors, cursor lemmas of `Serialization/Cursor`.
* **C60 Voxel grid geometry** — `Verif/Voxel/Geometry`: ordered field with floor; arithmetic is a parameter (exact, or each operation rounded with bounded relative error).
* **C61 Map helpers keep keys and values together** — `Verif/Utility`: association-list map with overwrite.
* **C62 Kinematic extend and connect add only valid short steps** — Rrt/Kinematic: both helper functions with a stateful validity function, distances and interpolation as functions into rationals with binary64 rounding of the ratio; the chain by induction over the loop; planner paths through C38/C39 soundness.
* **C63 Planner timeout** — Rrt/Helpers: the timer over integer nanosecond readings, double conversion rounded; the planners ended through the bound of C38_returns/C39_returns for an advancing clock.
* **C64 Sampling and nearest-neighbour helpers of the planners** — Rrt/Helpers: generator output as an arbitrary representable number of [0,1); nearest neighbour through the parallel KNN result C06-C08.
* **C65 Planner trees survive serialization** — Rrt/Ser: the cursor combinators of Serialization with the linkage check of C36.
* **C66 Growing a roadmap** — Induction over runs of GrowRoadMap using C40; the statistics (here and for C108) in `Prm/Stats`.
* **C67 Roadmap queries return the best path** — Model Prm/QueryModel; AddNode characterisation + graph A* optimality (C23); overlay by simulation.
* **C68 Projections, hyperplanes and norm clamping** — Models Math/Projection, Math/OrthogonalPlane over Fin n → ℝ; Cauchy-Schwarz and orthogonal decomposition; unit vectors with dot product ±1 are parallel.
* **C69 State distances are metrics** — Model Math/Metric; relative rotation through the trace of the rotation matrices; spherical triangle inequality.
* **C70 Twists and the exponential map** — Model Math/Twist (4x4 matrices over ℝ); closed form of the matrix exponential through its differential equation (TwistProps, TwistExp).
* **C71 Linear interpolation** — Model Math/Interpolate, generic in the rounding function.
* **C72 Gaussian densities and distribution functions** — Model Gaussian/Cdf with erf as the Gaussian integral; fundamental theorem of calculus and the normal distribution of Mathlib.
* **C73 Multivariate Gaussian sampling** — FALSE as stated: the constructor refuses every dimension but one (witness); `_partial`: the mean, covariance and law of the sampler, with Eigen decompositions as parameters, by integrals over independent unit Gaussians.
* **C74 Files of compressed data** — Model Zlib/Model (files): FALSE, write errors are not noticed (witness); `_partial` when the file system works.
* **C75 Colour ramps, palettes and comparison** — Model Color/Model; piecewise-linear specification, kernel evaluation of the 20-entry table, gradual underflow for ColorsEqual. FALSE for equal bounds (witness).
* **C76 Blends of a time-optimal path** — Model Totp/Arc (centre, radius, x and y axes, atan2 switching points); exact trigonometry over the reals, derivative statements in Mathlib calculus.
* **C77 The path of a time-optimal trajectory follows the waypoints** — Model Totp/Path (segments, path constructor, lookup of the segment); induction over the segment chain. FALSE without the exclusions of the statement (witnesses: legs of at most 1e-6 are dropped; a repeated last waypoint gives NaN).
* **C78 Limits on the path velocity and acceleration** — Model Totp/Limits over reals with infinities and NaN (Totp/Ext); loop invariants give the exact minimum over the joints; the slope is a Mathlib derivative.
* **C79 Asking a trajectory does not depend on earlier questions** — Model Totp/Query: objects with cached iterators into lists of possibly other objects, programs of queries, clones and destructions; invariant by induction over programs. FALSE in full (witnesses: negative time, clone outliving its original); `_partial` otherwise.
* **C80 Between its steps a trajectory moves smoothly** — Steps with times from the model of the timing loop; between steps the motion is the quadratic with the chord acceleration (calculus in Mathlib); the whole profile is glued by induction over the steps. FALSE after the duration (witness).
* **C81 Parametrizing a path ends, from rest to rest** — The whole construction (switching points, forward and backward integration, bisections) is modelled with a number of turns per loop; outcomes do not depend on that number. For all paths: whatever is made starts and ends at rest, and nothing undefined happens (inductions over the loops: discontinuities that are no longer in the list have been passed, on the last stretch the velocity is always cut to the limit). Without blends: total correctness, by a potential argument (each turn forward advances by at least dt^2 a0/2 or passes a discontinuity; the backward integration keeps the forward trajectory above it until they cross). Witnesses for timestep 0 and for steps that go back. With blends the property is FALSE: C81_blends_false runs the whole construction on a right angle with one blend, symbolically (sin, cos, square roots), up to the exception.
* **C82 Joint limits along a straight line** — From the structure proved for C81 with constant limits: energy bounds on every chord, then C80. Tolerances are explicit; the exact limit is FALSE (witness). On any path, the steps added by integrating forward are shown to be on or under both limit curves by an invariant of the loop (the bisection keeps one end under, one end over). At a corner without blends the acceleration is unbounded (witness `C82_corner_false`).
* **C83 Voxel grids survive serialization** — Model `GridSizes`, `VoxelGrid` Serialize/Deserialize as byte cursors over an abstract arithmetic, with the stored sizes recomputed by `Initialize` as the code does and the cell product in checked int64. Round trip by composing the cursor round trips over the history invariant (number of values = number of cells); arbitrary bytes by locality of cursors.
* **C84 Dynamic voxel grids survive serialization** — Chunks with their own sizes and fill byte, the hash map as the list of its entries in any order, insertion into a hash map as an abstract operation. Round trip by composing cursors; histories by the invariant that every chunk is stored under its region and has the number of values its fill status says. Arbitrary bytes by cursor locality and an undefined-behaviour calculus for cursors.
* **C85 The best-fit plane** — Math/Fit.lean: `FitPlaneToPoints` with the SVD as a parameter; specification of a thin SVD for the matrix at hand. Proof: cost = |Xᵀn|² = Σ σ² (Uᵀn)², least for the column of the least σ; with fewer points than dimensions some σ is 0 since the centred columns add up to 0.
* **C86 Averages of rotations and poses** — Math/Quaternion.lean (product, matrices, conversion, proved inverse for every rotation matrix), Math/AverageRotation.lean: the averaging loops with the eigenvalue solver as a parameter. Proof: spectral theorem (Rayleigh quotient); distance of rotations = 8(1 − (p·q)²).
* **C87 Roll, pitch, yaw and other conversions** — Math/Rpy.lean: conversions.cpp with `eulerAngles` as a parameter; contract: the angles describe the matrix. The published algorithm of Eigen is shown to meet it, by cases on the gimbal lock.
* **C88 Uniform random rotations** — random_rotation_generator.hpp over ℝ with a source of draws; unit length by computation; uniformity by integration over ℝ⁴ in polar coordinates of two planes (`Shoemake.four`): the probability of a set of directions is its share of the ball; invariance under length-preserving linear maps; Euler angles reduced to turns about z, y, z
* **C89 Interpolation of rotations and poses** — Eigen slerp by its published algorithm; dot products of results at two ratios are cosines of the scaled angle; the pose version on top
* **C90 Arithmetic of vectors and weighted angles** — loops with indices over lists (out of range is undefined) and any rounding; error bounds by induction; weighted angles as Euclidean angles of scaled vectors (Mathlib)
* **C91 Exact and approximate comparison** — doubles with NaN, infinities and a rounding to nearest even; the vector version needs the absence of NaN (finding)
* **C92 The generators compute the published algorithms** — Prng/Reference: SplitMix64 as a closed formula in seed and draw number, the two xorshift generators as recurrences on sequences of natural numbers; the circular buffer of XorShift1024Star is shown to hold the last 16 words in order (induction over draws).
* **C93 Messages and Eigen types** — `Ros/Conversions`: messages as structures, the loops over containers with checked and unchecked access, `ofRotationMatrix_spec` for all branches of the matrix-to-quaternion conversion; quaternions with the same matrix are equal up to sign.
* **C94 ReferencingMaybe refers and does not own** — `Lifetime/Ref`: a heap of objects and maybes with pointers; invariant (no dangling pointer) by induction over programs.
* **C95 Copyable atomics lose no update** — `Lifetime/Atomic`: calls split in indivisible operations, all interleavings; the trace is a permutation of the operations, tickets are prefix sums.
* **C96 Printed values can be read back** — Model `Verif/Print`: text is a list of characters, types are a syntax tree, `print` recurses on it with the loops as written (by index for array and vector, by iterator otherwise). Proved by induction on the type: a printed value followed by any stop (separator, closing delimiter, colon) can be split off in one way only. Matrices separately. Witnesses: strings, nested containers without delimiters.
* **C97 hash_combine loses nothing of the last member** — Model `Verif/Utility/Hash` on 64-bit vectors: one combining step is injective and onto in the hash of the member; induction over the members. Witness for a collision through the first member.
* **C98 Exceptions of functors leave a parallel loop** — `Verif/Parallel/Exceptions`: each work range makes its calls up to the first that throws; OpenMP ranges then assign `loop_exception`, futures keep theirs and are asked in order. Theorems over every interleaving of the ranges. With OpenMP the exception that leaves is whichever was assigned last (`C98_omp_any_false`).
* **C99 Decode accepts every common way to write base64** — `Verif/Base64/Variants`: decoding depends only on the table entries of the characters and on where `=` stands, and one more `=` after an incomplete block changes nothing; with C01.
* **C100 Fixed-size Eigen types serialize bit for bit in a fixed layout** — `Verif/Serialization/Eigen`: the common bodies of the serializers and deserializers with the byte counts of the code; coefficients at multiples of 8 bytes; a copy that does not fill the value exactly is undefined.
* **C101 A* with the caller's own hash and equality** — `Verif/Astar/Equal` (the maps of the search as hash tables with the caller's hash and equality), `EqualSound` (invariant for arbitrary callbacks), `EqualSim` (simulations: another hash; the search on equivalence classes, to which C19–C21 apply), `EqualProps`, `TaskPlanner/Equal`.
* **C102 Where a NaN means unreachable** — Double = NaN or number (NaN/Base), run of the code on the inputs with NaNs = run of the same code on the inputs with infinities: simulation, step by step, of Distances, GraphSearch and Hier (whose models only use comparisons and so can be run on both).
* **C103 What survives a NaN elsewhere** — Astar: invariant on the back pointers that uses no order law, for any popping order (NaN/Astar). Dtw: induction on the recurrence. Values: the definitions. FALSE parts as witnesses: A* loops for ever, DTW not optimal, complete link merges across NaN, voxel query undefined.
* **C104 Planners and exceptions of user-supplied functions** — Planner code in a monad with exceptions (Rrt/Throw, Rrt/BiThrow). Hoare triples with an exceptional postcondition give the trees (ThrowProps, BiThrowProps); compositional predicates give that the exception comes out and that nothing is called afterwards; a simulation (ThrowSim, BiThrowSim) shows that runs without exceptions are those of C38 and C39.
* **C105 A* with overestimating heuristics** — The frontier argument of C20 for walks on which cost so far plus heuristic stays below a bound `B` (`WalkUnder`), in any cost arithmetic; factor and amount follow over [0, ∞] (Astar/Inflated). The factor is attained by an explicit run.
* **C106 Binary64 accuracy of path searches and dynamic time warping** — Double.lean: a type of non-negative binary64 numbers with infinity, addition rounded to nearest by any function meeting the specification of Float.lean; its instance of the cost laws makes every theorem over `CostLaws` one about `double`. `exact` maps it to extended reals; one addition errs by a factor of at most 1+2^-53 either way (subnormal sums are exact). Accuracy.lean: induction over paths turns computed costs into exact ones; C22, C105 (overestimating heuristics: a heuristic admissible for exact costs may overestimate the computed ones) and C30 give the rest.
* **C107 Exceptions of distance functions** — The static loops are modelled with bodies that have effects on shared data and may throw (`Parallel/ThrowLoop.lean`): a thread stops at its first exception; OpenMP keeps the last caught exception and rethrows it, `std::async` rethrows the first held one. `Distances/Throw.lean` and `Knn/Throw.lean` model the callers with a distance function into `Except ε D`; proved by showing for each body what it does, one theorem about a loop of such bodies (`bodyRun_spec`) and, if nothing throws, equality with the model of total functions.
* **C108 Roadmap construction and exceptions of user functions** — Lean/Verif/Prm/Throw.lean and UpdateThrow.lean model AddNodeToRoadmap, GrowRoadMap and UpdateRoadMapEdges with functions returning `Except`; parallel loops through Parallel/ThrowLoop (every interleaving, OpenMP keeps the first exception noticed, std::async the first in order). Proved by case analysis over runs, induction over the growth loop, and for updates by an invariant over the sequence of weight writes (every write sets the fresh weight of its edge, in the out-list and then all matching in-edges). Normal runs are shown to be runs of the models of C40/C66 with total functions. Conversely, functions that always return can have every result of C40 (`C108_add_node_as_without`), and growing with them is exactly growing as in C66 (`C108_grow_as_without`, Prm/QueryThrowLift).
* **C109 Path processing with callbacks that keep state or throw** — Model `Path/Throw.lean`: the four functions of path_processing.hpp again, with callbacks that are functions of the list of all calls made so far (with their answers) and that return or throw; a run gives the outcome and the list of calls. `Fits` relates outcome and list (the exception is that of the last call). The edge theorem reuses the replacement relation of C34 with the set of edges accepted during the run as the validity check. `C109_pure` shows that for callbacks without state the runs are those of `Path/Model.lean`.
* **C110 The search for the next switching point of a trajectory** — Model Totp/Build (search loops with a step budget); Totp/Switching: the scan and the bisection are characterised by induction on the budget, positions lie on a grid of 1/1024000, which bounds the number of rounds; the acceleration loop decreases the number of listed points ahead. Termination and progress are FALSE in full (C110_ahead_false), hence the condition NoTouch.
* **C111 Executing a task: what callbacks and primitives see** — Every primitive and callback is a function of the list of calls made so far, with an exception or an answer (`TaskPlanner/Callbacks`); the loop is a state-and-exception monad over that list, planning is the A* run of C24 with the answers of the moment. Specification: rounds and endings as inductive relations over the list of calls. Proof: one lemma on what a round can do, then induction on the run.
* **C112 Clustering and exceptions of user functions** — The parallel loops of K-means are runs of bodies that may throw (`Parallel/ThrowLoop`), with an effect per element; distances and averages are `Except` values, an outcome is labels, an exception of the caller, an exception of the library, or undefined behaviour (`Kmeans/Throw`). Proof: a loop either sets every element to what its body returned or throws what one body threw; by induction over the iterations labels are stable and the run is a run of the model of C32 with any functions that extend the answers. Hierarchical clustering (`Hier/Throw`) composes C107 (matrix) with C33.
* **C113 A* search with functions that keep state or throw** — The functions are functions of the list of calls made so far, with answers in `Except`; every run carries its list of calls (`Astar/Callbacks`). Proof: the search with the heuristic values forgotten is a search of the model of C19 over the edges offered so far, so the invariant of C19 is reused (it is monotone in the edges); the calls are described by a predicate on every prefix (`History`), preserved by each piece of code (`Does`). Termination over finitely many states although children and costs may change at every call: an accepted element stands for a walk without repeated states, and it is replaced by finitely many elements of longer walks, which is well-founded (`Astar/Depth`, `Relation.CutExpand`). `C113_as_without` is a bisimulation with the pure model.
* **C114 Graph search with functions that keep state or throw** — Like C113: the functions are functions of the list of calls made so far with answers in `Except` (`GraphSearch/Callbacks`), every run carries its calls, and the search with heuristic values forgotten is a search over the edges found valid so far. Termination although every distance may change at every call: an accepted element stands for a walk without repeated nodes, so its depth is bounded by the number of nodes, and it is replaced by finitely many deeper ones (`Astar/Depth`).
* **C115 Planning a task with primitives that keep state or throw** — The functions are functions of the list of calls made so far with answers in `Except` (`TaskPlanner/Planning`); the lambdas that `PlanTaskStateSequence` gives to the search are code that makes these calls, and the calls of a run are those made by replaying the calls of lambdas of an A* run of C113. Proof: an invariant that matches the two lists of calls (`PlanningLemmas`), C113_search and C113_ends for the lambdas, equality with the model of C24 for pure functions.
* **C116 Deserializing into an object that already has contents** — Every `DeserializeSelf` is a list of statements that read or check (`Voxel/Self`); running them gives the object as it is when an exception leaves it. Shown equal to the deserializers of C83, C84 and the graph files for every previous contents; cases of where it can stop; derived classes with both orders of evaluation.
* **C117 Executing a task with primitives that keep state or throw while planning** — The calls made while planning and those of the execution loop are one list (`TaskPlanner/Session`); a round is a run of `Planning.NextCalls` followed by `Callbacks.round`, both with the functions as they are after the calls made so far. Proof: `C115_next` and `round_spec` of C111 for each round, induction on the run; every occurrence of an execution in the list of calls is located by splitting the list; for pure planning functions the two models are compared run by run.
* **C118 Roadmap queries with functions that throw** — Model Prm/QueryThrow: adding starts and goals as in C108, the search as in C114 with the functions of node values. The overlay by simulation (C118_caller_roadmap, C118_overlay_agrees); adding by induction over the states with C108_add_node; a search that was not ended by an exception is a search with functions that always return (GraphSearch/CallbackMono), so C67 applies to every such choice of functions. Proofs in Prm/QueryThrowProps. Conversely, queries with functions that always return can have every result of C67 (`C118_as_without`, Prm/QueryThrowLift).
* **C119 Roadmap construction with functions that throw** — Modelled: `LoopRun` (Parallel/AtomicLoop: a parallel index loop over a shared state whose bodies run one after the other in any interleaving of the ranges and may throw; a range ends at its exception, the others go on, the rethrown exception is the one the backend keeps) and `BuildRun` (Prm/BuildThrow: sampling with tries, duplicate check by `KnnRun`, connecting, mirroring, each with every place an exception can come from). Proof: an invariant of `LoopRun` (sizes and usable states; linkage of the half-built roadmap) gives that either a body threw, or the run is a run of the loop without exceptions; then the sampling and connecting runs are turned into runs of the pure `Prm.BuildRun` for every total extension of the functions, and C41 gives the roadmap. Ends: `loopRun_exists` with `tryRun_exists`. Conversely, functions that always return can have every result of C41 (`C119_as_without`, Prm/BuildThrowLift).
* **C120 Alignment and substring checks** — Model Utility/Checks: addresses and alignments as 64-bit words, `string::find` by its specification executed; divisibility, induction on the strings.
* **C121 Law of truncated Gaussian samples** — Model Gaussian/Sample; one round = one trial, its law by change of variables from exponential × uniform (Gaussian/Law), n independent rounds by induction over product measures.

## 4. What is modelled and what is not, per file

Paths are below `include/common_robotics_utilities/` (`.hpp`) and `src/common_robotics_utilities/` (`.cpp`). Getters, setters, printing
and pure declarations are left out of the "not modelled" column unless they have an effect of their own.

| File | Modelled in | Not modelled |
|---|---|---|
| base64_helpers.cpp | `Base64` (all) | — |
| color_builder.hpp | `Color` (all) | the user's colour types; rounding of doubles except where a theorem says so |
| conversions.cpp/.hpp | `Math/Rpy`, `Math/Quaternion` | — |
| dynamic_spatial_hashed_voxel_grid.hpp | `Voxel/Dynamic*`, `Voxel/DSer` | index-based chunk access (never instantiated by the grid), raw access to the chunk map |
| gaussian_distributions.hpp | `Gaussian` (all) | rounding; the standard library's own distributions |
| math.cpp, math.hpp | `Math`, `Distances` (pairwise matrices) | the decompositions of Eigen (specified by contracts); rounding in the functions on rotations |
| maybe.hpp | `Lifetime/Maybe`, `Lifetime/Ref` (all) | — |
| openmp_helpers.hpp | `Lifetime/Omp` | the `GetContext…` getters; the OpenMP runtime itself is a parameter |
| parallelism.hpp | `Parallel` (all) | the memory model: functors are atomic, workers interleave; thread creation failing |
| path_processing.hpp | `Path` (all; callbacks with state and exceptions in `Path/Throw.lean`) | containers other than lists of states; distances that are not finite |
| print.hpp | `Print` | formatting of numbers (standard library); `Print(forward_list)`, which does not compile when used (`forward_list` has no `size()`) |
| ros_conversions.cpp, ros_helpers.hpp | `Ros/Conversions` (all) | streaming of messages; rounding in the functions on rotations |
| random_rotation_generator.hpp | `Math/RandomRotation`, `Math/RandomEuler` | rounding; the draws are ideal |
| serialization.hpp/.cpp | `Serialization` | allocation failure below `max_size`; types whose object representation has padding |
| simple_astar_search.hpp | `Astar` (all, with stateful and throwing functions in `Astar/Callbacks`), `NaN/Astar` | statistics of the hash map; what the heap does with NaN values (any pop is assumed) |
| simple_dtw.hpp | `Dtw` (all) | — |
| simple_graph.hpp | `Graph` (all) | `Print`; `OwningGraphOverlay` (does not compile: private inheritance) |
| simple_graph_search.hpp | `GraphSearch` (A* with stateful and throwing functions in `GraphSearch/Callbacks`), `Graph/Ser`, `NaN/Dijkstra` | – |
| simple_hausdorff_distance.hpp | `Distances` (all), `NaN/Hausdorff` | – |
| simple_hierarchical_clustering.hpp | `Hier` (all, with throwing functions in `Hier/Throw`), `NaN/Clustering` | NaN as bound |
| simple_kmeans_clustering.hpp | `Kmeans` (all; throwing functions in `Kmeans/Throw`) | the shuffle of the random subset is any choice of distinct indices |
| simple_knearest_neighbors.hpp | `Knn` (all) | NaN distances (undefined: `C103_comparator`) |
| simple_prm_planner.hpp | `Prm` (all) | planning time in the statistics |
| simple_prngs.hpp | `Prng` (all) | statistical quality other than the XorShift128+ period |
| simple_robot_model_interface.hpp | — | an abstract interface without an implementation |
| simple_rrt_planner.hpp | `Rrt` (all) | planning time in the statistics |
| simple_task_planner.hpp | `TaskPlanner` (all); callbacks, logging, changing primitives and exceptions of the execution loop in `TaskPlanner/Callbacks` (the functions used while planning do not throw there); planning with primitives and functions that keep state and throw in `TaskPlanner/Planning`; whole executions with all of this in `TaskPlanner/Session` | `ActionPrimitiveWrapper` (forwards its calls) |
| time_optimal_trajectory_parametrization.cpp | `Totp` (all but 580–607, debug output that is commented out) | rounding: the reals are exact, infinities and NaN are kept (`Ext`) |
| utility.hpp | `Utility`, `Utility/Hash`, `Utility/Checks`, `Lifetime/Scope`, `Lifetime/Atomic` | `IsFutureReady`; memory orders weaker than sequential consistency |
| voxel_grid.hpp | `Voxel`, `Voxel/Ser`, `Voxel/Self` | raw mutable access to the backing store; derived classes that serialize the members of the base class again |
| zlib_helpers.cpp | `Zlib` (all) | zlib itself: any library that meets zlib.h's stream contract |

Simplifications common to all areas: no allocation failure except where a size is checked by the container; callbacks return (they may
be stateful where the model has an environment); `double` is (a) an abstract ordered type with monotone addition, (b) the rationals
with an explicit rounding function, or (c) the exact reals: each theorem's statement shows which.

## 5. Findings: where the code does not have the property

Each is a theorem about the model (a concrete witness, or an exact characterisation).

* `C03_false` Base64 `Decode` indexes its table with a negative character (bytes ≥ 0x80): undefined behaviour.
* `C06_false` The asynchronous dynamic loop ignores `range_start`: it visits `[0, n)` instead of `[start, end)`.
* `C20_false` A* returns a start that meets the goal even if a path from another start is cheaper.
* `C28_false` The voxel grids' `GridIndex` overloads report cell (x, y, y) to the mutable-access hook.
* `C29_false` With rounding, a location can be assigned to a chunk in which it then is not found, and the access throws.
* `C30_false` DTW takes the diagonal on a tie of the two other predecessors even if it is dearer: not the optimum.
* `C36_false` `AddNodeAndConnect` with parent = `Size()` makes a node its own parent; extraction then never ends (`C37_self_link_loops`).
* `C38_false`, `C39_false` The planners call the optional goal callback unconditionally when a start already is a goal: `bad_function_call`.
* `C40_false`, `C67_false` The PRM checks an edge in one direction and stores its cost for the other; query results inherit that.
* `C42` XorShift1024*: re-seeding does not reset the position, so equal seeds give different sequences.
* `C46_false`, `C47_false`, `C49_false`, `C56_false`, `C57_false` see the entries in section 3.
* `C53`, `C73` Truncated Gaussian: the uniform rejection case draws from the unstandardised range; standard deviation 0 is not handled; the header does not
  compile as it stands (`DrawCases case_ = NONE`); the multivariate constructor compares the wrong sizes.
* `C50`, `C68`–`C71` `Interpolate(3, 3, 0.2)` is not 3 in binary64; `ClampNorm` with a negative bound flips the vector; quaternion distances
  below about 4.2e-8 are reported as 0; `EnforceContinuousRevoluteBounds` is not idempotent under rounding; `ExpMatrixExact` accepts
  matrices that are not twists.
* `C74_false` `CompressAndWriteToFile` ignores write errors. `C54`, `C75`: NaN passes `TrimColorValue` and is then cast to an integer
  (undefined); `InterpolateHotToCold` with equal bounds gives a NaN channel; a NaN colour differs from itself.
* `C79`–`C82` Time-optimal trajectories: a copy keeps an iterator into the original (dangling); times that are negative or NaN are
  undefined; beyond `Duration` the answer extrapolates (`C80_after_end_false`); time step and limits are not validated and a zero step
  loops for ever (`C81_zero_timestep_false`); a repeated last waypoint gives NaN; the last forward step is not cut to the velocity limit
  (`C82_velocity_limit_false`); without blends (the default) the trajectory does not stop at corners, so that the acceleration there is unbounded
  (`C82_corner_false`); with blends the construction can throw `runtime_error` on valid input (`C81_blends_false`: the two parts of
  the trajectory meet below the limit, and one timestep of full braking then makes the velocity negative); the intersection tolerance can move backwards in position and time (`C81_monotone_false`).
* `C83` Voxel grids: deserializing bytes whose cell counts multiply past the int64 range overflows (`C83_overflow_false`); a grid made from lengths
  whose cell count underflows to zero is accepted and serialized, but refused on deserialization (`C83_zero_cells_false`).
* `C84_unfilled_false` Deserializing a dynamic grid accepts chunks that are not filled (and chunks whose region or sizes differ from the grid's); querying them throws.
* `C86_plain_weights_false`, `C86_zero_weights_false` `AverageEigenQuaterniond` scales the columns by the weights, so that they act by their squares (the translations of an average pose use the plain weights), and does not reject several quaternions whose weights are all zero, unlike the averages of vectors.
* `C87_urdf_round_trip_false` There is no inverse of `TransformFromUrdfRPY`: `TransformToRPY` is the inverse of the other convention only.
* `C90_divide_false` `Divide(vector, number)` multiplies by the rounded reciprocal: 49/49 comes out below 1.
* `C91_close_vector_nan_false` `CloseEnough` of vectors is true when a coordinate is a NaN (or two equal infinities); the version for numbers is false.
* `C96_nested_false`, `C96_strings_false` `Print` without delimiters (the default) cannot tell nested containers apart, and never quotes strings; an empty container prints as nothing even with delimiters; `Print(forward_list)` does not compile when used.
* `C97_first_member_false` `hash_combine` can lose a difference in a member before the last.
* `C98_omp_any_false` With OpenMP any of the exceptions thrown on different threads may come out of a parallel loop.
* `C101_coarse_equality_false`, `C101_path_false` A* with an equality coarser than what the callbacks distinguish (a discretised state space) can miss
  the goal, and can return a path with a step that no callback offered. `C101_planner_two_hashes` The task planner's hash wrapper returns `bool`: its
  hash tables have at most two used buckets.
* `C103` NaNs: `C103_astar_terminates_false` A* with a NaN edge cost re-expands two states for ever (`NaN >= x` is false, and the constructor
  of `StateWithCost` lets NaN pass); `C103_dtw_optimal_false`; `C103_complete_link_false` complete-link clustering treats NaN as distance 0 between
  clusters; `C103_voxel_location` a NaN coordinate is cast to `int64_t`; `C103_clamp` a NaN passes `ClampValue`. By contrast Hausdorff, Dijkstra and
  single-link clustering treat a NaN as infinity (C102).
* `C108_retry_stays_isolated` If an edge check throws in `AddNodeToRoadmap`, the state stays in the roadmap without edges, and adding it again
  (without duplicates) finds it as its own duplicate: it is never connected. `C108_update_parallel_out_of_step` An exception in
  `UpdateRoadMapEdges` can leave the two records of a parallel edge with different weights.
* `C110_ahead_false` While a trajectory is built, a velocity limit that falls exactly as fast as the trajectory could, at the place where the search
  for a velocity switching point begins, makes the search find a point at or before that place. If no acceleration switching point is accepted, a
  velocity switching point is used without looking at the acceleration limit there.
- `PerformSingleTaskExecution` counts executions in an `int32_t`: with no limit (negative `max_primitive_executions`) the 2^31-th execution overflows the counter, undefined behaviour (C111_session `overflow`, C111_executions).
- `C116_grid_strong_guarantee_false`, `C116_dijkstra_strong_guarantee_false` `DeserializeSelf` of grids, nodes, edges and Dijkstra results assigns members while it reads; an exception leaves a mixture (graphs and grid sizes are safe). `C116_derived_order_false` `BaseSerializeSelf(…) + DerivedSerializeSelf(…)` leaves to the compiler which is written first, while reading is always base first.
- `C120_eigen_alignment_off_false` `RequireEigenAlignment` divides by zero where `EIGEN_DEFAULT_ALIGN_BYTES` is 0 (Eigen's alignment switched off). `GetArbitraryOrthogonalVectorToPlane` cannot be instantiated: its local variables have type `Eigen::MatrixBase` (C68).
- `C26_hash_outside_false` `GridIndexToDataIndex` and `HashDataIndex` do not refuse an index outside the grid: the one past the end of a row gives the number of the first cell of the next row.
