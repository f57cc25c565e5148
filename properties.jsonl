{"id": "C01", "title": "Base64 round trip", "statement": "For every byte vector b, base64_helpers::Decode(base64_helpers::Encode(b)) returns exactly b, without reading or writing outside any buffer.", "quantifier": "all byte vectors of every length (all three residues mod 3)", "why_tests_cant": "256^n inputs for every n; tests sample a handful of lengths and byte values.", "anchors": ["src/common_robotics_utilities/base64_helpers.cpp: Encode, Decode, B64IndexTable, B64ValueTable"]}
{"id": "C02", "title": "Base64 encoding is RFC 4648 canonical", "statement": "For every byte vector b, Encode(b) is the RFC 4648 base64 text of b: its length is 4*ceil(n/3); its characters are the 6-bit groups of the big-endian bit string of b mapped through the standard alphabet; it ends with '=' once / twice exactly when n mod 3 is 2 / 1.", "quantifier": "all byte vectors", "why_tests_cant": "needs agreement with an independent bit-level definition on every input, not on sample vectors.", "anchors": ["src/common_robotics_utilities/base64_helpers.cpp: Encode"]}
{"id": "C03", "title": "Base64 decoding stays inside its buffers", "statement": "For every std::string s (including malformed, unpadded and binary ones), Decode(s) reads only inside s and its lookup table, writes only inside its result, and returns some byte vector.", "quantifier": "all strings over all 256 char values and all lengths", "why_tests_cant": "out-of-bounds table reads are undefined behaviour that a test may never notice; the input space is all strings.", "anchors": ["src/common_robotics_utilities/base64_helpers.cpp: Decode"]}
{"id": "C04", "title": "Static thread ranges partition the work", "statement": "For every range of fewer than 2^63 - 1 indices and every thread count >= 1, the per-thread ranges returned by CalcStaticThreadRangeStartAndEnd are contiguous, in order, disjoint, exactly cover [range_start, range_end), and their sizes differ by at most one; invalid ranges, thread counts or thread numbers throw.", "quantifier": "all int64 ranges, thread counts and thread numbers without int64 overflow", "why_tests_cant": "unbounded integer ranges; off-by-one errors hide at particular remainders.", "anchors": ["include/common_robotics_utilities/parallelism.hpp: CalcStaticThreadRangeStartAndEnd"]}
{"id": "C05", "title": "Static parallel loops visit every index exactly once", "statement": "StaticParallelForRangeLoop / StaticParallelForIndexLoop invoke the functor on each index of [range_start, range_end) exactly once, for every degree of parallelism, every backend and every interleaving of the workers, each call carrying a thread number in [0, num_threads) that no other concurrently running worker has; an inverted range throws and an empty one does nothing.", "quantifier": "all ranges, degrees of parallelism, backends and schedules of the workers", "why_tests_cant": "schedules are non-deterministic; a test sees one of them.", "anchors": ["include/common_robotics_utilities/parallelism.hpp: StaticParallelForRangeLoop, StaticParallelForIndexLoop"]}
{"id": "C06", "title": "Dynamic parallel loops visit every index exactly once", "statement": "DynamicParallelForRangeLoop / DynamicParallelForIndexLoop invoke the functor on each index of [range_start, range_end) exactly once and on no other index, for every range, degree of parallelism, backend and schedule.", "quantifier": "all ranges (including range_start != 0), degrees of parallelism, backends and schedules", "why_tests_cant": "the failing case depends on backend and range start; schedules are unbounded.", "anchors": ["include/common_robotics_utilities/parallelism.hpp: DynamicParallelForRangeLoop, DynamicParallelForIndexLoop"]}
{"id": "C07", "title": "Dynamic async loop: bounded concurrency and exclusive thread numbers", "statement": "While a dynamic parallel loop runs with the async backend, at every moment at most min(num_threads, range size) functor calls are running, all running calls carry different thread numbers in [0, num_threads), and the dispatcher never runs out of thread numbers, under every order of worker starts, completions and wake-ups; and the loop cannot end before every dispatched call has completed.", "quantifier": "all schedules of dispatcher and workers, all ranges and thread counts", "why_tests_cant": "concurrency invariant over all interleavings.", "anchors": ["include/common_robotics_utilities/parallelism.hpp: DynamicParallelForRangeLoop"]}
{"id": "C08", "title": "Serial K-nearest-neighbours is correct", "statement": "GetKNearestNeighborsInRangeSerial returns min(K, range size) entries with distinct in-range indices, each carrying the true distance of that item, such that no unreturned item in the range is strictly closer than a returned one; when more items than K exist the result is sorted by distance; bad ranges and negative K throw.", "quantifier": "all item sequences, distance functions, ranges and K", "why_tests_cant": "needs all inputs including ties and K around the range size.", "anchors": ["include/common_robotics_utilities/simple_knearest_neighbors.hpp: GetKNearestNeighborsInRangeSerial"]}
{"id": "C09", "title": "Parallel K-nearest-neighbours agrees with serial", "statement": "GetKNearestNeighborsInRangeParallel satisfies the same specification as the serial version and returns the same multiset of distances, for every degree of parallelism and every schedule, provided no two work ranges are run under the same thread number; it never sorts past the end of the merged buffer.", "quantifier": "all inputs, all thread counts and all schedules", "why_tests_cant": "schedules and partition sizes are unbounded; the merge bound is an arithmetic fact about all partitions.", "anchors": ["include/common_robotics_utilities/simple_knearest_neighbors.hpp: GetKNearestNeighborsInRangeParallel"]}
{"id": "C10", "title": "Primitive serialization round trip", "statement": "For every value of a fixed-size type, SerializeMemcpyable appends exactly its size in bytes and returns that count, leaving the earlier bytes untouched; DeserializeMemcpyable at the offset where it was written returns the same value and the same byte count, whatever bytes come before or after.", "quantifier": "all values of fixed-size types, all buffer prefixes and suffixes", "why_tests_cant": "all values times all buffer contexts.", "anchors": ["include/common_robotics_utilities/serialization.hpp: SerializeMemcpyable, DeserializeMemcpyable"]}
{"id": "C11", "title": "Container serialization round trip", "statement": "If the element serializer and deserializer round-trip in every buffer context, then so do the vector-like, memcpyable-vector, pair, string, map-like and set-like ones built from them, hence any nesting; every serializer returns the number of bytes it appended and every deserializer consumes exactly that many.", "quantifier": "all containers of all sizes, all element types given by round-tripping element (de)serializers, all buffer contexts", "why_tests_cant": "infinite family of nested types and values.", "anchors": ["include/common_robotics_utilities/serialization.hpp: SerializeVectorLike, DeserializeVectorLike, SerializePair, DeserializePair, SerializeMapLike, DeserializeMapLike, SerializeString, DeserializeString"]}
{"id": "C12", "title": "Deserialization never reads outside the buffer", "statement": "For every buffer and every offset, the memcpyable, string, vector-like, and network-memcpyable deserializers either throw or return a value computed only from bytes inside the buffer together with a byte count for which offset + count does not exceed the buffer size; truncating the buffer can never yield an out-of-bounds read.", "quantifier": "all byte buffers (hostile ones included) and all size_t offsets", "why_tests_cant": "hostile inputs; 64-bit wrap-around in size computations.", "anchors": ["include/common_robotics_utilities/serialization.hpp: DeserializeMemcpyable, DeserializeVectorLike, DeserializeMemcpyableVectorLike, DeserializeString"]}
{"id": "C13", "title": "Network byte order round trip", "statement": "SerializeNetworkMemcpyable writes the big-endian bytes of the value on every host, and DeserializeNetworkMemcpyable at that offset returns the same value.", "quantifier": "all 8/16/32/64-bit values, both host endiannesses, all buffer contexts", "why_tests_cant": "all 2^64 values; both endiannesses cannot be run on one host.", "anchors": ["include/common_robotics_utilities/serialization.hpp: SerializeNetworkMemcpyable, DeserializeNetworkMemcpyable", "src/common_robotics_utilities/serialization.cpp"]}
{"id": "C14", "title": "Graph linkage is preserved by every mutator", "statement": "Starting from any graph with valid linkage, every sequence of AddNode(value), AddEdgeBetweenNodes and AddEdgesBetweenNodes calls (including ones that throw) leaves the graph with valid linkage: every out-edge of node i goes from i to an existing other node that lists the mirrored in-edge, and vice versa.", "quantifier": "all graphs, all call sequences and arguments", "why_tests_cant": "histories are unbounded.", "anchors": ["include/common_robotics_utilities/simple_graph.hpp: Graph::AddNode, AddEdgeBetweenNodes, AddEdgesBetweenNodes, CheckGraphLinkage"]}
{"id": "C15", "title": "CheckGraphLinkage decides linkage", "statement": "CheckGraphLinkage returns true exactly when every edge of every node refers to existing nodes, starts/ends at that node, is not a self-edge, and is mirrored in the other endpoint; it never reads outside the graph, whatever indices the edges carry.", "quantifier": "all graphs, including corrupted ones", "why_tests_cant": "equivalence with an independent definition for every graph.", "anchors": ["include/common_robotics_utilities/simple_graph.hpp: Graph::CheckGraphLinkage"]}
{"id": "C16", "title": "Graph serialization round trip", "statement": "Serializing a graph with valid linkage and deserializing it returns an equal graph and consumes exactly the bytes written; deserializing bytes that describe a graph with invalid linkage throws.", "quantifier": "all graphs with valid linkage, all buffer contexts", "why_tests_cant": "infinite family of values.", "anchors": ["include/common_robotics_utilities/simple_graph.hpp: GraphEdge/GraphNode/Graph Serialize, Deserialize"]}
{"id": "C17", "title": "PruneGraph removes exactly the requested nodes", "statement": "For a graph with valid linkage and any set of existing node indices, MakePrunedGraph returns a graph with valid linkage containing exactly the other nodes, in order, with their values, and exactly the edges between kept nodes, renumbered consistently, with their weights.", "quantifier": "all graphs with valid linkage and all prune sets", "why_tests_cant": "renumbering must be right for all subsets of all graphs.", "anchors": ["include/common_robotics_utilities/simple_graph.hpp: Graph::MakePrunedGraph, PruneGraph"]}
{"id": "C18", "title": "Graph overlay behaves like a modified copy", "statement": "After any sequence of operations on a NonOwningGraphOverlay, every query (Size, IndexInRange, GetNodeImmutable, CheckGraphLinkage) answers as if the same operations had been applied to a plain copy of the base graph, and the base graph is unchanged.", "quantifier": "all base graphs and all operation sequences", "why_tests_cant": "refinement over unbounded histories.", "anchors": ["include/common_robotics_utilities/simple_graph.hpp: NonOwningGraphOverlay"]}
{"id": "C19", "title": "A* returns only real paths", "statement": "If PerformAstarSearch returns a non-empty path, the path begins with a state of one of the given starts, ends in a state satisfying the goal check, every consecutive pair is an edge generated by the child function that passed the edge validity check, and the reported cost is at least the actual accumulated cost of that path.", "quantifier": "all state spaces, heuristics (even inadmissible), cost functions with non-negative edge costs, tie-breaking orders of the priority queue", "why_tests_cant": "all graphs, heuristics and queue orders.", "anchors": ["include/common_robotics_utilities/simple_astar_search.hpp: PerformAstarSearch, ExtractAstarResult"]}
{"id": "C20", "title": "A* is optimal with an admissible heuristic", "statement": "With non-negative edge costs and an admissible heuristic, if PerformAstarSearch returns a path then its cost is minimal over all valid paths from any start (counting start costs) to any goal state, and equals the reported cost.", "quantifier": "all graphs, admissible heuristics, start sets with costs, tie-breaking orders", "why_tests_cant": "all graphs; the counterexample needs a start that already meets the goal while another start is cheaper.", "anchors": ["include/common_robotics_utilities/simple_astar_search.hpp: PerformAstarSearch"]}
{"id": "C21", "title": "A* is complete and terminates", "statement": "On a state space with finitely many reachable states and non-negative edge costs, PerformAstarSearch terminates, and it returns an empty path with infinite cost only if no goal state is reachable from any start through valid edges.", "quantifier": "all finite reachable state spaces, heuristics and tie-breaking orders", "why_tests_cant": "termination and non-existence cannot be tested.", "anchors": ["include/common_robotics_utilities/simple_astar_search.hpp: PerformAstarSearch"]}
{"id": "C22", "title": "Dijkstra distances are shortest", "statement": "PerformDijkstrasAlgorithm on a graph with valid linkage and non-negative weights assigns every node the minimal accumulated cost of a path from that node to the start index, infinity when there is none, and following the previous-index map from any reachable node reaches the start along edges of the graph.", "quantifier": "all graphs with valid linkage and non-negative weights, all start nodes and queue tie-breaks", "why_tests_cant": "all graphs.", "anchors": ["include/common_robotics_utilities/simple_graph_search.hpp: PerformDijkstrasAlgorithm"]}
{"id": "C23", "title": "Graph A* respects the graph and the lazy edge checks", "statement": "Paths returned by PerformLazyAstarSearch consist of in-range node indices, start in the start indices, end in the goal indices, and use only graph out-edges that pass the edge validity check; indices out of range throw; the result is cost-optimal for an admissible heuristic under the same proviso as A*.", "quantifier": "all graphs, start and goal index lists, validity and distance functions", "why_tests_cant": "all graphs and callbacks.", "anchors": ["include/common_robotics_utilities/simple_graph_search.hpp: PerformLazyAstarSearch, PerformAstarSearch"]}
{"id": "C24", "title": "Task planner sequences are executable", "statement": "PlanTaskStateSequence returns either an empty path or a sequence that begins at the current state with no primitive, ends in a state satisfying task completion, and in which each next state is an outcome of a primitive that is a candidate in the previous state; GetNextPrimitiveToExecute returns a primitive that is a candidate in the current state, and throws if no path was found. A trace returned by PerformSingleTaskExecution contains only states that were actually produced, never executes from a completed state, and ends in a completed state or at the execution limit.", "quantifier": "all primitive collections, outcome functions and rankings", "why_tests_cant": "all task models.", "anchors": ["include/common_robotics_utilities/simple_task_planner.hpp: PlanTaskStateSequence, GetNextPrimitiveToExecute, PerformSingleTaskExecution"]}
{"id": "C25", "title": "Action primitive names stay unique", "statement": "After any sequence of register, unregister, clear operations on an ActionPrimitiveCollection, primitive names are pairwise distinct; registering an existing name throws and changes nothing; unregistering removes exactly the named primitives and keeps the order of the rest. If the logging function throws (at any message, depending on what was logged before) the collection is as before the call; one message is logged for each primitive registered or unregistered by name.", "quantifier": "all operation sequences", "why_tests_cant": "unbounded histories.", "anchors": ["include/common_robotics_utilities/simple_task_planner.hpp: ActionPrimitiveCollection"]}
{"id": "C26", "title": "Grid index mapping is a bijection", "statement": "For valid grid sizes, GridIndexToDataIndex maps the in-bounds cells one-to-one onto [0, TotalCells), DataIndexToGridIndex is its inverse, and index-in-bounds checks accept exactly the cells of the grid; HashDataIndex gives different numbers below TotalCells for different cells.", "quantifier": "all valid sizes and all int64 indices", "why_tests_cant": "all grid sizes and index triples.", "anchors": ["include/common_robotics_utilities/voxel_grid.hpp: GridSizes"]}
{"id": "C27", "title": "Voxel grid behaves like a finite map", "statement": "After any sequence of SetIndex/SetLocation/SetRawData-style mutations, GetIndexImmutable of a cell returns the last value successfully set there (or the default), other cells are unaffected, and out-of-bounds accesses report OUT_OF_BOUNDS and change nothing.", "quantifier": "all grids, all operation sequences, all indices", "why_tests_cant": "unbounded histories; aliasing of cells only shows at particular sizes.", "anchors": ["include/common_robotics_utilities/voxel_grid.hpp: VoxelGridBase"]}
{"id": "C28", "title": "Voxel grid mutable-access hook sees the accessed cell", "statement": "Whenever a cell is accessed mutably through any overload (indices, GridIndex, location), the OnMutableAccess hook of the derived class is called with the index of that very cell, so that a hook which prohibits cells protects exactly those cells.", "quantifier": "all grids, all cells, all overloads, all hook predicates", "why_tests_cant": "depends on the overload and on cells with y != z.", "anchors": ["include/common_robotics_utilities/voxel_grid.hpp: OnMutableAccess, GetIndexMutable, SetIndex"]}
{"id": "C29", "title": "Dynamic spatial hashed grid behaves like a map of cells", "statement": "After any sequence of SetLocation calls (cell and chunk style), GetLocationImmutable at a location returns the value most recently set for its cell, or by a chunk-level set covering it, or the default if only its chunk was allocated, or not-found if nothing ever touched its chunk; a prohibited mutation changes nothing.", "quantifier": "all grids, locations and operation sequences", "why_tests_cant": "unbounded histories with chunk expansion/collapse.", "anchors": ["include/common_robotics_utilities/dynamic_spatial_hashed_voxel_grid.hpp: DynamicSpatialHashedVoxelGridBase"]}
{"id": "C30", "title": "DTW distance is the optimal warping cost", "statement": "EvaluateWarpingCost of two non-empty sequences returns the minimum over all monotone warping paths of the summed pairwise distances, and repeated use of one evaluator gives the same answer as a fresh one.", "quantifier": "all pairs of sequences, all distance functions, all evaluator histories", "why_tests_cant": "optimality over exponentially many warpings; the failing case needs a particular tie.", "anchors": ["include/common_robotics_utilities/simple_dtw.hpp: SimpleDTW::EvaluateWarpingCost"]}
{"id": "C31", "title": "Hausdorff distance", "statement": "ComputeDistance / ComputeDistanceSerial / ComputeDistanceParallel return max over the first set of min over the second set of the distance; the parallel and matrix versions return the same value as the serial one under every schedule; empty sets throw.", "quantifier": "all finite sets, distance functions with non-negative values, thread counts and schedules", "why_tests_cant": "schedules; all inputs.", "anchors": ["include/common_robotics_utilities/simple_hausdorff_distance.hpp: SimpleHausdorffDistance"]}
{"id": "C32", "title": "K-means labels", "statement": "Cluster / ClusterWeighted return one label in [0, num_clusters) per datum, and with more than one cluster the labels are stable: each datum's label is a nearest centre among the centres computed from that very labelling; the result does not depend on the schedule; zero clusters throw; with a strict mean (e.g. weighted mean and squared distances, exact arithmetic) the iteration stops for every input.", "quantifier": "all data sets, weights, distance and averaging functions, random draws, thread counts and schedules", "why_tests_cant": "fixpoint and termination claims over all inputs, draws and schedules.", "anchors": ["include/common_robotics_utilities/simple_kmeans_clustering.hpp: ClusterWeighted, Cluster"]}
{"id": "C33", "title": "Hierarchical clustering yields a bounded partition", "statement": "Clusters returned by SimpleHierarchicalClustering contain every index exactly once, none is empty, with complete linkage every cluster has diameter at most the threshold, and no two clusters could still be merged within the threshold; it terminates for every input; serial and parallel results agree.", "quantifier": "all distance matrices, thresholds, strategies", "why_tests_cant": "all matrices; termination.", "anchors": ["include/common_robotics_utilities/simple_hierarchical_clustering.hpp: IndexCluster, Cluster"]}
{"id": "C34", "title": "Shortcut smoothing preserves endpoints and validity", "statement": "ShortcutSmoothPath returns a path with the same first and last state, all of whose consecutive edges are valid whenever the input's were (for no-resample, or with marginal check), for every sequence of random draws, and uses at most max_iterations shortcuts attempts.", "quantifier": "all paths, all random sequences, all parameter settings", "why_tests_cant": "all random sequences.", "anchors": ["include/common_robotics_utilities/path_processing.hpp: ShortcutSmoothPath, AttemptShortcut"]}
{"id": "C35", "title": "Resampling keeps the path's states", "statement": "ResamplePath returns a path that starts with the input's first state, contains only input states and interpolations between consecutive ones, and whose consecutive segments are no longer than the resample distance under a metric with faithful interpolation; an empty path stays empty; a non-positive resolution throws.", "quantifier": "all paths, distance and interpolation functions", "why_tests_cant": "all inputs; boundary at zero-length segments.", "anchors": ["include/common_robotics_utilities/path_processing.hpp: ResamplePath"]}
{"id": "C36", "title": "RRT tree linkage is an invariant", "statement": "From a tree with valid linkage, every planner step that adds propagated states keeps the linkage valid: each non-root node's parent has a smaller index and lists the node as a child exactly once, and vice versa; SetNodes rejects invalid node lists without changing the tree; a node added under a non-existent parent is refused.", "quantifier": "all trees, all propagation results and call sequences", "why_tests_cant": "unbounded histories.", "anchors": ["include/common_robotics_utilities/simple_rrt_planner.hpp: SimpleRRTPlannerTree"]}
{"id": "C37", "title": "RRT solution extraction terminates and follows parents", "statement": "On a tree with valid linkage, ExtractSolutionPath from any node terminates and returns the states along the chain of parents from a root to that node.", "quantifier": "all trees with valid linkage and all goal indices", "why_tests_cant": "termination for all trees.", "anchors": ["include/common_robotics_utilities/simple_rrt_planner.hpp: ExtractSolutionPath"]}
{"id": "C38", "title": "RRT plans are sound", "statement": "Every path returned by RRTPlanMultiPath / RRTPlanSinglePath begins at a root of the initial tree, ends in a state accepted by the goal check, and each consecutive pair of states is either an edge of the initial tree or a (parent, propagated child) pair produced by the forward propagation function; default-constructed optional callbacks are accepted as documented.", "quantifier": "all callback behaviours, all iteration counts", "why_tests_cant": "all random planners.", "anchors": ["include/common_robotics_utilities/simple_rrt_planner.hpp: RRTPlanMultiPath, RRTPlanSinglePath"]}
{"id": "C39", "title": "BiRRT plans are sound", "statement": "Every path returned by BiRRTPlanMultiPath / BiRRTPlanSinglePath is a start-tree chain from a start root followed by a reversed goal-tree chain to a goal root, and the joining pair passed the states-connected check; both trees keep valid linkage. Each iteration grows the tree the select-active-tree function last chose (the start tree first), the reported counters equal the number of iterations on each tree and of changes of tree, and the single-path planner stops at the first accepted connection.", "quantifier": "all callback behaviours, all iteration counts, all active tree choices", "why_tests_cant": "all random planners.", "anchors": ["include/common_robotics_utilities/simple_rrt_planner.hpp: BiRRTPlanMultiPath, BiRRTPlanSinglePath"]}
{"id": "C40", "title": "PRM roadmap edges were checked in their own direction", "statement": "Every edge (u,v) that AddNodeToRoadmap adds to a roadmap satisfies edge validity from u to v and carries the distance from u to v, also for asymmetric validity and distance functions, in both nearest-neighbour directions; existing edges and nodes are unchanged and linkage stays valid.", "quantifier": "all roadmaps, states, asymmetric distance and validity functions, both directions", "why_tests_cant": "only asymmetric functions in one direction expose errors; all functions.", "anchors": ["include/common_robotics_utilities/simple_prm_planner.hpp: AddNodeToRoadmap"]}
{"id": "C41", "title": "PRM queries do not modify the roadmap and construction links consistently", "statement": "QueryPath/LazyQueryPath leave the roadmap unchanged; BuildRoadMap returns a roadmap with valid linkage and exactly roadmap_size nodes; UpdateRoadMapEdges keeps linkage valid and gives every edge the distance of its endpoints if valid, else infinity.", "quantifier": "all roadmaps and callback behaviours", "why_tests_cant": "all callbacks and roadmaps.", "anchors": ["include/common_robotics_utilities/simple_prm_planner.hpp: QueryPath, BuildRoadMap, UpdateRoadMapEdges"]}
{"id": "C42", "title": "PRNG state machine laws", "statement": "SplitMix64 outputs run through all 2^64 values before any repeats; discard(n) equals n draws; seed(s) makes every later output depend on s only (reproducible re-seeding); XorShift128+ and XorShift1024* seeded with any value never enter the all-zero state; XorShift128+ has period exactly 2^128 - 1 from every seed, and all seeds share one sequence.", "quantifier": "all seeds, all draw counts, all histories", "why_tests_cant": "2^64 seeds and unbounded histories.", "anchors": ["include/common_robotics_utilities/simple_prngs.hpp: SplitMix64PRNG, XorShift128PlusPRNG, XorShift1024StarPRNG"]}
{"id": "C43", "title": "Bit set/get laws", "statement": "GetBit(SetBit(x, i, b), j) is b for j = i and GetBit(x, j) otherwise, for every supported unsigned width and every bit position inside the width; shifts are never undefined for those positions.", "quantifier": "all values and bit positions of all supported widths", "why_tests_cant": "2^64 values.", "anchors": ["include/common_robotics_utilities/utility.hpp: SetBit, GetBit"]}
{"id": "C44", "title": "Clamp and spread", "statement": "ClampValue returns val if it is within [min,max] and the nearer bound otherwise (so its result is always within [min,max]), and throws if min > max; SpreadValue returns low for values below the midpoint only when they are above the low threshold etc., never a value strictly between the thresholds.", "quantifier": "all values of a totally ordered type", "why_tests_cant": "all inputs.", "anchors": ["include/common_robotics_utilities/utility.hpp: ClampValue, ClampValueAndLog, SpreadValue"]}
{"id": "C45", "title": "Subset and collection equality are multiset relations", "statement": "IsSubset(set, candidate) holds exactly when candidate's multiset of elements is contained in set's, and CollectionsEqual exactly when the two are permutations of each other.", "quantifier": "all finite collections with duplicates", "why_tests_cant": "all inputs; duplicates.", "anchors": ["include/common_robotics_utilities/utility.hpp: IsSubset, CollectionsEqual"]}
{"id": "C46", "title": "Random index stays in range", "statement": "GetUniformRandomIndex returns an index in [0, size) for every draw u in [0,1) and size >= 1 (for sizes up to 2^53 an integer next to u * size, and up to 2^50 every index for some draw), and throws for size < 1; GetUniformRandomInRange returns a value in [start, end].", "quantifier": "all sizes and all draws, including floating-point rounding", "why_tests_cant": "rounding at particular (u,size) pairs.", "anchors": ["include/common_robotics_utilities/utility.hpp: GetUniformRandomIndex, GetUniformRandomInRange"]}
{"id": "C47", "title": "OwningMaybe object lifetimes", "statement": "Under any sequence of construction, copy, move, assignment (including self-assignment), Reset and destruction, every contained object is destroyed exactly once, none is used after destruction, Value() throws on an empty maybe, and a copy holds an equal value independent of the original.", "quantifier": "all operation sequences over any number of maybes", "why_tests_cant": "unbounded histories; leaks and double destruction are not observable in ordinary tests.", "anchors": ["include/common_robotics_utilities/maybe.hpp: OwningMaybe, TaggedUnion"]}
{"id": "C48", "title": "OnScopeExit runs exactly once", "statement": "The action given to OnScopeExit runs exactly once, on destruction, if and only if Disable was not called on the guard before; guards are unwound innermost first on normal exits and exceptions alike; IsEnabled tells whether the action will run; an empty action throws at construction.", "quantifier": "all programs of nested scopes, Disable/IsEnabled calls, loops, exceptions and handlers", "why_tests_cant": "histories.", "anchors": ["include/common_robotics_utilities/utility.hpp: OnScopeExit"]}
{"id": "C49", "title": "OpenMP thread-count wrappers restore the previous setting", "statement": "After any properly nested use of the thread-count changing RAII wrappers, including early exits by exception, the OpenMP thread count equals its value before.", "quantifier": "all nestings and values", "why_tests_cant": "unbounded nesting.", "anchors": ["include/common_robotics_utilities/openmp_helpers.hpp: ChangeOmpNumThreadsWrapper"]}
{"id": "C50", "title": "Continuous revolute arithmetic", "statement": "In exact arithmetic, EnforceContinuousRevoluteBounds maps every angle to the unique congruent angle in [-pi, pi); signed distance is the congruent difference in [-pi, pi); adding it to the first angle gives the second; InterpolateContinuousRevolute hits both endpoints; CheckInContinuousRevoluteBounds is invariant under full turns.", "quantifier": "all real angles", "why_tests_cant": "uncountable domain; wrap-around boundary.", "anchors": ["src/common_robotics_utilities/math.cpp: EnforceContinuousRevoluteBounds, ContinuousRevoluteSignedDistance, GetContinuousRevoluteRange, CheckInContinuousRevoluteRange"]}
{"id": "C51", "title": "Weighted averaging and multilinear interpolation identities", "statement": "In exact arithmetic the running AverageStdVectorDouble/AverageEigenVector equals sum(|w| v)/sum(|w|) and throws exactly for empty input, mismatched sizes or all-zero weights; Linear/Bilinear/TrilinearInterpolate reproduce every multilinear function.", "quantifier": "all vectors, weights and query points over an ordered field", "why_tests_cant": "all inputs.", "anchors": ["src/common_robotics_utilities/math.cpp: AverageStdVectorDouble", "include/common_robotics_utilities/math.hpp: AverageEigenVector, LinearInterpolate, BilinearInterpolate, TrilinearInterpolate"]}
{"id": "C52", "title": "Pairwise distance matrix", "statement": "BuildPairwiseDistanceMatrix returns, for every schedule of its workers, the symmetric matrix with zero diagonal whose entry (i,j), i<j, is the distance of items i and j; concurrent workers never write the same entry; the two-set version returns d(a_i, b_j).", "quantifier": "all data, distance functions and schedules", "why_tests_cant": "schedules; data-race freedom.", "anchors": ["include/common_robotics_utilities/math.hpp: BuildPairwiseDistanceMatrix"]}
{"id": "C53", "title": "Truncated Gaussian samples stay in bounds", "statement": "Every sample drawn from a TruncatedGaussianDistribution(mean, stddev, lower, upper) lies in [lower, upper], whatever values the underlying uniform, normal and exponential draws take.", "quantifier": "all parameters accepted by the constructor, all draw sequences", "why_tests_cant": "depends on the sampling case and on rare draws.", "anchors": ["include/common_robotics_utilities/gaussian_distributions.hpp: TruncatedGaussianDistribution"]}
{"id": "C54", "title": "Colour channel round trip", "statement": "ColorChannelToHex(ColorChannelFromHex(h)) == h for every 8-bit h; trimmed channels (other than NaN) are always in [0,1]; MakeFromHexColors then GetXHex returns the same bytes.", "quantifier": "all 256 channel values (with float rounding) and all channel values", "why_tests_cant": "needs IEEE single rounding for every value.", "anchors": ["include/common_robotics_utilities/color_builder.hpp: ColorChannelFromHex, ColorChannelToHex, RGBAColor"]}
{"id": "C55", "title": "zlib framing loses nothing", "statement": "For every way zlib may split its output over calls, CompressBytes returns the complete output stream and DecompressBytes returns the complete inflated stream, in order, without loss or duplication at buffer boundaries; a stream error throws.", "quantifier": "all inputs and all chunking behaviours of the stream library", "why_tests_cant": "chunk boundaries depend on data and library.", "anchors": ["src/common_robotics_utilities/zlib_helpers.cpp: CompressBytes, DecompressBytes"]}
{"id": "C56", "title": "Matrix serialization round trip, including empty matrices", "statement": "SerializeMatrixXd followed by DeserializeMatrixXd at that offset returns an equal matrix and the written byte count for every dynamic matrix, including ones with zero rows or columns, without forming an out-of-range element reference.", "quantifier": "all matrices of all dimensions, all buffer contexts", "why_tests_cant": "tests use a few shapes, and an empty matrix usually works by accident.", "anchors": ["src/common_robotics_utilities/serialization.cpp: SerializeMatrixXd, DeserializeMatrixXd"]}
{"id": "C57", "title": "In-place network serialization stays inside the buffer", "statement": "For every buffer and every uint64 position, SerializeNetworkMemcpyableInPlace either throws or overwrites exactly the sizeof(T) addressed bytes inside the buffer with the big-endian value.", "quantifier": "all buffers and all uint64 positions", "why_tests_cant": "the overflow of position + size occurs only near 2^64.", "anchors": ["include/common_robotics_utilities/serialization.hpp: SerializeNetworkMemcpyableInPlace"]}
{"id": "C58", "title": "Graph in- and out-edge lists stay in step", "statement": "From an empty graph or any graph whose in- and out-edge lists describe the same edges, every sequence of AddNode(value), AddEdgeBetweenNodes, AddEdgesBetweenNodes and pruning keeps, for all nodes i and j, the edges i->j recorded at i equal to those recorded at j, weights and multiplicity included (stronger than CheckGraphLinkage).", "quantifier": "all graphs, all call sequences including throwing calls, all prune sets", "why_tests_cant": "CheckGraphLinkage itself does not look at weights or multiplicity; histories are unbounded.", "anchors": ["include/common_robotics_utilities/simple_graph.hpp: Graph, PruneGraph"]}
{"id": "C59", "title": "Dijkstra results survive serialization", "statement": "A DijkstrasResult that was serialized is deserialized to an equal result, whatever precedes and follows it in the buffer; deserializing arbitrary bytes throws or yields a result whose index map and distance array have equal length, reads only inside the buffer and reports the bytes it consumed.", "quantifier": "all results, buffers and offsets", "why_tests_cant": "all byte strings.", "anchors": ["include/common_robotics_utilities/simple_graph_search.hpp: DijkstrasResult::Serialize, DijkstrasResult::Deserialize"]}
{"id": "C60", "title": "Voxel grid geometry", "statement": "A query location inside the grid's extents is in exactly one cell, the one whose half-open box contains it; the centre of every cell maps back to that cell; a grid requested by physical sizes covers them with less than one extra cell along each axis.", "quantifier": "all valid grid sizes, all locations and all cells", "why_tests_cant": "floor and ceil boundaries at every cell of every grid; tests sample a few.", "anchors": ["include/common_robotics_utilities/voxel_grid_common.hpp: GridSizes, LocationInGridFrameToGridIndex, IndexToLocationInGridFrame", "include/common_robotics_utilities/voxel_grid.hpp: VoxelGridBase"]}
{"id": "C61", "title": "Map helpers keep keys and values together", "statement": "MakeFromKeysAndValues throws when the two sequences differ in length and otherwise builds a map in which every key listed has the value paired with its last occurrence and nothing else is present; RetrieveOrDefault returns the stored value or the default and changes nothing; GetKeysAndValues followed by MakeFromKeysAndValues gives back the same map.", "quantifier": "all key and value sequences, all maps, all keys", "why_tests_cant": "repeated keys and mismatched lengths in every combination.", "anchors": ["include/common_robotics_utilities/utility.hpp: MakeFromKeysAndValues, RetrieveOrDefault, GetKeysAndValues"]}
{"id": "C62", "title": "Kinematic extend and connect add only valid short steps", "statement": "The RRT kinematic extend and connect functions reject a non-positive step size; otherwise extend adds at most one state, the sample itself or the state one step towards it, and connect adds a chain of such states; every edge from the nearest neighbour through the chain was accepted by the validity check, no edge is longer than the step (up to rounding), and every path returned by RRT or BiRRT with these propagation functions consists of edges accepted by the check.", "quantifier": "all distance, interpolation and validity functions, step sizes and samples", "why_tests_cant": "tests use one Euclidean space and one step size.", "anchors": ["include/common_robotics_utilities/simple_rrt_planner.hpp: MakeKinematicRRTExtendPropagationFunction, MakeKinematicRRTConnectPropagationFunction, MakeKinematicBiRRTExtendPropagationFunction, MakeKinematicBiRRTConnectPropagationFunction"]}
{"id": "C63", "title": "Planner timeout", "statement": "The timeout check throws when not started and the helper rejects a non-positive timeout; the RRT and BiRRT timeout termination functions start the clock at their first call, once they answer stop they keep answering stop, they answer stop once more than the timeout has elapsed and not before (up to rounding), and a planner using them on an advancing clock returns.", "quantifier": "all clock readings and timeouts, all planner environments", "why_tests_cant": "needs all timings.", "anchors": ["include/common_robotics_utilities/simple_rrt_planner.hpp: TimeoutCheckHelper, MakeRRTTimeoutTerminationFunction, MakeBiRRTTimeoutTerminationFunction"]}
{"id": "C64", "title": "Sampling and nearest-neighbour helpers of the planners", "statement": "The goal-biased sampling helper returns either a sampled state or a listed goal, chosen by the bias, every goal for some draw, and rejects a bias outside [0,1] or an empty goal list; the BiRRT tree-sampling helper returns an existing node index, each for some draw; the select-sample and active-tree helpers honour bias 0 and 1; the nearest-neighbour helper returns an index of a tree node at minimal distance for every thread schedule and throws on an empty tree.", "quantifier": "all biases, generator outputs, trees, distance functions and thread schedules", "why_tests_cant": "boundary draws have tiny probability; schedules vary.", "anchors": ["include/common_robotics_utilities/simple_rrt_planner.hpp: MakeStateAndGoalsSamplingFunction, MakeUniformRandomBiRRTTreeSamplingFunction, MakeUniformRandomBiRRTSelectSampleTypeFunction, MakeUniformRandomBiRRTSelectActiveTreeFunction, MakeLinearRRTNearestNeighborsFunction"]}
{"id": "C65", "title": "Planner trees survive serialization", "statement": "A planner tree with valid linkage is deserialized to an equal tree, whatever precedes and follows it in the buffer; bytes written for nodes without valid linkage are refused with invalid_argument; deserializing arbitrary bytes throws or yields a tree with valid linkage, reads only inside the buffer and reports the bytes it consumed.", "quantifier": "all trees, state serializers, buffers and offsets", "why_tests_cant": "all byte strings.", "anchors": ["include/common_robotics_utilities/simple_rrt_planner.hpp: SimpleRRTPlannerState::Serialize, SimpleRRTPlannerState::Deserialize, SimpleRRTPlannerTree::Serialize, SimpleRRTPlannerTree::Deserialize"]}
{"id": "C66", "title": "Growing a roadmap", "statement": "GrowRoadMap on a roadmap with valid linkage never fails; its statistics add up to the number of samples, the roadmap grew by exactly the samples counted as successful, old nodes keep their states and edges, linkage stays valid, every added state was sampled and found valid, every new edge was accepted by the check in its own direction and carries the distance in that direction, and with duplicates disallowed no state is added at distance zero from one already present.", "quantifier": "all samplers, validity and distance functions, termination conditions and thread schedules", "why_tests_cant": "random histories of any length.", "anchors": ["include/common_robotics_utilities/simple_prm_planner.hpp: GrowRoadMap"]}
{"id": "C67", "title": "Roadmap queries return the best path", "statement": "QueryPath and LazyQueryPath answer with a path of states from one of the starts to one of the goals along roadmap edges extended by the connections of starts and goals, each edge accepted by the validity check in its direction, of minimal length among all such paths when the distance is a lower bound on path lengths, or with an empty path of infinite length exactly if there is none; the overlay and the copying variant give the same answers.", "quantifier": "all roadmaps, starts, goals, asymmetric functions, nearest-neighbour providers and thread schedules", "why_tests_cant": "optimality quantifies over all paths.", "anchors": ["include/common_robotics_utilities/simple_prm_planner.hpp: QueryPath, LazyQueryPath, QueryPathAndAddNodes, LazyQueryPathAndAddNodes, ExtractSolution"]}
{"id": "C68", "title": "Projections, hyperplanes and norm clamping", "statement": "The projection of a vector on a base vector is a multiple of the base, the rejection is orthogonal to it and the two add up to the vector (a zero base gives projection zero); the arbitrary orthogonal vector is non-zero and orthogonal for every vector of dimension two or more and an error otherwise; the one for a plane is non-zero and orthogonal, and in the plane if the given vector is, for every two vectors that span a plane, and an error if they have the same or opposite direction; projecting a point on a hyperplane gives the unique nearest point of the plane and the reported distance is the distance to it; ClampNorm with a non-negative bound shortens a vector to the bound along its own direction and changes no shorter one.", "quantifier": "all dimensions, vectors, planes and bounds (exact arithmetic)", "why_tests_cant": "tests use a few 3-vectors.", "anchors": ["include/common_robotics_utilities/math.hpp: VectorProjection, VectorRejection, GetArbitraryOrthogonalVector, GetArbitraryOrthogonalVectorToPlane, Hyperplane, ClampNorm"]}
{"id": "C69", "title": "State distances are metrics", "statement": "SquaredDistance and Distance reject vectors of different lengths and otherwise are non-negative, symmetric, zero exactly for equal points and satisfy the triangle inequality, the fixed-size and the std::vector versions agreeing; the quaternion distance is the angle of the relative rotation, independent of the signs of the quaternions, symmetric and a metric on rotations; the pose distance is the convex combination of both, with the weight clamped to [0, 1].", "quantifier": "all points, unit quaternions, poses and weights (exact arithmetic)", "why_tests_cant": "planners depend on the metric axioms for all states; tests check a few pairs.", "anchors": ["src/common_robotics_utilities/math.cpp: SquaredDistance, Distance", "include/common_robotics_utilities/math.hpp: Distance, SquaredDistance"]}
{"id": "C70", "title": "Twists and the exponential map", "statement": "Unskew inverts Skew, whose product with a vector is the cross product; TwistUnhat inverts TwistHat; the adjoint respects composition and TransformTwist is conjugation of TwistHat by the transform; ExpMatrixExact of a unit axis is the matrix exponential, a rotation about the axis, and throws for an axis that is not of unit length; ExpTwist is a rigid motion, the matrix exponential of delta_t times TwistHat, so times add up; following TwistBetweenTransforms(a, b) for unit time leads from a to b.", "quantifier": "all vectors, twists, rigid transforms and times (exact arithmetic)", "why_tests_cant": "holds on a continuum; tests compare a few motions up to a tolerance.", "anchors": ["src/common_robotics_utilities/math.cpp: Skew, Unskew, TwistHat, TwistUnhat, AdjointFromTransform, TransformTwist, TwistBetweenTransforms, ExpMatrixExact, ExpTwist"]}
{"id": "C71", "title": "Linear interpolation", "statement": "Interpolate clamps the ratio to [0, 1], returns the first argument at 0 and the second at 1 exactly (also in floating point), lies between them otherwise, is monotone in the ratio and symmetric under exchange; in floating point it is within a few units in the last place of the exact value; the vector versions do the same for each coordinate and reject vectors of different sizes.", "quantifier": "all numbers, ratios and vectors", "why_tests_cant": "floating-point exactness at the ends must hold for every pair of doubles.", "anchors": ["src/common_robotics_utilities/math.cpp: Interpolate, InterpolateXd, Interpolate3d, Interpolate4d"]}
{"id": "C72", "title": "Gaussian densities and distribution functions", "statement": "For a positive standard deviation the Gaussian PDF is the derivative of the CDF, the CDF increases strictly from 0 to 1 and IntegrateGaussian is the integral of the PDF and throws for reversed limits; the truncated versions are 0 below the lower and 1 above the upper bound, increase strictly between, have the truncated PDF as derivative between the bounds, and throw for reversed bounds; IntegrateTruncatedGaussian lies in [0, 1] and is additive.", "quantifier": "all means, positive standard deviations, bounds and values (exact arithmetic)", "why_tests_cant": "calculus identities on the real line.", "anchors": ["include/common_robotics_utilities/gaussian_distributions.hpp: EvaluateGaussianCDF, EvaluateGaussianPDF, EvaluateTruncatedGaussianCDF, EvaluateTruncatedGaussianPDF, IntegrateGaussian, IntegrateTruncatedGaussian"]}
{"id": "C73", "title": "Multivariate Gaussian sampling", "statement": "For every mean of dimension n and every positive semidefinite n x n covariance matrix a multivariate Gaussian distribution can be constructed, other sizes are refused, and its samples have the multivariate Gaussian law with the given mean and covariance.", "quantifier": "all dimensions, means and covariance matrices (exact arithmetic, decompositions by specification)", "why_tests_cant": "moments of a distribution cannot be settled by samples, and every dimension matters.", "anchors": ["include/common_robotics_utilities/gaussian_distributions.hpp: MultivariteGaussianDistribution"]}
{"id": "C74", "title": "Files of compressed data", "statement": "If CompressAndWriteToFile returns, LoadFromFileAndDecompress on that file returns the same bytes; a file that cannot be opened or read completely throws.", "quantifier": "all data, all library chunkings, all file system outcomes", "why_tests_cant": "needs failing file systems.", "anchors": ["src/common_robotics_utilities/zlib_helpers.cpp: LoadFromFileAndDecompress, CompressAndWriteToFile"]}
{"id": "C75", "title": "Colour ramps, palettes and comparison", "statement": "InterpolateHotToCold returns an opaque colour with channels in [0, 1] that runs blue, cyan, green, yellow, red as the value goes from the lower to the upper bound, clamps values outside and throws for reversed bounds; LookupUniqueColor gives transparent white for 0, twenty different colours for 1 to 20 and black beyond; ColorsEqual with tolerance 0 holds exactly for colours with equal channels, and a larger tolerance accepts no fewer.", "quantifier": "all values and bounds, all codes, all pairs of float colours", "why_tests_cant": "a continuum of values, and underflow of float differences.", "anchors": ["include/common_robotics_utilities/color_builder.hpp: InterpolateHotToCold, LookupUniqueColor, ColorsEqual"]}
{"id": "C76", "title": "Blends of a time-optimal path", "statement": "Where the path turns at a waypoint (neither nearly straight on nor exactly back, and with legs of at least 1e-6), the circular blend leaves the incoming leg in its direction and joins the outgoing leg in its direction at equal distances from the waypoint, stays within the permitted deviation of the legs, is not longer than the way round the corner, is as large as leg lengths and deviation permit, and is parametrized by arc length with unit tangents; its switching points are exactly the interior places where a coordinate of the tangent changes from non-zero to zero; otherwise no blend is made.", "quantifier": "all dimensions, corners, positive deviations and places on the blend (exact arithmetic)", "why_tests_cant": "a continuum of corners; tests look at sampled trajectories of two paths.", "anchors": ["src/common_robotics_utilities/time_optimal_trajectory_parametrization.cpp: CircularPathSegment"]}
{"id": "C77", "title": "The path of a time-optimal trajectory follows the waypoints", "statement": "For waypoints whose last two differ and, with a positive deviation, that are more than 2e-6 apart with no exact reversal, the path starts at the first and ends at the last waypoint, is nowhere further than the permitted deviation from the polyline, passes all waypoints in order within that deviation (exactly when it is not positive), is not longer than the polyline, moves by no more than the distance travelled (up to 1e-6 per corner) and has unit tangents; between consecutive switching points it is smooth with curvature the derivative of the tangent and no tangent coordinate changes between zero and non-zero; fewer than two waypoints or a non-finite deviation are refused.", "quantifier": "all waypoint lists, dimensions, deviations and places (exact arithmetic)", "why_tests_cant": "holds at a continuum of places of unboundedly long paths.", "anchors": ["src/common_robotics_utilities/time_optimal_trajectory_parametrization.cpp: Path, LinearPathSegment, CircularPathSegment"]}
{"id": "C78", "title": "Limits on the path velocity and acceleration", "statement": "At every place of a path and every path velocity, path accelerations between the computed minimum and maximum are exactly those for which every joint keeps its acceleration limit; a path velocity is at most the velocity limit exactly if every joint keeps its velocity limit; velocities above the acceleration limit admit no path acceleration, those below admit one; the slope of the velocity limit is its derivative.", "quantifier": "all dimensions, tangents, curvatures, limits, velocities and accelerations (exact arithmetic with infinities and NaN)", "why_tests_cant": "a continuum of places and velocities.", "anchors": ["src/common_robotics_utilities/time_optimal_trajectory_parametrization.cpp: GetMinMaxPathAcceleration, GetAccelerationMaxPathVelocity, GetVelocityMaxPathVelocity, GetVelocityMaxPathVelocityDeriv"]}
{"id": "C79", "title": "Asking a trajectory does not depend on earlier questions", "statement": "GetPositionVelocityTimePoint(t) gives the same answer whatever was asked before, in any order, on the original or on clones, whatever was destroyed in the meantime.", "quantifier": "all trajectories, all sequences of questions, clones and destructions", "why_tests_cant": "the cached iterator makes answers depend on histories.", "anchors": ["src/common_robotics_utilities/time_optimal_trajectory_parametrization.cpp: GetTrajectorySegment, GetPositionVelocity, TOTPTrajectoryImpl"]}
{"id": "C80", "title": "Between its steps a trajectory moves smoothly", "statement": "At every time from 0 to the duration the reported velocity is the derivative of the reported position, the path position and velocity at the time of each step are those of the step, between two steps the path acceleration is constant, and after the duration the trajectory stays at its end.", "quantifier": "all trajectories with advancing steps, all times (exact arithmetic)", "why_tests_cant": "a continuum of times.", "anchors": ["src/common_robotics_utilities/time_optimal_trajectory_parametrization.cpp: GetPositionVelocity, GetTrajectorySegment, Trajectory"]}
{"id": "C81", "title": "Parametrizing a path ends, from rest to rest", "statement": "ParametrizePathTOTP refuses fewer than two waypoints and arguments that are not finite; for positive limits and timestep it terminates, throws nothing else, and makes a trajectory that starts at rest at the first and ends at rest at the last waypoint, with steps that advance in position and time.", "quantifier": "all waypoint lists, dimensions, positive limits and timesteps (exact arithmetic)", "why_tests_cant": "termination for every input.", "anchors": ["src/common_robotics_utilities/time_optimal_trajectory_parametrization.cpp: ParametrizePathTOTP, Trajectory, IntegrateForward, IntegrateBackward, GetNextSwitchingPoint"]}
{"id": "C82", "title": "Joint limits along a straight line", "statement": "On a trajectory between two waypoints every joint keeps its velocity and acceleration limits at every time, and never moves back.", "quantifier": "all dimensions, pairs of waypoints, positive limits and timesteps, all times (exact arithmetic)", "why_tests_cant": "a continuum of times; tests sample one path.", "anchors": ["src/common_robotics_utilities/time_optimal_trajectory_parametrization.cpp: ParametrizePathTOTP, Trajectory::GetPositionVelocity"]}
{"id": "C83", "title": "Voxel grids survive serialization", "statement": "A voxel grid, after any history of calls, serializes and deserializes to a grid with the same transform, sizes, default and out-of-bounds values, initialization state and cell contents, consuming exactly the bytes written and leaving the surrounding bytes alone; whatever bytes are offered, deserialization reads only within the buffer and either throws or returns a consistent grid that is a map from its cells to values.", "quantifier": "all histories, cell types that round-trip, byte orders, arithmetics, prefixes and suffixes, and all byte buffers", "why_tests_cant": "all grids, all histories and all corrupted buffers.", "anchors": ["include/common_robotics_utilities/voxel_grid.hpp: GridSizes::Serialize, GridSizes::Deserialize, VoxelGridBase::BaseSerialize, VoxelGridBase::BaseDeserialize, VoxelGrid::Serialize, VoxelGrid::Deserialize"]}
{"id": "C84", "title": "Dynamic voxel grids survive serialization", "statement": "A dynamic spatial hashed voxel grid, after any history of calls, serializes and deserializes, whatever the order in which its hash map lists the chunks, to a grid with the same transform, chunk sizes, default value and, for every chunk, the same fill status and values, consuming exactly the bytes written; whatever bytes are offered, deserialization reads only within the buffer and either throws or returns a consistent grid in which every location can be queried.", "quantifier": "all histories, hash orders, cell types that round-trip, byte orders, arithmetics, prefixes and suffixes, and all byte buffers", "why_tests_cant": "all histories, iteration orders and corrupted buffers.", "anchors": ["include/common_robotics_utilities/dynamic_spatial_hashed_voxel_grid.hpp: ChunkRegion::Serialize, DynamicSpatialHashedVoxelGridChunk::Serialize, DynamicSpatialHashedVoxelGridChunk::Deserialize, DynamicSpatialHashedVoxelGrid::Serialize, DynamicSpatialHashedVoxelGrid::Deserialize"]}
{"id": "C85", "title": "The best-fit plane", "statement": "FitPlaneToPoints returns a plane through the mean of the points with a unit normal for which the sum of the squared distances of the points is the smallest of all planes; points of a common plane, and any number of points smaller than the dimension, lie on it; it throws for no points and for points of dimension zero.", "quantifier": "all dimensions, numbers of points and points, all singular value decompositions Eigen may return (exact arithmetic)", "why_tests_cant": "optimality over all planes, for every point set.", "anchors": ["src/common_robotics_utilities/math.cpp: FitPlaneToPoints, AverageEigenVectorXd", "include/common_robotics_utilities/math.hpp: Hyperplane"]}
{"id": "C86", "title": "Averages of rotations and poses", "statement": "AverageEigenQuaterniond of unit quaternions returns a unit quaternion whose rotation has the least weighted sum of squared distances from the given rotations, of all rotations, the weights acting by their squares; it does not depend on which of its two quaternions represents a rotation, gives back a common rotation, returns a single quaternion as it is, and rejects empty input, weights of another number and a single weight of zero; AverageEigenIsometry3d combines it with the weighted mean of the translations.", "quantifier": "all lists of rotations and poses, all weights, all results of the eigenvalue solver that meet its specification (exact arithmetic)", "why_tests_cant": "optimality over all rotations.", "anchors": ["src/common_robotics_utilities/math.cpp: AverageEigenQuaterniond, AverageEigenIsometry3d"]}
{"id": "C87", "title": "Roll, pitch, yaw and other conversions", "statement": "QuaternionFromRPY is the rotation about x by the roll, times that about y by the pitch, times that about z by the yaw, and the URDF version the reverse product; the transforms built from them have this rotation and the given translation, and reject vectors that do not have six elements; TransformFromRPY(TransformToRPY(T)) is T for every rigid transform, in the gimbal lock too; conversions between Eigen vectors, quaternions (in the order x, y, z, w) and std::vector keep all elements and reject wrong sizes.", "quantifier": "all angles, translations, rigid transforms and vectors (exact arithmetic)", "why_tests_cant": "a continuum of rotations, including the singular ones.", "anchors": ["src/common_robotics_utilities/conversions.cpp: QuaternionFromRPY, QuaternionFromUrdfRPY, TransformFromRPY, TransformFromUrdfRPY, TransformToRPY, EulerAnglesFromRotationMatrix, StdVectorDoubleToEigenQuaterniond, EigenQuaterniondToStdVectorDouble"]}
{"id": "C88", "title": "Uniform random rotations", "statement": "GetQuaternion returns a unit quaternion for every generator state, made of three consecutive draws, and with independent uniform draws it is uniformly distributed on the unit sphere, so its distribution does not change under multiplication by a fixed rotation on either side; GetRawQuaternion gives the same as x, y, z, w; GetEulerAngles makes of four draws a roll and yaw in [-pi, pi) and a pitch in [0, 2 pi) whose rotation, in the order x-y-z or z-y-x, has the same uniform distribution.", "quantifier": "all generators (unit length and ranges), all measurable sets of rotations (distribution), exact arithmetic", "why_tests_cant": "uniformity is a statement about all measurable sets; tests can only look at histograms.", "anchors": ["include/common_robotics_utilities/random_rotation_generator.hpp: GenerateUniformRandomQuaternion, GenerateUniformRandomEulerAngles, RandomRotationGenerator"]}
{"id": "C89", "title": "Interpolation of rotations and poses", "statement": "Interpolate of unit quaternions starts at the first and ends at the second rotation and in between turns at constant rate about a fixed axis the shorter way: the angle between the rotations at two ratios is the difference of the ratios, clamped to [0, 1], times the angle between the arguments; the result is a unit quaternion except for nearly equal rotations, where its squared length is within rounding of 1; replacing a quaternion by its negative does not change the rotation; Interpolate of poses does this for the rotation and interpolates the translation linearly.", "quantifier": "all unit quaternions, rigid transforms and ratios (exact arithmetic)", "why_tests_cant": "a continuum of rotations and ratios.", "anchors": ["src/common_robotics_utilities/math.cpp: Interpolate"]}
{"id": "C90", "title": "Arithmetic of vectors and weighted angles", "statement": "The operations on std::vector (Abs, Multiply, Divide, Add, Sub) work element by element and throw for different sizes; Sum and SquaredNorm are within the classical error bound of the exact value and Norm is the Euclidean norm; the weighted angle of two vectors, for weights that are not negative, is the Euclidean angle after scaling the coordinates by the square roots of the weights, is symmetric, lies in [0, pi], and the call throws exactly when a scaled vector is zero.", "quantifier": "all vectors, sizes, weights and roundings of bounded relative error", "why_tests_cant": "all sizes and roundings.", "anchors": ["src/common_robotics_utilities/math.cpp: SquaredNorm, Norm, Abs, Multiply, Divide, Add, Sub, Sum, WeightedDotProduct, WeightedNorm, WeightedCosineAngleBetweenVectors, WeightedAngleBetweenVectors"]}
{"id": "C91", "title": "Exact and approximate comparison", "statement": "CloseEnough of two doubles holds exactly when their rounded difference is at most the absolute value of the threshold, in either order of the arguments, and with threshold zero exactly for equal numbers; CloseEnough of vectors holds exactly when it holds for each coordinate; nothing is close to a NaN; Equal3d and Equal4d hold exactly for identical vectors without NaN.", "quantifier": "all doubles including infinities and NaN, all vectors and thresholds", "why_tests_cant": "special values and subnormal differences.", "anchors": ["src/common_robotics_utilities/math.cpp: Equal3d, Equal4d, CloseEnough"]}
{"id": "C92", "title": "The generators compute the published algorithms", "statement": "Draw n of SplitMix64PRNG, XorShift128PlusPRNG and XorShift1024StarPRNG constructed with a seed is the n-th output of the published SplitMix64, xorshift128+ and xorshift1024* algorithm, the latter two started with the SplitMix64 outputs for that seed.", "quantifier": "all seeds and all numbers of draws", "why_tests_cant": "every seed and unboundedly many draws; a wrong constant still gives plausible numbers.", "anchors": ["include/common_robotics_utilities/simple_prngs.hpp: SplitMix64PRNG, XorShift128PlusPRNG, XorShift1024StarPRNG"]}
{"id": "C93", "title": "Messages and Eigen types", "statement": "A ROS point, vector or quaternion message converted to Eigen and back is the same, bit for bit, and the other way round; homogeneous points get 1 and vectors 0, so that a pose moves points and only turns vectors; an isometry converted to a pose or transform message and back is the same isometry, with a unit quaternion in the message; a message with a unit quaternion converted to an isometry and back has the same position and the same quaternion up to its sign; conversions of containers and 3xN matrices convert each element in order; stamped messages carry the frames and stamps given.", "quantifier": "all numbers (copied bit for bit), all isometries and unit quaternions (exact arithmetic), all lists", "why_tests_cant": "all four branches of the matrix-to-quaternion conversion, for every rotation.", "anchors": ["src/common_robotics_utilities/ros_conversions.cpp: all functions", "include/common_robotics_utilities/ros_helpers.hpp: SetMessageTimestamps"]}
{"id": "C94", "title": "ReferencingMaybe refers and does not own", "statement": "If every object outlives the maybes that refer to it, no history of constructions, assignments, resets and writes through ReferencingMaybe has undefined behaviour, Value throws std::runtime_error exactly if the maybe is empty, copies refer to the same object so that writes through one are seen through all, and no operation other than writing through Value changes or destroys an object.", "quantifier": "all programs with any number of objects and maybes", "why_tests_cant": "histories of aliasing and object lifetimes.", "anchors": ["include/common_robotics_utilities/maybe.hpp: ReferencingMaybe"]}
{"id": "C95", "title": "Copyable atomics lose no update", "statement": "With CopyableMoveableAtomic used by any number of threads, an atomic that nobody stores to ends with its value plus all that was added minus all that was subtracted; fetch_add of the same number by many threads returns each multiple exactly once; copying gives the destination the value the source had when it was read and self-assignment changes nothing.", "quantifier": "all numbers of threads, programs and interleavings", "why_tests_cant": "data races show only under some schedules.", "anchors": ["include/common_robotics_utilities/utility.hpp: CopyableMoveableAtomic"]}
{"id": "C96", "title": "Printed values can be read back", "statement": "The text Print makes of a value with add_delimiters = true determines the value: two values of the same type (booleans, bytes, integers, Eigen vectors, quaternions, isometries, pairs, sequences, sets and maps, nested to any depth) with the same text are equal (floating-point numbers: printed alike), for every separator whose first character is no delimiter and no part of a number. The elements of a container appear in the order of iteration, separated by the separator. MatrixXd prints its shape and entries faithfully.", "quantifier": "all values of all types built from the supported containers, all separators as described", "why_tests_cant": "the claim compares every pair of values of infinitely many types; unit tests compare a few texts.", "anchors": ["include/common_robotics_utilities/print.hpp: Print"]}
{"id": "C97", "title": "hash_combine loses nothing of the last member", "statement": "Objects that agree in all members but the last have the same combined hash only if std::hash of that member is the same, and the last member's hash can bring about every value.", "quantifier": "all lists of member hashes of any length, all 2^64 hash values", "why_tests_cant": "2^64 hash values and unbounded member lists; a shift or precedence slip still looks random in a test.", "anchors": ["include/common_robotics_utilities/utility.hpp: hash_combine, CRU_MAKE_HASHABLE"]}
{"id": "C98", "title": "Exceptions of functors leave a parallel loop", "statement": "StaticParallelForIndexLoop (both backends) and DynamicParallelForIndexLoop (OpenMP) throw exactly if the functor throws on some index of the range, and then one of the exceptions thrown; no index is visited twice; the static loop still visits exactly the indices before which the functor throws on no index of the same work range, the dynamic one visits all; without OpenMP, or on one thread, it is the exception of the lowest index.", "quantifier": "all ranges, numbers of threads, functors (any set of indices that throw) and interleavings", "why_tests_cant": "which exception wins and what is still visited depends on the schedule.", "anchors": ["include/common_robotics_utilities/parallelism.hpp: StaticParallelForIndexLoop, DynamicParallelForIndexLoop, StaticParallelForRangeLoop, DynamicParallelForRangeLoop"]}
{"id": "C99", "title": "Decode accepts every common way to write base64", "statement": "If a text differs from Encode(b) only in writing '-' or '.' for '+', '_' or ',' for '/', anywhere, and in leaving out any of the trailing '=', Decode of it is b: in particular unpadded base64 and base64url.", "quantifier": "all byte vectors and all such variants of their texts", "why_tests_cant": "exponentially many variants of each of infinitely many texts.", "anchors": ["src/common_robotics_utilities/base64_helpers.cpp: Decode"]}
{"id": "C100", "title": "Fixed-size Eigen types serialize bit for bit in a fixed layout", "statement": "SerializeVector2d/3d/4d, SerializeQuaterniond and SerializeIsometry3d append 16, 24, 32, 32 and 128 bytes: the coefficients in the order x, y, z, w (the quaternion's w last) and, for an isometry, its 4 by 4 matrix column by column. The matching deserializers return the same bits at that offset whatever surrounds them, refuse a buffer that is too short with std::invalid_argument, and never read outside the buffer.", "quantifier": "every value of each type (any bit pattern), every buffer content before and after, every 64-bit offset", "why_tests_cant": "all bit patterns, buffers and offsets; a test samples a few, and a swapped coefficient can cancel out in a round trip", "anchors": ["src/common_robotics_utilities/serialization.cpp: SerializeVector2d, SerializeVector3d, SerializeVector4d, SerializeQuaterniond, SerializeIsometry3d, DeserializeVector2d, DeserializeVector3d, DeserializeVector4d, DeserializeQuaterniond, DeserializeIsometry3d"]}
{"id": "C101", "title": "A* with the caller's own hash and equality", "statement": "For any equality that is an equivalence relation and any hash on which equal states agree, the outcomes of PerformAstarSearch, PlanTaskStateSequence and GetNextPrimitiveToExecute do not depend on the hash. Whatever the callbacks do, a returned path ends in a goal, and each of its states is equal to a start or to a child of the state before it, at no more than the returned cost; path extraction never fails or loops. If the callbacks do not distinguish equal states, the path is state by state equal to a real one, it is optimal under the conditions of C20, an empty path means that no goal can be reached, and the search ends whenever there are finitely many reachable states up to equality.", "quantifier": "all state types, equivalence relations, hash functions, bucket counts, callbacks, start lists, tie-breakings", "why_tests_cant": "all hash functions and equalities; tests use std::hash and operator==, for which equal states are identical.", "anchors": ["include/common_robotics_utilities/simple_astar_search.hpp: PerformAstarSearch, ExtractAstarResult", "include/common_robotics_utilities/simple_task_planner.hpp: OutcomeWithPrimitiveIndexHash, OutcomeWithPrimitiveIndexEqual, PlanTaskStateSequence, GetNextPrimitiveToExecute"]}
{"id": "C102", "title": "Where a NaN means unreachable", "statement": "A distance, edge weight or matrix entry that is a NaN has the same effect as infinity on the Hausdorff distance, on Dijkstra's algorithm (distances, predecessors and every tie-breaking) and on single-link hierarchical clustering, on any number of threads and every schedule: the result is a number, a NaN edge is never used and a NaN never joins two clusters.", "quantifier": "all inputs in which any entries are NaN, all numbers of threads and schedules", "why_tests_cant": "every comparison with a NaN is false, so each comparison in the code can go wrong in its own way; tests use no NaN.", "anchors": ["include/common_robotics_utilities/simple_hausdorff_distance.hpp: ComputeDistance", "include/common_robotics_utilities/simple_graph_search.hpp: PerformDijkstrasAlgorithm", "include/common_robotics_utilities/simple_hierarchical_clustering.hpp: IndexClusterWithDistanceMatrix"]}
{"id": "C103", "title": "What survives a NaN elsewhere", "statement": "With NaN costs, distances or coordinates a path returned by A* is still a real path from a start to a goal, a finite DTW answer is still the cost of a real alignment, ClampValue and SpreadValue refuse NaN bounds, and a voxel grid refuses NaN sizes. (Termination of A*, optimality of DTW, the diameter bound of complete-link clustering and the safety of voxel queries do not survive: these are findings.)", "quantifier": "all inputs in which any numbers are NaN", "why_tests_cant": "NaN inputs can appear anywhere, and non-termination cannot be observed by a test.", "anchors": ["include/common_robotics_utilities/simple_astar_search.hpp: PerformAstarSearch", "include/common_robotics_utilities/simple_dtw.hpp: EvaluateWarpingCost", "include/common_robotics_utilities/simple_hierarchical_clustering.hpp: IndexClusterWithDistanceMatrix", "include/common_robotics_utilities/utility.hpp: ClampValue, SpreadValue", "include/common_robotics_utilities/voxel_grid.hpp: GridSizes, LocationInGridFrameToGridIndex3d"]}
{"id": "C104", "title": "Planners and exceptions of user-supplied functions", "statement": "When any of the functions given to RRTPlanMultiPath, RRTPlanSinglePath, BiRRTPlanMultiPath or BiRRTPlanSinglePath throws, at any call, the planner calls nothing more, the caller gets exactly that exception, and the trees passed in are validly linked and contain all previous nodes with their states and parents (if the callbacks that may change a tree keep it so). Without such an exception the planners behave as the soundness properties say.", "quantifier": "all callback behaviours including exceptions at any call, all trees, all iteration counts", "why_tests_cant": "the exception can come from any of ten functions at any call of an unbounded run.", "anchors": ["include/common_robotics_utilities/simple_rrt_planner.hpp: RRTPlanMultiPath, RRTPlanSinglePath, BiRRTPlanMultiPath, BiRRTPlanSinglePath, SimpleRRTPlannerTree::AddNodeAndConnect"]}
{"id": "C105", "title": "A* with overestimating heuristics", "statement": "With any non-negative heuristic, a path returned by PerformAstarSearch costs at most the largest value of cost-so-far plus heuristic along any path to a goal. In particular, if the heuristic is at most w >= 1 times the true cost to go, the returned path costs at most w times as much as the cheapest one (and this factor cannot be improved); if it exceeds the true cost by at most d, at most d more. The same holds for A* on graphs and for the task planner.", "quantifier": "all search problems, non-negative heuristics, start lists and tie-breakings", "why_tests_cant": "the bound compares with all paths, and ties are broken arbitrarily.", "anchors": ["include/common_robotics_utilities/simple_astar_search.hpp: PerformAstarSearch", "include/common_robotics_utilities/simple_graph_search.hpp: PerformLazyAstarSearch", "include/common_robotics_utilities/simple_task_planner.hpp: PlanTaskStateSequence"]}
{"id": "C106", "title": "Binary64 accuracy of path searches and dynamic time warping", "statement": "With edge weights, heuristic values and distances that are non-negative binary64 numbers and sums rounded to nearest (any tie rule, overflow to infinity): after Dijkstra, the exact length of the path given by the previous-index map is at most (1+2^-53)^edges times the reported distance, the reported distance is at most (1+2^-53)^edges times the exact length of any path, and the reported path is simple, so on a graph of n <= 2^51 nodes it is at most 1 + 2n*2^-52 times as long as any simple path; an infinite reported distance means that every path is so long that it overflows. A* (main overload and on graphs) with a heuristic that never exceeds the exact cost to go returns a path whose exact cost is within such a factor of the optimum. The dynamic time warping distance is, within such a factor, at least the exact cost of some warping path.", "quantifier": "all graphs, problems, sequences; all binary64 values; all tie-breaking orders; all rules for rounding ties", "why_tests_cant": "Rounding errors depend on all the values involved; a test compares a few sums.", "anchors": ["include/common_robotics_utilities/simple_graph_search.hpp: PerformDijkstrasAlgorithm, PerformLazyAstar", "include/common_robotics_utilities/simple_astar_search.hpp: PerformAstarSearch", "include/common_robotics_utilities/simple_dtw.hpp: SimpleDTW::EvaluateWarpingCost"]}
{"id": "C107", "title": "Exceptions of distance functions", "statement": "GetKNearestNeighborsInRange, the Hausdorff distance and both versions of BuildPairwiseDistanceMatrix: if the distance function returns on every pair they look at, they behave as with a function that never throws; if it throws on some pair, the call throws, on any number of threads and every schedule, an exception that the function has thrown on one of these pairs, never anything else and never a partial result. On one thread or with std::async it is the exception of the first pair, in the order of indices, on which the function throws. Empty queries and bad arguments are answered without calling the function.", "quantifier": "all items, distance functions and sets of arguments on which they throw, thread counts and schedules", "why_tests_cant": "which calls throw, and in which order threads notice, varies over all subsets of pairs and all interleavings.", "anchors": ["include/common_robotics_utilities/simple_knearest_neighbors.hpp: GetKNearestNeighborsInRange", "include/common_robotics_utilities/simple_hausdorff_distance.hpp: SimpleHausdorffDistance", "include/common_robotics_utilities/math.hpp: BuildPairwiseDistanceMatrix", "include/common_robotics_utilities/parallelism.hpp: StaticParallelForIndexLoop"]}
{"id": "C108", "title": "Roadmap construction and exceptions of user functions", "statement": "AddNodeToRoadmap, GrowRoadMap and UpdateRoadMapEdges when the sampling, state validity, edge validity, distance or termination function throws at any call, on any number of threads and every schedule: the caller gets exactly an exception that one of these functions has thrown; nodes, states and edges that were in the roadmap stay (an update changes nothing but weights, each to the value the functions give for that edge); all indices stay in range; new states were accepted by the validity check, and new edges are valid in both lists with their distances. If the edge check or distance function throws while a node is being connected, its state stays in the roadmap as a node without edges, and adding the state again without duplicates treats it as a duplicate, so it is never connected. An update that is interrupted leaves in-edges and out-edges in agreement if the roadmap has no parallel edges. Without exceptions the calls behave as with functions that never throw. The linear nearest-neighbour provider only passes on exceptions of the distance function.", "quantifier": "all roadmaps, functions and sets of arguments on which they throw, thread counts and schedules", "why_tests_cant": "the exception can come from any of five functions at any call, with other threads in the middle of their edges.", "anchors": ["include/common_robotics_utilities/simple_prm_planner.hpp: AddNodeToRoadmap, GrowRoadMap, UpdateRoadMapEdges, LinearGraphKNNProvider", "include/common_robotics_utilities/parallelism.hpp: StaticParallelForIndexLoop"]}
{"id": "C109", "title": "Path processing with callbacks that keep state or throw", "statement": "ShortcutSmoothPath, AttemptShortcut, ComputePercentCollisionFree and ResamplePath when the validity check, distance, interpolation and random number functions may answer differently each time (depending on all calls made before) and may throw at any call. An exception of a callback reaches the caller unchanged, no callback is called after it, and no other exception of a callback comes out. A path that smoothing returns has the ends of the given one; without resampling of shortcuts, or with the check for marginal shortcuts, each of its edges is an edge of the given path or was found valid by a call of the check during the run; without resampling it consists of states of the given path in order and is not longer in any metric. The callbacks are only asked about states of the path and states the interpolation function gave; at most two numbers are drawn per iteration, and without resampling at most 2^(max_backtracking_steps+1)+1 calls are made per iteration. ComputePercentCollisionFree asks for the edges from the first one up to the first invalid one. ResamplePath asks for each distance once, in order, and returns the answers of the interpolation function at 1/n, ..., n/n.", "quantifier": "all paths, parameters, and callbacks whose answers and exceptions are any function of the calls made so far", "why_tests_cant": "a check that changes its mind, or throws at one particular call, is one of infinitely many histories of answers.", "anchors": ["include/common_robotics_utilities/path_processing.hpp: ShortcutSmoothPath, AttemptShortcut, ComputePercentCollisionFree, ResamplePath"]}
{"id": "C110", "title": "The search for the next switching point of a trajectory", "statement": "While a time-optimal trajectory is built, the next switching point after a position is the first acceleration switching point ahead (the limit set by the accelerations has a minimum there or jumps passably) that is not over the velocity limit, unless a velocity switching point lies strictly before it that is not over the acceleration limit; a velocity switching point is located to 1e-6 at the end of a stretch where the velocity limit falls too fast, at the first such end among the samples 0.001 apart; only velocity switching points over the acceleration limit are passed over; and if nothing is found there is none. The search ends and its result is strictly ahead of the position and before the end of the path, unless at one of the places it comes to the velocity limit falls exactly as fast as the trajectory could: then the velocity switching point found lies at or before the place where the search began.", "quantifier": "all paths, limits and positions, over the real numbers", "why_tests_cant": "the search scans and bisects over a continuum of positions; which point is found depends on limits that vary with every path.", "anchors": ["src/common_robotics_utilities/time_optimal_trajectory_parametrization.cpp: Trajectory::GetNextSwitchingPoint, GetNextAccelerationSwitchingPoint, GetNextVelocitySwitchingPoint"]}
{"id": "C111", "title": "Executing a task: what callbacks and primitives see", "statement": "PerformSingleTaskExecution with primitives and callbacks that may answer differently each time (depending on all calls made before) and may throw at any call. The calls it makes are whole rounds and an ending. In each round the callbacks that are given see, in this order, the current outcomes (the start states, or exactly what the last executed primitive returned) with the index of the chosen one and the plan made from them, then that outcome with the next primitive of the plan, then the log message; then exactly that primitive is executed once, in exactly that state, and the last callback sees what it returned. The plan is executable from the chosen outcome to a complete state, and cheapest over all outcomes unless the heuristic overestimates; the primitive was a candidate when the plan was made; none is executed once an outcome completes the task. Never more primitives are executed than the limit allows. An exception of a callback or primitive reaches the caller unchanged and nothing is called after it; apart from that the call throws only if no outcome can be completed, there are no outcomes, or a completion costs infinitely much. The returned trace lists the states the primitives were executed in, in order, and the completed one. With a limit and finitely many states the call ends. Without a limit the counter of executions overflows at the 2^31-th one.", "quantifier": "all primitives, heuristics, callbacks whose answers and exceptions are any function of the calls made so far, start states, limits and tie-breakings", "why_tests_cant": "the history of answers of user code is unbounded, and an exception can come from any of five places in any round.", "anchors": ["include/common_robotics_utilities/simple_task_planner.hpp: PerformSingleTaskExecution, GetNextPrimitiveToExecute, ActionPrimitiveCollection::Log"]}
{"id": "C112", "title": "Clustering and exceptions of user functions", "statement": "K-means (Cluster, ClusterWeighted) and hierarchical clustering (Cluster, IndexCluster) when the distance and averaging functions may throw. With valid arguments a K-means call either returns labels or throws an exception that the distance function threw for a datum and a centre (a datum, or what the averaging function returned for some data) or the averaging function threw for some data with their weights; no exception is swallowed: labels that are returned are stable with every answer needed for that actually given, and they are labels the call would return with any other functions that give the same answers where these answer. Exceptions do not make the call run for ever. If neither function throws, labels are returned. Hierarchical clustering either gets an answer for every pair i < j and then behaves as with a function that does not throw, or throws what the distance function threw for such a pair; on one thread or with std::async the first one in lexicographic order.", "quantifier": "all data, weights, cluster counts, random draws, user functions, thread counts, backends and schedules", "why_tests_cant": "which body throws first, in which iteration, depends on the data and the schedule.", "anchors": ["include/common_robotics_utilities/simple_kmeans_clustering.hpp: ClusterWeighted, Cluster, ComputeClusterCentersWeighted, PerformSingleClusteringIteration", "include/common_robotics_utilities/simple_hierarchical_clustering.hpp: Cluster, IndexCluster", "include/common_robotics_utilities/parallelism.hpp: StaticParallelForIndexLoop"]}
{"id": "C113", "title": "A* search with functions that keep state or throw", "statement": "PerformAstarSearch (all three overloads) when the goal check, heuristic, child generation, validity check and distance functions may answer differently each time (depending on all calls made before) and may throw at any call. An exception of a function reaches the caller unchanged and no function is called after it. Goal check and heuristic are only asked about starts and states offered as children before; children are only generated for a state right after the goal check refused it; validity is only checked for generated children, and a distance only asked right after its edge was found valid. A returned path begins with a start, every step of it was offered with its cost in this search, the goal check accepted its last state, and what was offered costs at most the reported, finite cost. If no path is returned, the goal check refused every start and every offered state, and the children of all of them were asked for. invalid_argument is thrown only if there are no starts, if the last call gave a negative distance, or if an accepted state was reached with infinite cost. If the goal check accepts a start of finite cost, nothing but the goal checks of the starts is called and the cheapest accepted start is returned. If all states ever offered come from a finite set, the search ends, even if children and costs are different at every call. With functions that keep no state and throw nothing the outcomes are those of C19 to C21.", "quantifier": "all starts, functions whose answers and exceptions are any function of the calls made so far, and tie-breakings of the queue", "why_tests_cant": "the history of answers of user code is unbounded, and an exception can come from any call of any of six functions.", "anchors": ["include/common_robotics_utilities/simple_astar_search.hpp: PerformAstarSearch, ExtractAstarResult, StateWithCost"]}
{"id": "C114", "title": "Graph search with functions that keep state or throw", "statement": "The A* searches over a graph (PerformLazyAstarSearch with a goal check, with lists of starts and goals, and with functions of node values; PerformAstarSearch) when the goal check, heuristic, edge validity and distance functions may answer differently each time (depending on all calls made before) and may throw at any call. An exception of a function reaches the caller unchanged and no function is called after it. Goal check and heuristic are only asked about starts and nodes to which an edge was found valid before; the validity is only asked of out-edges of nodes that the goal check refused, and a distance only right after its edge was found valid. A returned path begins in a start, each step of it is an edge of the graph that was found valid in this search, its last node was accepted (is one of the goals), and the distances answered for it sum up to at most the reported, finite cost. If no path is returned, every start and every node reached by a valid edge was refused, and the validity of all its out-edges was asked. An index that is not in the graph is refused before any function is called; in a correctly linked graph nothing else throws, unless there are no starts or a goal was reached at infinite cost, and node values are only read of nodes that exist. Every search of a correctly linked graph ends, with every tie-breaking, even if validity and distances are different at every call. If the goal check accepts a start of finite cost, nothing but the goal checks of the starts is called and the cheapest accepted start is returned. With functions that keep no state and throw nothing the outcomes are those of C23.", "quantifier": "all correctly linked graphs (also through overlays), starts, goals, functions whose answers (distances not negative) and exceptions are any function of the calls made so far, and tie-breakings of the queue", "why_tests_cant": "the history of answers of user code is unbounded, and that a search ends although every edge changes its length at every call cannot be seen from runs.", "anchors": ["include/common_robotics_utilities/simple_graph_search.hpp: PerformLazyAstarSearch, PerformAstarSearch"]}
{"id": "C115", "title": "Planning a task with primitives that keep state or throw", "statement": "PlanTaskStateSequence and GetNextPrimitiveToExecute when the completion test, the heuristic and the IsCandidate and GetOutcomes functions of the primitives may answer differently each time (depending on all calls made before while the plan is made) and may throw at any call. An exception of a function reaches the caller unchanged and nothing is called after it. Completion test and heuristic are only asked about start states and predicted outcomes; a state that the completion test refuses is offered to the primitives one after the other in the order of the collection, and outcomes are only asked of a primitive right after it said that it is a candidate; nothing else is called until all primitives were asked. A returned plan begins with a start, every step of it was predicted in this call for the state before it by the primitive with the step's index, the completion test accepted its last state, and the predicted costs add up to at most the reported, finite cost. If there is no plan, the completion test refused every start and every predicted outcome, and every primitive was asked about all of them. The chosen next primitive is the one of the plan's first step, it exists and said that it is a candidate in the chosen outcome, whose index is that of the first start equal to it; if none is chosen, the completion test accepted that outcome; runtime_error is thrown only if there is no plan, invalid_argument only without starts or if the plan found costs infinity. If all states ever predicted come from a finite set, planning ends. With functions that keep no state and throw nothing the outcomes are those of C24.", "quantifier": "all start states, numbers of primitives, functions whose answers (costs not negative) and exceptions are any function of the calls made so far, and tie-breakings of the queue", "why_tests_cant": "the history of answers of user code is unbounded, and an exception can come from any call of any primitive.", "anchors": ["include/common_robotics_utilities/simple_task_planner.hpp: PlanTaskStateSequence, GetNextPrimitiveToExecute", "include/common_robotics_utilities/simple_astar_search.hpp: PerformAstarSearch"]}
{"id": "C116", "title": "Deserializing into an object that already has contents", "statement": "The public DeserializeSelf of voxel grids, dynamic grids, grid sizes, graphs, their nodes and edges, and Dijkstra results: a call that returns leaves exactly the object that the static Deserialize gives for the same bytes, and returns its number of bytes, whatever the object held before (also after any number of calls that threw); it throws exactly when Deserialize throws. A call that throws leaves a graph and grid sizes as they were. Of the other objects it leaves the first few members, in the order of the format, as read from the buffer, and the others as before (there is no strong guarantee: any grid with cells can be left claiming to be initialized with all its cells unreadable, any Dijkstra result with numbers of indices and distances that differ); the stored inverse of a voxel grid still belongs to the transform it was stored with, looking up a cell is never undefined behaviour, and filling the grid again gives every cell a value. A class derived from the grid base classes that writes members of its own is read back as written if the members of the base class are written first; C++ does not say that they are, and if the compiler evaluates the other operand first what is read back is different.", "quantifier": "all previous contents, buffers, offsets, value deserializers (including ones that throw), grids, and members of derived classes", "why_tests_cant": "the combination of old contents with the place where an arbitrary buffer stops being readable is unbounded, and the order of evaluation is the compiler's.", "anchors": ["include/common_robotics_utilities/voxel_grid.hpp: VoxelGridBase::SerializeSelf, DeserializeSelf, BaseDeserializeSelf, GridSizes::DeserializeSelf", "include/common_robotics_utilities/dynamic_spatial_hashed_voxel_grid.hpp: SerializeSelf, DeserializeSelf, BaseDeserializeSelf", "include/common_robotics_utilities/simple_graph.hpp: Graph::DeserializeSelf, GraphNode::DeserializeSelf, GraphEdge::DeserializeSelf", "include/common_robotics_utilities/simple_graph_search.hpp: DijkstrasResult::DeserializeSelf"]}
{"id": "C117", "title": "Executing a task with primitives that keep state or throw while planning", "statement": "PerformSingleTaskExecution when everything that is called may answer differently each time and may throw at any call, also while a plan is made: IsCandidate, GetOutcomes and Execute of the primitives, the completion test, the heuristic, the logging function and the three callbacks; every answer may depend on all calls made before, of any of them. A run is a sequence of rounds: a plan is made from the current outcomes (the start states, or what the last primitive executed gave) by a right sequence of calls, then the callbacks that are given see the chosen outcome, and the chosen primitive is executed in exactly this outcome. Before every execution, in the plan made since the last one, the primitive said that it is a candidate in this state, and between that plan and the execution only callbacks and the logging function are called. What the caller gets from a function that throws, while planning or not, is its exception, it was the last call, and no other call threw; in every other ending no call threw. At most as many primitives are executed as the limit says; a returned trace has one state per execution, and one more, which the completion test accepted, if the limit was not what ended the run. With finitely many states and a limit the call ends. If what is called while planning throws nothing and depends only on the calls made by the execution loop, the outcomes and those calls are those of C111.", "quantifier": "all start states, limits, collections of primitives, functions whose answers (predicted costs not negative) and exceptions are any function of the calls made so far, and tie-breakings of the queue", "why_tests_cant": "the history of answers of user code is unbounded, and an exception can come from any call of any function in any round.", "anchors": ["include/common_robotics_utilities/simple_task_planner.hpp: PerformSingleTaskExecution, GetNextPrimitiveToExecute, PlanTaskStateSequence"]}
{"id": "C118", "title": "Roadmap queries with functions that throw", "statement": "QueryPathAndAddNodes, LazyQueryPathAndAddNodes, QueryPath and LazyQueryPath when the neighbour query, the edge check and the distance function may throw at any call. Either a function throws while a start or a goal is added, the query throws its exception, and left behind is what was added before it (the state at which it happened is there as a node without edges, or not at all if the neighbour query threw); or one throws during the search, the query throws its exception and the extended roadmap is left behind, correctly linked; or no function throws and the query does what it does with any functions that always return and have the same values. QueryPath and LazyQueryPath leave the caller's roadmap as it was in every case, with an overlay or a copy, and the two have the same outcomes and throw the same exceptions. A path that is returned goes from a start to a goal, the check has accepted each of its edges, the distance function has returned for each, and the distances sum up to at most the cost. No start or no goal is an error before any function is called. Queries end, whatever is thrown.", "quantifier": "all correctly linked roadmaps with non-negative weights, starts, goals, functions (values and exceptions depend on the arguments only), thread counts, backends and schedules", "why_tests_cant": "which of the calls throws, in which parallel loop or step of the search, depends on the roadmap, the schedule and the functions.", "anchors": ["include/common_robotics_utilities/simple_prm_planner.hpp: QueryPathAndAddNodes, LazyQueryPathAndAddNodes, QueryPath, LazyQueryPath, AddNodeToRoadmap, ExtractSolution", "include/common_robotics_utilities/simple_graph_search.hpp: PerformAstarSearch, PerformLazyAstarSearch", "include/common_robotics_utilities/parallelism.hpp: StaticParallelForIndexLoop"]}
{"id": "C119", "title": "Roadmap construction with functions that throw", "statement": "BuildRoadMap when the sampler, the state check, the edge check, the distance function and the neighbour query may throw at any call; its parallel loops rethrow one of the exceptions thrown in them. Either the call throws one of the exceptions thrown, by: the sampler; the check of a sampled state; the distance between two usable states (sampled and accepted), if duplicates are to be found; or, for a node of a roadmap of the requested size with usable states, the neighbour query, the check of the edge from a found neighbour other than the node itself, the check of the edge to it (made unless connections are declared symmetric and the first check said yes), or, if that said yes, the distance to it. Or no exception of a function leaves, and the result is one that the call can have with functions that always return and have the same values (C41). A returned roadmap has the requested size and usable states only, its edges are mirrored and correctly linked, each edge was accepted by the check and weighs the distance in its direction, and there are exactly the accepted edges between every node and its K nearest others. Construction ends, whatever is thrown.", "quantifier": "all samplers (returning or throwing anything in a set, in any order), functions (values and exceptions depend on the arguments only), sizes, K, numbers of tries, thread counts, backends and schedules", "why_tests_cant": "which call throws first in which thread depends on the random samples and the schedule.", "anchors": ["include/common_robotics_utilities/simple_prm_planner.hpp: BuildRoadMap", "include/common_robotics_utilities/simple_knearest_neighbors.hpp: GetKNearestNeighbors", "include/common_robotics_utilities/parallelism.hpp: StaticParallelForIndexLoop"]}
{"id": "C120", "title": "Alignment and substring checks", "statement": "CheckAlignment says whether the address of an object is a multiple of the alignment and logs one message if there is a logging function, RequireAlignment and RequireEigenAlignment throw exactly if it is not, and what is aligned to a number of bytes is aligned to its divisors; CheckAllStringsForSubstring is true exactly if each of the strings contains the substring.", "quantifier": "all addresses and alignments other than zero, all lists of strings and substrings", "why_tests_cant": "tests see the few addresses the allocator happens to give, and a few strings.", "anchors": ["include/common_robotics_utilities/utility.hpp: CheckAlignment, RequireAlignment, RequireEigenAlignment, CheckAllStringsForSubstring"]}
{"id": "C121", "title": "Truncated Gaussian samples have the truncated Gaussian law", "statement": "With ideal, independent draws, the value that sampling a TruncatedGaussianDistribution returns lies in a set with the probability that the Gaussian gives to the set, given that it is within the bounds, and some round of rejection sampling accepts with probability one. For two finite bounds the probability that the sample is at most a value is what EvaluateTruncatedGaussianCDF returns.", "quantifier": "all means, positive standard deviations, bounds that leave the Gaussian some probability, numbers of rounds and measurable sets of values (exact arithmetic, ideal draws that are independent from round to round)", "why_tests_cant": "A law on the real line cannot be settled by samples: a wrong envelope or a wrong mirror image shifts the distribution by less than any finite test can tell.", "anchors": ["include/common_robotics_utilities/gaussian_distributions.hpp: TruncatedGaussianDistribution, operator(), NaiveAcceptReject, SimpleAcceptReject, ComplexAcceptReject, EvaluateTruncatedGaussianCDF"]}
