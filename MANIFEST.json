{
 "claims": [
  {
   "property": "C01",
   "status": "proved",
   "theorems": [
    "CRU.Base64.C01_decode_encode"
   ],
   "note": ""
  },
  {
   "property": "C02",
   "status": "proved",
   "theorems": [
    "CRU.Base64.C02_encode_rfc4648",
    "CRU.Base64.C02_encode_length"
   ],
   "note": ""
  },
  {
   "property": "C03",
   "status": "partial",
   "theorems": [
    "CRU.Base64.C03_decode_in_bounds_partial",
    "CRU.Base64.C03_decode_in_bounds_false"
   ],
   "note": "The full claim is false of the code: a char >= 0x80 indexes the table out of bounds (witness theorem). Proved for all strings of 7-bit chars."
  },
  {
   "property": "C04",
   "status": "proved",
   "theorems": [
    "CRU.Parallel.C04_static_ranges_partition",
    "CRU.Parallel.C04_bad_arguments_throw",
    "CRU.Parallel.C04_full_range_overflows"
   ],
   "note": ""
  },
  {
   "property": "C05",
   "status": "proved",
   "theorems": [
    "CRU.Parallel.C05_static_range_loop",
    "CRU.Parallel.C05_static_index_loop",
    "CRU.Parallel.C05_inverted_range_throws",
    "CRU.Parallel.C05_with_degree"
   ],
   "note": ""
  },
  {
   "property": "C06",
   "status": "partial",
   "theorems": [
    "CRU.Parallel.C06_dynamic_visits_each_index_once_partial",
    "CRU.Parallel.C06_dynamic_visits",
    "CRU.Parallel.C06_dynamic_visits_each_index_once_false",
    "CRU.Parallel.C06_complete_runs_exist"
   ],
   "note": "The full claim is false of the code: the async dispatcher passes workers_dispatched, not range_start + workers_dispatched. Proved for range_start = 0, OpenMP and one thread; C06_dynamic_visits gives the exact visited set in every case."
  },
  {
   "property": "C07",
   "status": "proved",
   "theorems": [
    "CRU.Parallel.C07_exclusive_thread_numbers",
    "CRU.Parallel.C07_running_are_started_not_completed",
    "CRU.Parallel.C07_returns_after_all_completed",
    "CRU.Parallel.C07_throws_after_all_completed",
    "CRU.Parallel.C07_can_always_finish"
   ],
   "note": ""
  },
  {
   "property": "C08",
   "status": "proved",
   "theorems": [
    "CRU.Knn.C08_serial_knn_correct",
    "CRU.Knn.C08_serial_knn_throws"
   ],
   "note": ""
  },
  {
   "property": "C09",
   "status": "proved",
   "theorems": [
    "CRU.Knn.C09_parallel_knn_correct",
    "CRU.Knn.C09_parallel_runs_exist",
    "CRU.Knn.C09_shared_thread_numbers_break_merge"
   ],
   "note": "The proviso on thread numbers is necessary (witness theorem): OpenMP may deliver fewer threads than requested."
  },
  {
   "property": "C10",
   "status": "proved",
   "theorems": [
    "CRU.Ser.C10_memcpyable_appends",
    "CRU.Ser.C10_memcpyable_round_trip"
   ],
   "note": ""
  },
  {
   "property": "C11",
   "status": "proved",
   "theorems": [
    "CRU.Ser.C11_vector_round_trip",
    "CRU.Ser.C11_vector_round_trip_upto",
    "CRU.Ser.C11_pair_round_trip",
    "CRU.Ser.C11_ordered_container_round_trip",
    "CRU.Ser.C11_hash_container_round_trip",
    "CRU.Ser.C11_memcpyable_vector_round_trip"
   ],
   "note": "Containers whose payload is below 2^63 bytes. Hash containers come back up to iteration order."
  },
  {
   "property": "C12",
   "status": "proved",
   "theorems": [
    "CRU.Ser.C12_memcpyable_safe",
    "CRU.Ser.C12_network_memcpyable_safe",
    "CRU.Ser.C12_size_header_safe",
    "CRU.Ser.C12_vector_safe",
    "CRU.Ser.C12_container_safe",
    "CRU.Ser.C12_pair_safe",
    "CRU.Ser.C12_memcpyable_vector_safe"
   ],
   "note": "Every buffer below 2^63 bytes (libstdc++ max_size) and every 64-bit offset. Allocation of more than 2^63-1 bytes throws (assumed)."
  },
  {
   "property": "C13",
   "status": "proved",
   "theorems": [
    "CRU.Ser.C13_network_bytes_big_endian",
    "CRU.Ser.C13_network_round_trip",
    "CRU.Ser.C13_network_header",
    "CRU.Ser.C13_network_vector_round_trip",
    "CRU.Ser.C13_network_memcpyable_vector_round_trip",
    "CRU.Ser.C13_network_ordered_container_round_trip",
    "CRU.Ser.C13_network_hash_container_round_trip"
   ],
   "note": ""
  },
  {
   "property": "C56",
   "status": "partial",
   "theorems": [
    "CRU.Ser.C56_matrix_round_trip_partial",
    "CRU.Ser.C56_empty_matrix_false",
    "CRU.Ser.C56_matrix_safe_partial"
   ],
   "note": "False of the code for empty matrices: &buffer[buffer.size()]. Round trip proved for all non-empty ones; the deserializer is undefined exactly if a zero dimension is read at the very end of the buffer (C56_matrix_safe_partial)."
  },
  {
   "property": "C57",
   "status": "partial",
   "theorems": [
    "CRU.Ser.C57_in_place_write_partial",
    "CRU.Ser.C57_in_place_wrap_false"
   ],
   "note": "False of the code when buffer_position + sizeof(T) wraps. Proved for all other positions."
  },
  {
   "property": "C14",
   "status": "proved",
   "theorems": [
    "CRU.Graph.C14_linkage_preserved",
    "CRU.Graph.C14_effects"
   ],
   "note": ""
  },
  {
   "property": "C15",
   "status": "proved",
   "theorems": [
    "CRU.Graph.C15_check_decides",
    "CRU.Graph.C15_constructor"
   ],
   "note": ""
  },
  {
   "property": "C16",
   "status": "proved",
   "theorems": [
    "CRU.Graph.C16_round_trip",
    "CRU.Graph.C16_invalid_throws",
    "CRU.Graph.C16_result_valid",
    "CRU.Graph.C16_safe"
   ],
   "note": "Node and edge lists below 2^63 bytes; values and weights with (de)serializers that round-trip."
  },
  {
   "property": "C17",
   "status": "proved",
   "theorems": [
    "CRU.Graph.C17_prune",
    "CRU.Graph.C17_run_exists",
    "CRU.Graph.C17_spec_sanity"
   ],
   "note": "Every backend, degree of parallelism and schedule of the second pass; the pruned set is a set of existing indices."
  },
  {
   "property": "C18",
   "status": "proved",
   "theorems": [
    "CRU.Graph.C18_overlay_refines"
   ],
   "note": ""
  },
  {
   "property": "C58",
   "status": "proved",
   "theorems": [
    "CRU.Graph.C58_mirrored_preserved",
    "CRU.Graph.C58_mirrored_pruned"
   ],
   "note": ""
  },
  {
   "property": "C19",
   "status": "proved",
   "theorems": [
    "CRU.Astar.C19_path_is_real",
    "CRU.Astar.C19_path_is_valid",
    "CRU.Astar.C19_single_start_goal",
    "CRU.Astar.C19_failures",
    "CRU.Astar.C19_refusals",
    "CRU.Astar.C19_failures_valid"
   ],
   "note": "All three overloads; every heuristic and tie-breaking; exact or monotonically rounded costs."
  },
  {
   "property": "C20",
   "status": "partial",
   "theorems": [
    "CRU.Astar.C20_optimal_partial",
    "CRU.Astar.C20_optimal_valid_partial",
    "CRU.Astar.C20_single_start_goal",
    "CRU.Astar.C20_goal_start",
    "CRU.Astar.C20_no_goal_start",
    "CRU.Astar.C20_optimal_iff",
    "CRU.Astar.C20_optimal_false"
   ],
   "note": "False of the code when a start already meets the goal but is not cheapest (witness C20_optimal_false); proved otherwise, unconditionally for the single-start overload. C20_optimal_iff says exactly when the answer is optimal, C20_goal_start what is returned in the other case."
  },
  {
   "property": "C21",
   "status": "proved",
   "theorems": [
    "CRU.Astar.C21_empty_means_unreachable",
    "CRU.Astar.C21_empty_means_unreachable_valid",
    "CRU.Astar.C21_no_infinite_run",
    "CRU.Astar.C21_never_stuck",
    "CRU.Astar.C21_terminates",
    "CRU.Astar.C21_finds_path"
   ],
   "note": ""
  },
  {
   "property": "C22",
   "status": "proved",
   "theorems": [
    "CRU.GraphSearch.C22_dijkstra",
    "CRU.GraphSearch.C22_dijkstra_mirrored",
    "CRU.GraphSearch.C22_bad_start",
    "CRU.GraphSearch.C22_terminates"
   ],
   "note": "Any graph type (Graph or overlay), every tie-breaking, exact or rounded costs. Costs are accumulated from the start outwards, as the code adds them."
  },
  {
   "property": "C23",
   "status": "proved",
   "theorems": [
    "CRU.GraphSearch.C23_path_is_real",
    "CRU.GraphSearch.C23_failures",
    "CRU.GraphSearch.C23_optimal",
    "CRU.GraphSearch.C23_empty_means_unreachable",
    "CRU.GraphSearch.C23_terminates",
    "CRU.GraphSearch.C23_value_search",
    "CRU.GraphSearch.C23_weight_search",
    "CRU.GraphSearch.C23_value_search_ends",
    "CRU.GraphSearch.C23_always_answers"
   ],
   "note": "Non-negative distances (the graph version does not check the sign). All overloads."
  },
  {
   "property": "C59",
   "status": "proved",
   "theorems": [
    "CRU.GraphSearch.C59_dijkstra_result_round_trip",
    "CRU.GraphSearch.C59_dijkstra_result_safe",
    "CRU.GraphSearch.C59_dijkstra_result_sizes"
   ],
   "note": ""
  },
  {
   "property": "C24",
   "status": "proved",
   "theorems": [
    "CRU.Task.C24_plan_is_executable",
    "CRU.Task.C24_plan_is_cheapest",
    "CRU.Task.C24_plan_is_cheapest_no_heuristic",
    "CRU.Task.C24_empty_means_impossible",
    "CRU.Task.C24_next_primitive",
    "CRU.Task.C24_throws_when_impossible",
    "CRU.Task.C24_execution_trace",
    "CRU.Task.C24_execution_failures",
    "CRU.Task.C24_refused",
    "CRU.Task.C24_next_is_first_step",
    "CRU.Task.C24_next_is_cheapest"
   ],
   "note": "Planning is the A* model of C19-C21 on (state, primitive index) nodes; execution may do anything (relation). The execution counter is unbounded in this model; C111 has it bounded."
  },
  {
   "property": "C25",
   "status": "proved",
   "theorems": [
    "CRU.Task.C25_register",
    "CRU.Task.C25_unregister",
    "CRU.Task.C25_names_unique",
    "CRU.Task.Registry.C25_strong_guarantee",
    "CRU.Task.Registry.C25_returns",
    "CRU.Task.Registry.C25_throws_iff",
    "CRU.Task.Registry.C25_names_unique_logging"
   ],
   "note": ""
  },
  {
   "property": "C26",
   "status": "proved",
   "theorems": [
    "CRU.Voxel.C26_in_bounds",
    "CRU.Voxel.C26_data_index",
    "CRU.Voxel.C26_grid_index",
    "CRU.Voxel.C26_rejects",
    "CRU.Voxel.C26_hash",
    "CRU.Voxel.C26_hash_outside_false"
   ],
   "note": "C26_hash_outside_false: indices outside the grid (outside the claim) share hashes and data indices with cells of the grid; they are not refused."
  },
  {
   "property": "C27",
   "status": "proved",
   "theorems": [
    "CRU.Voxel.C27_fresh",
    "CRU.Voxel.C27_read",
    "CRU.Voxel.C27_read_data_index",
    "CRU.Voxel.C27_step",
    "CRU.Voxel.C27_history"
   ],
   "note": "For histories whose mutable-access hook is respected by the overload used (the GridIndex overloads hand the hook a wrong cell, C28), and conversions from double to int64 that are in range."
  },
  {
   "property": "C28",
   "status": "partial",
   "theorems": [
    "CRU.Voxel.C28_hook_partial",
    "CRU.Voxel.C28_protects_partial",
    "CRU.Voxel.C28_false"
   ],
   "note": "False of the code: the GridIndex overload hands the hook (X, Y, Y) (witness C28_false). Proved for the (x, y, z) overload, and for the others where the hook cannot tell the two cells apart."
  },
  {
   "property": "C29",
   "status": "partial",
   "theorems": [
    "CRU.Voxel.C29_fresh",
    "CRU.Voxel.C29_get",
    "CRU.Voxel.C29_set",
    "CRU.Voxel.C29_prohibited",
    "CRU.Voxel.C29_write",
    "CRU.Voxel.C29_history",
    "CRU.Voxel.C29_any_arithmetic",
    "CRU.Voxel.C29_rounded_cell",
    "CRU.Voxel.C29_rounded_same",
    "CRU.Voxel.C29_rounding_false"
   ],
   "note": "In exact arithmetic: full (C29_history). In any arithmetic, rounded or not: the grid is a map keyed by the chunk and cell that arithmetic computes for the location, and a location whose computed cell is outside its computed chunk makes the access throw and changes nothing (C29_any_arithmetic). With relative rounding errors, every location more than a few rounding errors away from the walls of its cell goes to that very cell (C29_rounded_cell, C29_rounded_same). Partial because for locations on the walls the claim is false of the code: a location can fall outside the chunk it was hashed to and the access throws (witness C29_rounding_false)."
  },
  {
   "property": "C60",
   "status": "proved",
   "theorems": [
    "CRU.Voxel.C60_location_to_cell",
    "CRU.Voxel.C60_world_locations",
    "CRU.Voxel.C60_center_round_trip",
    "CRU.Voxel.C60_sizes_cover"
   ],
   "note": "Exact arithmetic; the centre round trip also for arithmetic with bounded relative rounding error."
  },
  {
   "property": "C30",
   "status": "partial",
   "theorems": [
    "CRU.Dtw.C30_history_independent",
    "CRU.Dtw.C30_cost_is_real",
    "CRU.Dtw.C30_empty_throws",
    "CRU.Dtw.C30_optimal_partial",
    "CRU.Dtw.C30_optimal_false"
   ],
   "note": "False of the code: on the tie D(i-1,j) = D(i,j-1) < D(i-1,j-1) the code takes the diagonal (witness C30_optimal_false). Proved: the result is the cost of a real warping path, is the optimum when that tie does not occur, and does not depend on the evaluator's history."
  },
  {
   "property": "C31",
   "status": "proved",
   "theorems": [
    "CRU.Distances.C31_hausdorff",
    "CRU.Distances.C31_all_versions_agree",
    "CRU.Distances.C31_bad_arguments_throw",
    "CRU.Distances.C31_runs_exist",
    "CRU.Distances.C31_not_symmetric"
   ],
   "note": "Directed distance (C31_not_symmetric shows that it differs from the symmetric one of the header comment)."
  },
  {
   "property": "C52",
   "status": "proved",
   "theorems": [
    "CRU.Distances.C52_self_matrix",
    "CRU.Distances.C52_self_matrix_race_free",
    "CRU.Distances.C52_cross_matrix",
    "CRU.Distances.C52_runs_exist"
   ],
   "note": ""
  },
  {
   "property": "C32",
   "status": "proved",
   "theorems": [
    "CRU.Kmeans.C32_labels",
    "CRU.Kmeans.C32_bad_cluster_counts",
    "CRU.Kmeans.C32_schedule_independent",
    "CRU.Kmeans.C32_terminates",
    "CRU.Kmeans.C32_outcome_exists",
    "CRU.Kmeans.C32_never_fails",
    "CRU.Kmeans.C32_duplicates_average_nothing"
   ],
   "note": "Termination for exact arithmetic and averaging functions that are strict minimisers. Finding: the averaging function is called on empty clusters (C32_duplicates_average_nothing) and more clusters than data never returns (C32_bad_cluster_counts)."
  },
  {
   "property": "C33",
   "status": "proved",
   "theorems": [
    "CRU.Hier.C33_partition",
    "CRU.Hier.C33_maximal",
    "CRU.Hier.C33_complete_link_diameter",
    "CRU.Hier.C33_single_link_components",
    "CRU.Hier.C33_terminates",
    "CRU.Hier.C33_parallel_agrees",
    "CRU.Hier.C33_bad_matrix_throws",
    "CRU.Hier.C33_wrong_size_throws",
    "CRU.Hier.C33_negative_distance_throws",
    "CRU.Hier.C33_cluster",
    "CRU.Hier.C33_index_cluster",
    "CRU.Hier.C33_no_data_throws"
   ],
   "note": "Serial/parallel agreement to the last bit needs worker t to run as thread t (always so with the async backend); everything else holds for any thread numbering. Distances exclude NaN."
  },
  {
   "property": "C43",
   "status": "proved",
   "theorems": [
    "CRU.Util.C43_set",
    "CRU.Util.C43_get",
    "CRU.Util.C43_get_set",
    "CRU.Util.C43_outside"
   ],
   "note": ""
  },
  {
   "property": "C44",
   "status": "proved",
   "theorems": [
    "CRU.Util.C44_clamp",
    "CRU.Util.C44_clamp_laws",
    "CRU.Util.C44_spread"
   ],
   "note": "Linear orders (NaN excluded)."
  },
  {
   "property": "C45",
   "status": "proved",
   "theorems": [
    "CRU.Util.C45_subset",
    "CRU.Util.C45_equal"
   ],
   "note": ""
  },
  {
   "property": "C46",
   "status": "partial",
   "theorems": [
    "CRU.Util.C46_index_in_range",
    "CRU.Util.C46_index_spread",
    "CRU.Util.C46_index_onto",
    "CRU.Util.C46_empty_throws",
    "CRU.Util.C46_range_partial",
    "CRU.Util.C46_range_throws",
    "CRU.Util.C46_range_false"
   ],
   "note": "GetUniformRandomIndex: full, for every size and any round-to-nearest rule. GetUniformRandomInRange: false for the whole range of a 64-bit type (end - start + 1 overflows or wraps to zero: C46_range_throws, C46_range_false); proved otherwise."
  },
  {
   "property": "C61",
   "status": "proved",
   "theorems": [
    "CRU.Util.C61_make_from_pairs",
    "CRU.Util.C61_make_from_keys_values",
    "CRU.Util.C61_round_trip"
   ],
   "note": ""
  },
  {
   "property": "C47",
   "status": "partial",
   "theorems": [
    "CRU.Life.C47_lifetimes_partial",
    "CRU.Life.C47_no_leak_partial",
    "CRU.Life.C47_value_partial",
    "CRU.Life.C47_false"
   ],
   "note": "Proved for every history of non-throwing value operations; a copy constructor that throws during assignment leaves a destroyed object marked as held (witness C47_false)."
  },
  {
   "property": "C48",
   "status": "proved",
   "theorems": [
    "CRU.Scope.C48_proper_nesting",
    "CRU.Scope.C48_exactly_once",
    "CRU.Scope.C48_is_enabled",
    "CRU.Scope.C48_empty_action",
    "CRU.Scope.C48_transparent"
   ],
   "note": "An action that throws ends the program (destructors are noexcept); covered as an outcome."
  },
  {
   "property": "C49",
   "status": "partial",
   "theorems": [
    "CRU.Omp.C49_restores_partial",
    "CRU.Omp.C49_setting_restored_partial",
    "CRU.Omp.C49_rejects",
    "CRU.Omp.C49_takes_effect",
    "CRU.Omp.C49_count_in_scope",
    "CRU.Omp.C49_false"
   ],
   "note": "The delivered thread count is restored in every case; the setting itself is not when a thread limit is below it (witness C49_false)."
  },
  {
   "property": "C34",
   "status": "proved",
   "theorems": [
    "CRU.Path.C34_endpoints_and_validity",
    "CRU.Path.C34_only_shortens",
    "CRU.Path.C34_returns",
    "CRU.Path.C34_attempt",
    "CRU.Path.C34_percent_free",
    "CRU.Path.C34_resampled_unchecked",
    "CRU.Path.C34_resampled",
    "CRU.Path.C34_small_fraction"
   ],
   "note": "Validity for no resampling or with the marginal check, as claimed; C34_resampled_unchecked shows that the restriction is needed."
  },
  {
   "property": "C35",
   "status": "proved",
   "theorems": [
    "CRU.Path.C35_structure",
    "CRU.Path.C35_only_between",
    "CRU.Path.C35_keeps_states",
    "CRU.Path.C35_spacing",
    "CRU.Path.C35_returns",
    "CRU.Path.C35_short_and_rejected",
    "CRU.Path.C35_underflow_drops"
   ],
   "note": "Spacing up to the rounding of the quotients, for consecutive states far enough apart for the quotient not to underflow (C35_underflow_drops: otherwise the code drops a state). C35_returns also shows undefined behaviour beyond 2^32 pieces."
  },
  {
   "property": "C36",
   "status": "partial",
   "theorems": [
    "CRU.Rrt.C36_check",
    "CRU.Rrt.C36_set_nodes",
    "CRU.Rrt.C36_connect_partial",
    "CRU.Rrt.C36_add_root",
    "CRU.Rrt.C36_history_partial",
    "CRU.Rrt.C36_bad_parent",
    "CRU.Rrt.C36_child_lists",
    "CRU.Rrt.C36_false",
    "CRU.Rrt.C38_tree",
    "CRU.Rrt.C39_trees"
   ],
   "note": "Holds for every history of insertions below existing nodes and for the planners; false for a parent index that does not exist: AddNodeAndConnect accepts parent = Size() and leaves a dangling node when it throws (witness C36_false)."
  },
  {
   "property": "C37",
   "status": "proved",
   "theorems": [
    "CRU.Rrt.C37_extraction",
    "CRU.Rrt.C37_bad_goal",
    "CRU.Rrt.C37_self_link_loops"
   ],
   "note": ""
  },
  {
   "property": "C38",
   "status": "partial",
   "theorems": [
    "CRU.Rrt.C38_tree",
    "CRU.Rrt.C38_sound",
    "CRU.Rrt.C38_exceptions",
    "CRU.Rrt.C38_all_goals",
    "CRU.Rrt.C38_returns",
    "CRU.Rrt.C38_negative_neighbour",
    "CRU.Rrt.C38_single_sound",
    "CRU.Rrt.C38_single_callbacks",
    "CRU.Rrt.C38_single_first",
    "CRU.Rrt.C38_single_at_goal",
    "CRU.Rrt.C38_false"
   ],
   "note": "Soundness proved for all stateful callbacks that do not themselves edit the tree; the clause on default-constructed callbacks is false for RRTPlanMultiPath (witness C38_false) and true for RRTPlanSinglePath (C38_single_callbacks)."
  },
  {
   "property": "C39",
   "status": "proved",
   "theorems": [
    "CRU.Rrt.C39_trees",
    "CRU.Rrt.C39_sound",
    "CRU.Rrt.C39_exceptions",
    "CRU.Rrt.C39_asks_every_state",
    "CRU.Rrt.C39_all_bridges",
    "CRU.Rrt.C39_returns",
    "CRU.Rrt.C39_negative_neighbour",
    "CRU.Rrt.C39_single_sound",
    "CRU.Rrt.C39_single_empty",
    "CRU.Rrt.C39_active_tree",
    "CRU.Rrt.C39_statistics",
    "CRU.Rrt.C39_single_stops",
    "CRU.Rrt.C39_false"
   ],
   "note": "For all stateful callbacks that do not themselves edit the trees. C39_false: a missing bridge callback throws in BiRRTPlanMultiPath although documented as optional."
  },
  {
   "property": "C62",
   "status": "proved",
   "theorems": [
    "CRU.Rrt.C62_rejects",
    "CRU.Rrt.C62_extend",
    "CRU.Rrt.C62_connect",
    "CRU.Rrt.C62_connect_defined",
    "CRU.Rrt.C62_step_length",
    "CRU.Rrt.C62_connect_reaches",
    "CRU.Rrt.C62_rrt_edges_valid",
    "CRU.Rrt.C62_birrt_edges_valid",
    "CRU.Rrt.C62_connect_stops_short"
   ],
   "note": "Lengths up to one rounding of the ratio. C62_connect_stops_short: with every edge valid the connect function may end short of the sample because the step count is fixed up front. In the goal tree of BiRRT an edge is checked in the direction away from the goal, so the returned path uses it in the opposite direction."
  },
  {
   "property": "C63",
   "status": "proved",
   "theorems": [
    "CRU.Rrt.C63_rejects",
    "CRU.Rrt.C63_timeout_function",
    "CRU.Rrt.C63_accuracy",
    "CRU.Rrt.C63_rrt_ends",
    "CRU.Rrt.C63_birrt_ends"
   ],
   "note": ""
  },
  {
   "property": "C64",
   "status": "proved",
   "theorems": [
    "CRU.Rrt.C64_rejects",
    "CRU.Rrt.C64_extremes",
    "CRU.Rrt.C64_goal_sampling",
    "CRU.Rrt.C64_tree_sampling",
    "CRU.Rrt.C64_sampling_onto",
    "CRU.Rrt.C64_nearest"
   ],
   "note": "With bias 0 a draw of exactly 0 still picks the goal, the tree or a switch (part of C64_extremes). NaN is not modelled."
  },
  {
   "property": "C65",
   "status": "proved",
   "theorems": [
    "CRU.Rrt.C65_round_trip",
    "CRU.Rrt.C65_invalid_throws",
    "CRU.Rrt.C65_result_linked",
    "CRU.Rrt.C65_safe"
   ],
   "note": ""
  },
  {
   "property": "C40",
   "status": "partial",
   "theorems": [
    "CRU.Prm.C40_add_node_partial",
    "CRU.Prm.C40_new_state_to_roadmap_swapped",
    "CRU.Prm.C40_bad_neighbour_throws",
    "CRU.Prm.C40_linear_provider_nearest",
    "CRU.Prm.C40_linear_provider_rejects",
    "CRU.Prm.C40_negative_neighbour_partial_effect",
    "CRU.Prm.C40_false"
   ],
   "note": "Proved for ROADMAP_TO_NEW_STATE and for symmetric functions. False for NEW_STATE_TO_ROADMAP with connection_is_symmetric = false: the two directions are swapped (exactly characterised by C40_new_state_to_roadmap_swapped, witness C40_false)."
  },
  {
   "property": "C41",
   "status": "proved",
   "theorems": [
    "CRU.Prm.C41_queries_leave_roadmap",
    "CRU.Prm.C41_build_roadmap",
    "CRU.Prm.C41_build_bad_arguments",
    "CRU.Prm.C41_build_succeeds",
    "CRU.Prm.C41_update_edges",
    "CRU.Prm.C41_update_deterministic",
    "CRU.Prm.C41_update_keeps_linkage",
    "CRU.Prm.C41_update_refuses_bad_linkage",
    "CRU.Prm.C41_update_runs_exist"
   ],
   "note": "BuildRoadMap and UpdateRoadMapEdges for every schedule; queries with overlay and with copy, for every behaviour of the functions."
  },
  {
   "property": "C67",
   "status": "partial",
   "theorems": [
    "CRU.Prm.C67_query",
    "CRU.Prm.C67_overlay_agrees",
    "CRU.Prm.C67_empty",
    "CRU.Prm.C67_query_ends",
    "CRU.Prm.C67_answer_partial",
    "CRU.Prm.C67_shortest_partial",
    "CRU.Prm.C67_false"
   ],
   "note": "C67_query holds in general, with the connections the code really makes. That each edge of the answer was accepted in its direction, and optimality for metrics, hold for LazyQueryPath, and for QueryPath with symmetric functions; for QueryPath with connection_is_symmetric = false it is false (C67_false)."
  },
  {
   "property": "C66",
   "status": "proved",
   "theorems": [
    "CRU.Prm.C66_grow_roadmap",
    "CRU.Prm.C66_grow_states_valid",
    "CRU.Prm.C66_grow_no_duplicates",
    "CRU.Prm.C66_grow_statistics"
   ],
   "note": ""
  },
  {
   "property": "C42",
   "status": "partial",
   "theorems": [
    "CRU.Prng.C42_discard",
    "CRU.Prng.C42_splitmix_full_period",
    "CRU.Prng.C42_reseed",
    "CRU.Prng.C42_xs1024_reseed_partial",
    "CRU.Prng.C42_xs1024_reseed_false",
    "CRU.Prng.C42_xs128_never_zero",
    "CRU.Prng.C42_xs1024_never_zero",
    "CRU.Prng.C42_xs1024_outputs_not_stuck",
    "CRU.Prng.C42_xorshift_periodic",
    "CRU.Prng.C42_xs128_full_period"
   ],
   "note": "All parts hold except one: re-seeding XorShift1024* is reproducible only if the number of draws so far is divisible by 16 (C42_xs1024_reseed_false is the witness). The full period of XorShift128+ is proved by a kernel-checked certificate over GF(2) polynomials."
  },
  {
   "property": "C50",
   "status": "proved",
   "theorems": [
    "CRU.Math.C50_enforce",
    "CRU.Math.C50_enforce_congruent",
    "CRU.Math.C50_signed_distance",
    "CRU.Math.C50_distance",
    "CRU.Math.C50_range",
    "CRU.Math.C50_check_range",
    "CRU.Math.C50_check_bounds",
    "CRU.Math.C50_interpolate",
    "CRU.Math.C50_rounded_in_bounds",
    "CRU.Math.C50_rounded_error",
    "CRU.Math.C50_rounded_false"
   ],
   "note": "Exact arithmetic, with an abstract half-period. In double arithmetic (round to nearest, ties to even) the result stays in bounds and the error is bounded; C50_rounded_false: idempotence and 'the end of the range is in the range' fail by one rounding."
  },
  {
   "property": "C51",
   "status": "proved",
   "theorems": [
    "CRU.Math.C51_average",
    "CRU.Math.C51_average_between",
    "CRU.Math.C51_std_dev",
    "CRU.Math.C51_multilinear"
   ],
   "note": "Exact arithmetic."
  },
  {
   "property": "C68",
   "status": "proved",
   "theorems": [
    "CRU.Math.C68_projection",
    "CRU.Math.C68_orthogonal",
    "CRU.Math.C68_hyperplane",
    "CRU.Math.C68_hyperplane_degenerate",
    "CRU.Math.C68_hyperplane_vectors",
    "CRU.Math.C68_clamp_norm",
    "CRU.Math.C68_clamp_norm_false",
    "CRU.Math.C68_orthogonal_in_plane"
   ],
   "note": "GetArbitraryOrthogonalVectorToPlane declares variables of type Eigen::MatrixBase, so it cannot be instantiated as written; modelled is what it does with vectors in their place. Exact arithmetic. C68_clamp_norm_false: a negative bound turns the vector around (outside the claim)."
  },
  {
   "property": "C69",
   "status": "partial",
   "theorems": [
    "CRU.Math.C69_distance",
    "CRU.Math.C69_quaternion_distance",
    "CRU.Math.C69_quaternion_triangle_partial",
    "CRU.Math.C69_quaternion_triangle_false",
    "CRU.Math.C69_pose_distance"
   ],
   "note": "The triangle inequality of the quaternion distance holds up to the cutoff at which the code calls two rotations equal, and exactly when neither leg is under the cutoff; witness that it fails otherwise: C69_quaternion_triangle_false."
  },
  {
   "property": "C70",
   "status": "proved",
   "theorems": [
    "CRU.Math.C70_skew",
    "CRU.Math.C70_twist_hat",
    "CRU.Math.C70_transform_twist",
    "CRU.Math.C70_adjoint",
    "CRU.Math.C70_exp_matrix",
    "CRU.Math.C70_exp_twist",
    "CRU.Math.C70_exp_twist_small",
    "CRU.Math.C70_exp_twist_group",
    "CRU.Math.C70_exp_transform",
    "CRU.Math.C70_twist_between",
    "CRU.Math.C70_exp_matrix_false"
   ],
   "note": "Exact arithmetic; Eigen's matrix logarithm is a parameter with its defining equation as hypothesis. ExpTwist is exactly the matrix exponential except when the rotation is non-zero but slower than 1e-100 and the translation is not; then the rotation is dropped (C70_exp_twist_small bounds the difference). C70_exp_matrix_false: ExpMatrixExact accepts matrices that are not antisymmetric, for which the result is no rotation (outside the claim)."
  },
  {
   "property": "C71",
   "status": "proved",
   "theorems": [
    "CRU.Math.C71_interpolate",
    "CRU.Math.C71_interpolate_vector",
    "CRU.Math.C71_rounded",
    "CRU.Math.C71_rounded_false"
   ],
   "note": "Betweenness and monotonicity in exact arithmetic; in doubles the ends are exact and the error is bounded, but the result can leave the interval by a rounding (C71_rounded_false). Quaternions and poses: C89."
  },
  {
   "property": "C53",
   "status": "partial",
   "theorems": [
    "CRU.Gaussian.C53_in_bounds_partial",
    "CRU.Gaussian.C53_returns",
    "CRU.Gaussian.C53_false",
    "CRU.Gaussian.C53_zero_stddev_false"
   ],
   "note": "Exact arithmetic. Fails in the uniform rejection case, which draws from the unstandardised range (C53_false), and for a zero standard deviation with the mean out of bounds (C53_zero_stddev_false); holds in all other cases."
  },
  {
   "property": "C72",
   "status": "proved",
   "theorems": [
    "CRU.Gaussian.C72_gaussian",
    "CRU.Gaussian.C72_integrate",
    "CRU.Gaussian.C72_truncated_cdf",
    "CRU.Gaussian.C72_truncated",
    "CRU.Gaussian.C72_integrate_truncated"
   ],
   "note": "Exact arithmetic; std::erf by its integral definition."
  },
  {
   "property": "C73",
   "status": "partial",
   "theorems": [
    "CRU.Gaussian.C73_moments_partial",
    "CRU.Gaussian.C73_law_partial",
    "CRU.Gaussian.C73_one",
    "CRU.Gaussian.C73_false"
   ],
   "note": "The sampler has the right law in every dimension, but the constructor refuses every dimension except one (it compares mean_.cols() with covariance.cols()): C73_false."
  },
  {
   "property": "C54",
   "status": "proved",
   "theorems": [
    "CRU.Color.C54_round_trip",
    "CRU.Color.C54_trim",
    "CRU.Color.C54_channels_valid",
    "CRU.Color.C54_bytes",
    "CRU.Color.C54_nan_false"
   ],
   "note": "For every rounding to nearest with 24 bits. NaN passes through TrimColorValue unchanged and its conversion to a byte is undefined (C54_nan_false)."
  },
  {
   "property": "C75",
   "status": "partial",
   "theorems": [
    "CRU.Color.C75_hot_to_cold",
    "CRU.Color.C75_in_range_partial",
    "CRU.Color.C75_equal_bounds_false",
    "CRU.Color.C75_unique_colors",
    "CRU.Color.C75_colors_equal",
    "CRU.Color.C75_colors_equal_nan_false"
   ],
   "note": "InterpolateHotToCold with equal bounds gives a NaN green channel (C75_equal_bounds_false); otherwise as claimed (double arithmetic exact, conversion to float rounded). NaN channels compare equal to everything (C75_colors_equal_nan_false)."
  },
  {
   "property": "C55",
   "status": "proved",
   "theorems": [
    "CRU.Zlib.C55_compress",
    "CRU.Zlib.C55_compress_ends",
    "CRU.Zlib.C55_decompress",
    "CRU.Zlib.C55_decompress_ends",
    "CRU.Zlib.C55_round_trip"
   ],
   "note": "zlib is a parameter, constrained only by what its manual promises (Zlib/Spec)."
  },
  {
   "property": "C74",
   "status": "partial",
   "theorems": [
    "CRU.Zlib.C74_file_round_trip_partial",
    "CRU.Zlib.C74_false"
   ],
   "note": "CompressAndWriteToFile never checks the stream: writing to a file that cannot be opened, or to a full disk, returns normally (C74_false). The round trip holds if the file system worked."
  },
  {
   "property": "C76",
   "status": "proved",
   "theorems": [
    "CRU.Totp.C76_blend",
    "CRU.Totp.C76_arc_length",
    "CRU.Totp.C76_no_blend",
    "CRU.Totp.C76_switching_points"
   ],
   "note": "Exact arithmetic; an exact reversal (angle pi) is excluded, and signs of zeros in atan2."
  },
  {
   "property": "C77",
   "status": "proved",
   "theorems": [
    "CRU.Totp.C77_refused",
    "CRU.Totp.C77_follows_waypoints",
    "CRU.Totp.C77_arc_length",
    "CRU.Totp.C77_switching_points",
    "CRU.Totp.C77_next_switching_point",
    "CRU.Totp.C77_short_legs_false",
    "CRU.Totp.C77_repeated_end_false"
   ],
   "note": "Exact arithmetic. The exclusions of the statement are needed: C77_short_legs_false (finding: with a positive deviation, waypoints at most 1e-6 apart are dropped one after the other and the path starts at the last but one waypoint), C77_repeated_end_false (finding: a repeated final waypoint gives NaN)."
  },
  {
   "property": "C78",
   "status": "proved",
   "theorems": [
    "CRU.Totp.C78_acceleration_range",
    "CRU.Totp.C78_velocity_limit",
    "CRU.Totp.C78_velocity_limit_slope",
    "CRU.Totp.C78_acceleration_limit"
   ],
   "note": "Exact arithmetic extended by infinities and NaN where the code produces them."
  },
  {
   "property": "C79",
   "status": "partial",
   "theorems": [
    "CRU.Totp.C79_history_independent_partial",
    "CRU.Totp.C79_negative_time_false",
    "CRU.Totp.C79_clone_false"
   ],
   "note": "Proved for times in [0, Duration] and later, while no original is destroyed whose clone still refers to it. Findings: a clone copies the cached iterator, which points into the list of the original (C79_clone_false); negative times are undefined behaviour (C79_negative_time_false)."
  },
  {
   "property": "C80",
   "status": "partial",
   "theorems": [
    "CRU.Totp.C80_between_steps",
    "CRU.Totp.C80_profile",
    "CRU.Totp.C80_velocity_is_derivative",
    "CRU.Totp.C80_after_end_false"
   ],
   "note": "Proved for times from 0 to the duration. After the duration the trajectory does not stay at its end: the last deceleration is extrapolated (C80_after_end_false)."
  },
  {
   "property": "C81",
   "status": "partial",
   "theorems": [
    "CRU.Totp.C81_refused",
    "CRU.Totp.C81_rest_to_rest",
    "CRU.Totp.C81_deterministic",
    "CRU.Totp.C81_polyline_partial",
    "CRU.Totp.C81_zero_timestep_false",
    "CRU.Totp.C81_monotone_false",
    "CRU.Totp.C81_blends_false",
    "CRU.Totp.C81_defined"
   ],
   "note": "Every trajectory that is made goes from rest at the start to rest at the end of the path (C81_rest_to_rest, all paths). Termination without exception is proved for paths without blends (maximum deviation 0, the default, or less), for any number of waypoints; with blends it is FALSE: on a right angle with a blend of radius 1 and a timestep of 1.5 the construction throws runtime_error (C81_blends_false); nothing undefined happens, with blends or without (C81_defined). Findings: a timestep of 0 is accepted and never terminates (C81_zero_timestep_false); steps may go back by up to 1e-6, also in time (C81_monotone_false)."
  },
  {
   "property": "C82",
   "status": "partial",
   "theorems": [
    "CRU.Totp.C82_straight_line_partial",
    "CRU.Totp.C82_velocity_limit_false",
    "CRU.Totp.C82_bisection",
    "CRU.Totp.C82_forward_under_limits",
    "CRU.Totp.C82_corner_false"
   ],
   "note": "Proved with tolerances: velocity at most the limit plus timestep times acceleration limit, acceleration at most the limit plus 2e-6/timestep^2. The velocity limit itself is exceeded (C82_velocity_limit_false). At the corners of a path without blends the joints change their velocity at once, so no acceleration bound holds there (C82_corner_false). On every path, each step that integrating forward adds is on or under both limit curves (C82_forward_under_limits)."
  },
  {
   "property": "C83",
   "status": "partial",
   "theorems": [
    "CRU.Voxel.C83_grid_round_trip",
    "CRU.Voxel.C83_history_round_trip",
    "CRU.Voxel.C83_default_round_trip",
    "CRU.Voxel.C83_result_consistent",
    "CRU.Voxel.C83_result_is_map",
    "CRU.Voxel.C83_bounds",
    "CRU.Voxel.C83_ub_only_overflow",
    "CRU.Voxel.C83_overflow_false",
    "CRU.Voxel.C83_zero_cells_false",
    "CRU.Voxel.C83_zero_cells_binary64"
   ],
   "note": "The round trip is proved for grids made from cell counts and for the default grid, after any history; arbitrary bytes throw or give a consistent grid, reading only within the buffer. Two exceptions are proved as findings: bytes whose cell counts multiply past the int64 range overflow (undefined behaviour, C83_overflow_false; the only undefined behaviour, C83_ub_only_overflow), and a grid whose sizes were given as lengths so that the number of cells underflows to zero is accepted and serialized but refused on deserialization (C83_zero_cells_false, in binary64 C83_zero_cells_binary64)."
  },
  {
   "property": "C84",
   "status": "partial",
   "theorems": [
    "CRU.Voxel.C84_round_trip",
    "CRU.Voxel.C84_history_round_trip",
    "CRU.Voxel.C84_default_round_trip",
    "CRU.Voxel.C84_result_consistent",
    "CRU.Voxel.C84_bounds",
    "CRU.Voxel.C84_ub_only_overflow",
    "CRU.Voxel.C84_unfilled_false"
   ],
   "note": "The round trip is proved for every history and iteration order. Arbitrary bytes throw or give a consistent grid, reading only within the buffer, except that an overflow of cell counts is undefined (the only undefined behaviour, C84_ub_only_overflow), and that a chunk that is not filled is accepted although querying it throws (C84_unfilled_false)."
  },
  {
   "property": "C85",
   "status": "proved",
   "theorems": [
    "CRU.Math.C85_best_fit",
    "CRU.Math.C85_cost_distance",
    "CRU.Math.C85_coplanar",
    "CRU.Math.C85_rejected"
   ],
   "note": "For any thin singular value decomposition of the centred points. Exact arithmetic."
  },
  {
   "property": "C86",
   "status": "proved",
   "theorems": [
    "CRU.Math.C86_quaternion_mean",
    "CRU.Math.C86_quaternion_common",
    "CRU.Math.C86_quaternion_sign",
    "CRU.Math.C86_quaternion_cases",
    "CRU.Math.C86_pose_mean",
    "CRU.Math.C86_pose_cases",
    "CRU.Math.C86_zero_weights_false",
    "CRU.Math.C86_plain_weights_false"
   ],
   "note": "For any eigenvalue solver that returns unit eigenvectors and misses no eigenvalue. Findings: the weights act by their squares (C86_plain_weights_false), so poses mix two weightings, and several quaternions with all weights zero are not rejected (C86_zero_weights_false). Exact arithmetic."
  },
  {
   "property": "C87",
   "status": "proved",
   "theorems": [
    "CRU.Math.C87_rpy",
    "CRU.Math.C87_transform",
    "CRU.Math.C87_round_trip",
    "CRU.Math.C87_euler",
    "CRU.Math.C87_urdf_round_trip_false",
    "CRU.Math.C87_containers"
   ],
   "note": "eulerAngles is Eigen's: a parameter with a contract, and the published algorithm is shown to meet it (C87_euler). TransformToRPY is not inverse to TransformFromUrdfRPY (C87_urdf_round_trip_false). Exact arithmetic."
  },
  {
   "property": "C88",
   "status": "proved",
   "theorems": [
    "CRU.Math.RandomRotation.C88_quaternion_unit",
    "CRU.Math.RandomRotation.C88_quaternion_uniform",
    "CRU.Math.RandomRotation.C88_quaternion_invariant",
    "CRU.Math.RandomRotation.C88_half",
    "CRU.Math.RandomRotation.C88_euler_range",
    "CRU.Math.RandomRotation.C88_euler_uniform"
   ],
   "note": "Uniform: the probability of a set of directions is its share of the volume of the unit ball of R^4. The draws are independent and uniform on [0,1), the idealization of std::uniform_real_distribution; exact arithmetic."
  },
  {
   "property": "C89",
   "status": "proved",
   "theorems": [
    "CRU.Math.C89_slerp",
    "CRU.Math.C89_ends",
    "CRU.Math.C89_near",
    "CRU.Math.C89_sign",
    "CRU.Math.C89_pose"
   ],
   "note": "Eigen's slerp is modelled by its published algorithm. Opposite rotations (quaternions at right angles) are excluded from the sign statement. Exact arithmetic."
  },
  {
   "property": "C90",
   "status": "proved",
   "theorems": [
    "CRU.Math.VectorOps.C90_scalar",
    "CRU.Math.VectorOps.C90_vector",
    "CRU.Math.VectorOps.C90_size_mismatch",
    "CRU.Math.VectorOps.C90_sum",
    "CRU.Math.VectorOps.C90_squared_norm",
    "CRU.Math.VectorOps.C90_norm",
    "CRU.Math.VectorOps.C90_norm_example",
    "CRU.Math.VectorOps.C90_divide_false",
    "CRU.Math.VectorOps.C90_weighted_angle",
    "CRU.Math.VectorOps.C90_weighted_range",
    "CRU.Math.VectorOps.C90_weighted_example"
   ],
   "note": "Element-wise results for every rounding; dividing by a number multiplies by the rounded reciprocal, so 49/49 is not 1 (C90_divide_false). Angles in exact arithmetic; vectors of one size (Eigen asserts it)."
  },
  {
   "property": "C91",
   "status": "partial",
   "theorems": [
    "CRU.Math.Close.C91_close_scalar",
    "CRU.Math.Close.C91_close_scalar_nan",
    "CRU.Math.Close.C91_close_vector",
    "CRU.Math.Close.C91_close_vector_nan_false",
    "CRU.Math.Close.C91_close_nan_threshold",
    "CRU.Math.Close.C91_equal",
    "CRU.Math.Close.C91_binary64_rounds",
    "CRU.Math.Close.C91_zero_threshold"
   ],
   "note": "The version for vectors is the conjunction over the coordinates only as long as no NaN comes up: a vector of NaNs is close to every vector (C91_close_vector_nan_false), a finding."
  },
  {
   "property": "C92",
   "status": "proved",
   "theorems": [
    "CRU.Prng.C92_splitmix",
    "CRU.Prng.C92_xorshift128plus",
    "CRU.Prng.C92_xorshift1024star",
    "CRU.Prng.C92_words1024_unique"
   ],
   "note": "The specification has closed formulas and recurrences on natural numbers, no state and no circular buffer; checked also against published values."
  },
  {
   "property": "C93",
   "status": "proved",
   "theorems": [
    "CRU.Ros.C93_points",
    "CRU.Ros.C93_homogeneous",
    "CRU.Ros.C93_pose_round_trip",
    "CRU.Ros.C93_message_round_trip",
    "CRU.Ros.C93_transform_messages",
    "CRU.Ros.C93_message_round_trip_false",
    "CRU.Ros.C93_vectors",
    "CRU.Ros.C93_stamped"
   ],
   "note": "Exact arithmetic for poses; Eigen's conversions between quaternions and matrices by their published algorithms. The sign of a quaternion may change and a non-unit quaternion gives a transform that is no isometry, without an error (C93_message_round_trip_false)."
  },
  {
   "property": "C94",
   "status": "proved",
   "theorems": [
    "CRU.Life.Ref.C94_safe",
    "CRU.Life.Ref.C94_alias",
    "CRU.Life.Ref.C94_operations",
    "CRU.Life.Ref.C94_dangling_false"
   ],
   "note": "A maybe does not notice that its object is gone (C94_dangling_false); hence the hypothesis that objects outlive their maybes, which the header states."
  },
  {
   "property": "C95",
   "status": "proved",
   "theorems": [
    "CRU.Life.Atomic.C95_no_lost_update",
    "CRU.Life.Atomic.C95_tickets",
    "CRU.Life.Atomic.C95_copy",
    "CRU.Life.Atomic.C95_copy_atomic_false"
   ],
   "note": "std::atomic operations are indivisible and totally ordered (sequential consistency); a copy is two such operations, not one (C95_copy_atomic_false)."
  },
  {
   "property": "C96",
   "status": "partial",
   "theorems": [
    "CRU.Print.C96_read_back",
    "CRU.Print.C96_form",
    "CRU.Print.C96_form_map",
    "CRU.Print.C96_flat",
    "CRU.Print.C96_matrix",
    "CRU.Print.C96_nested_false",
    "CRU.Print.C96_strings_false"
   ],
   "note": "Proved for every type without std::string. Strings are not quoted and can imitate separators (C96_strings_false), and without delimiters - the default - nested containers look like flat ones (C96_nested_false). The formatting of a double is the standard library's; Print(forward_list) does not compile when used."
  },
  {
   "property": "C97",
   "status": "proved",
   "theorems": [
    "CRU.Util.C97_last_member",
    "CRU.Util.C97_onto",
    "CRU.Util.C97_first_member_false"
   ],
   "note": "size_t has 64 bits. The same is not true of the members before the last (C97_first_member_false)."
  },
  {
   "property": "C98",
   "status": "proved",
   "theorems": [
    "CRU.Parallel.C98_static",
    "CRU.Parallel.C98_static_visited",
    "CRU.Parallel.C98_static_first",
    "CRU.Parallel.C98_omp_any_false",
    "CRU.Parallel.C98_dynamic_omp"
   ],
   "note": "The asynchronous dispatcher of the dynamic loop is in C07. With OpenMP any of the exceptions may come out (C98_omp_any_false)."
  },
  {
   "property": "C99",
   "status": "proved",
   "theorems": [
    "CRU.Base64.C99_variants"
   ],
   "note": ""
  },
  {
   "property": "C100",
   "status": "proved",
   "theorems": [
    "CRU.Ser.C100_round_trip",
    "CRU.Ser.C100_layout",
    "CRU.Ser.C100_safe",
    "CRU.Ser.C100_short_buffer_throws"
   ],
   "note": "Parametric in the representation of double (8 bytes). Eigen stores vectors densely, quaternions as x, y, z, w and matrices column-major."
  },
  {
   "property": "C101",
   "status": "proved",
   "theorems": [
    "CRU.Astar.C101_hash_irrelevant",
    "CRU.Astar.C101_path_up_to_equality",
    "CRU.Astar.C101_failures",
    "CRU.Astar.C101_optimal",
    "CRU.Astar.C101_empty_means_unreachable",
    "CRU.Astar.C101_terminates",
    "CRU.Astar.C101_default_equality",
    "CRU.Astar.C101_coarse_equality_false",
    "CRU.Astar.C101_path_false",
    "CRU.Task.C101_planner_hash_irrelevant",
    "CRU.Task.C101_planner_two_hashes",
    "CRU.Task.C101_planner_plan",
    "CRU.Task.C101_planner_next",
    "CRU.Task.C101_planner_default_equality"
   ],
   "note": "Both conditions are needed: with callbacks that distinguish equal states the search can answer no path although there is one (C101_coarse_equality_false) and return a path with a step no callback offered (C101_path_false). The bucket count of the maps is a function of the number of entries."
  },
  {
   "property": "C102",
   "status": "proved",
   "theorems": [
    "CRU.NaN.C102_hausdorff",
    "CRU.NaN.C102_hausdorff_matrix",
    "CRU.NaN.C102_hausdorff_value",
    "CRU.NaN.C102_dijkstra",
    "CRU.NaN.C102_dijkstra_distances",
    "CRU.NaN.C102_single_link",
    "CRU.NaN.C102_single_link_components"
   ],
   "note": "A double is a NaN or a number of any linear order with infinity; the bound of a clustering is a number."
  },
  {
   "property": "C103",
   "status": "partial",
   "theorems": [
    "CRU.NaN.C103_astar_path_is_real",
    "CRU.NaN.C103_astar_terminates_false",
    "CRU.NaN.C103_dtw_finite_is_real",
    "CRU.NaN.C103_dtw_first_pair",
    "CRU.NaN.C103_dtw_optimal_false",
    "CRU.NaN.C103_complete_link_false",
    "CRU.NaN.C103_clamp",
    "CRU.NaN.C103_spread",
    "CRU.NaN.C103_voxel_location",
    "CRU.NaN.C103_voxel_sizes",
    "CRU.NaN.C103_voxel_numbers",
    "CRU.NaN.C103_comparator"
   ],
   "note": "The positive parts are proved for every arithmetic. Findings: A* with a NaN distance can run for ever on two states (C103_astar_terminates_false), DTW misses the best alignment next to a NaN (C103_dtw_optimal_false), complete-link clustering counts a NaN as 0 (C103_complete_link_false), the index of a location with a NaN coordinate is undefined (C103_voxel_location), and comparators with NaN are no strict weak orderings (C103_comparator), so that K nearest neighbours is undefined."
  },
  {
   "property": "C104",
   "status": "proved",
   "theorems": [
    "CRU.Rrt.Throw.C104_tree",
    "CRU.Rrt.Throw.C104_tree_grows",
    "CRU.Rrt.Throw.C104_keep",
    "CRU.Rrt.Throw.C104_exceptions",
    "CRU.Rrt.Throw.C104_at_once",
    "CRU.Rrt.Throw.C104_normal",
    "CRU.Rrt.Throw.C104_single",
    "CRU.Rrt.Throw.C104_single_at_once",
    "CRU.Rrt.Throw.C104_bi_trees",
    "CRU.Rrt.Throw.C104_bi_trees_grow",
    "CRU.Rrt.Throw.C104_bi_exceptions",
    "CRU.Rrt.Throw.C104_bi_at_once",
    "CRU.Rrt.Throw.C104_bi_normal",
    "CRU.Rrt.Throw.C104_bi_single",
    "CRU.Rrt.Throw.C104_bi_single_at_once"
   ],
   "note": "Exceptions of memory allocation are not modelled. Callbacks that get a tree by mutable reference may change it as long as it stays linked and its indices stay meaningful."
  },
  {
   "property": "C105",
   "status": "proved",
   "theorems": [
    "CRU.Astar.C105_bound",
    "CRU.Astar.C105_bound_valid",
    "CRU.Astar.C105_weighted",
    "CRU.Astar.C105_additive",
    "CRU.Astar.C105_weighted_sharp",
    "CRU.GraphSearch.C105_graph",
    "CRU.Task.C105_planner"
   ],
   "note": "As in C20, a start that meets the goal must be a cheapest start, or no start meets the goal (StartProviso); for graphs and the planner this always holds. Factor and amount are stated for exact costs, the general bound for any cost arithmetic including rounded ones."
  },
  {
   "property": "C106",
   "status": "proved",
   "theorems": [
    "CRU.Accuracy.C106_dijkstra",
    "CRU.Accuracy.C106_dijkstra_near_optimal",
    "CRU.Accuracy.C106_astar",
    "CRU.Accuracy.C106_graph",
    "CRU.Accuracy.C106_dtw"
   ],
   "note": "Double.lean defines non-negative binary64 with IEEE 754 rounded addition and proves the relative error bound of a sum, subnormals and overflow included; for dynamic time warping only the lower bound holds, the upper one fails without rounding too (C30_optimal_false)"
  },
  {
   "property": "C107",
   "status": "proved",
   "theorems": [
    "CRU.Distances.Throw.C107_hausdorff",
    "CRU.Distances.Throw.C107_hausdorff_empty",
    "CRU.Distances.Throw.C107_self_matrix",
    "CRU.Distances.Throw.C107_cross_matrix",
    "CRU.Distances.Throw.C107_runs_exist",
    "CRU.Knn.Throw.C107_knn",
    "CRU.Knn.Throw.C107_knn_no_calls",
    "CRU.Knn.Throw.C107_knn_runs_exist"
   ],
   "note": "On OpenMP with several threads which of several exceptions is thrown depends on the schedule; the theorems say it is one of them. The normal case refers to the models with total distance functions, so C08, C09, C31, C32 apply to it."
  },
  {
   "property": "C108",
   "status": "proved",
   "theorems": [
    "CRU.Prm.Throw.C108_add_node",
    "CRU.Prm.Throw.C108_add_node_as_without",
    "CRU.Prm.Throw.C108_grow_as_without",
    "CRU.Prm.Throw.C108_grow",
    "CRU.Prm.Throw.C108_grow_statistics",
    "CRU.Prm.Throw.C108_retry_stays_isolated",
    "CRU.Prm.Throw.C108_linear_provider",
    "CRU.Prm.Throw.C108_update",
    "CRU.Prm.Throw.C108_update_in_step",
    "CRU.Prm.Throw.C108_update_refuses_bad_linkage",
    "CRU.Prm.Throw.C108_update_runs_exist",
    "CRU.Prm.Throw.C108_update_parallel_out_of_step"
   ],
   "note": "An exception in an edge check leaves the state as a node without edges, and a retry treats it as a duplicate (C108_retry_stays_isolated). With parallel edges an interrupted update can leave in-edges and out-edges with different weights (C108_update_parallel_out_of_step). Queries: C118. BuildRoadMap with throwing functions is not modelled."
  },
  {
   "property": "C109",
   "status": "proved",
   "theorems": [
    "CRU.Path.Throw.C109_exceptions",
    "CRU.Path.Throw.C109_smoothed",
    "CRU.Path.Throw.C109_calls",
    "CRU.Path.Throw.C109_percent_free",
    "CRU.Path.Throw.C109_asked",
    "CRU.Path.Throw.C109_resampled",
    "CRU.Path.Throw.C109_pure"
   ],
   "note": "The random numbers are assumed to be floating-point numbers in [0, 1) (UnitFn) where the edges are concerned. C109_pure connects the model to the one of C34 and C35."
  },
  {
   "property": "C110",
   "status": "proved",
   "theorems": [
    "CRU.Totp.C110_next_switching_point",
    "CRU.Totp.C110_search_ends",
    "CRU.Totp.C110_next_is_ahead",
    "CRU.Totp.C110_ahead_false"
   ],
   "note": "Over the reals. If the velocity limit falls exactly as fast as the trajectory could where the search begins, the velocity switching point found is not ahead (C110_ahead_false), so that the loop over velocity switching points need not end. When no acceleration switching point is accepted, a velocity switching point is not compared with the acceleration limit (visible in the second alternative of C110_next_switching_point)."
  },
  {
   "property": "C111",
   "status": "proved",
   "theorems": [
    "CRU.Task.Callbacks.C111_session",
    "CRU.Task.Callbacks.C111_exceptions",
    "CRU.Task.Callbacks.C111_executions",
    "CRU.Task.Callbacks.C111_answers",
    "CRU.Task.Callbacks.C111_ends",
    "CRU.Task.Callbacks.C111_single_start"
   ],
   "note": "IsCandidate, GetOutcomes, the completion test and the heuristic may be different for every plan, but are fixed and do not throw while one plan is made."
  },
  {
   "property": "C112",
   "status": "proved",
   "theorems": [
    "CRU.Kmeans.Throw.C112_outcomes",
    "CRU.Kmeans.Throw.C112_labels",
    "CRU.Kmeans.Throw.C112_as_without",
    "CRU.Kmeans.Throw.C112_nothing_thrown",
    "CRU.Kmeans.Throw.C112_ends",
    "CRU.Hier.Throw.C112_hierarchical",
    "CRU.Hier.Throw.C112_hierarchical_result",
    "CRU.Hier.Throw.C112_hierarchical_exists"
   ],
   "note": "C112_ends, like C32_terminates, is for exact arithmetic and answers that are those of a distance and its strict mean. The functions are deterministic."
  },
  {
   "property": "C113",
   "status": "proved",
   "theorems": [
    "CRU.Astar.Callbacks.C113_search",
    "CRU.Astar.Callbacks.C113_search_valid",
    "CRU.Astar.Callbacks.C113_single",
    "CRU.Astar.Callbacks.C113_goal_start",
    "CRU.Astar.Callbacks.C113_as_without",
    "CRU.Astar.Callbacks.C113_as_without_valid",
    "CRU.Astar.Callbacks.C113_ends"
   ],
   "note": "States are compared with =, and comparison and hash do not throw. Costs of children are not negative, which the constructor of StateWithCost ensures (not assumed for distances of the second overload)."
  },
  {
   "property": "C114",
   "status": "proved",
   "theorems": [
    "CRU.GraphSearch.Callbacks.C114_search",
    "CRU.GraphSearch.Callbacks.C114_lazy",
    "CRU.GraphSearch.Callbacks.C114_values",
    "CRU.GraphSearch.Callbacks.C114_goal_start",
    "CRU.GraphSearch.Callbacks.C114_ends",
    "CRU.GraphSearch.Callbacks.C114_lazy_ends",
    "CRU.GraphSearch.Callbacks.C114_as_without",
    "CRU.GraphSearch.Callbacks.C114_as_without_lazy"
   ],
   "note": "Distances of edges of the graph are not negative (a negative distance is not rejected by this code). The overloads with functions of node values call the second overload with the functions `valueFns` and `weightFns`; C114_values shows that these read existing nodes only."
  },
  {
   "property": "C115",
   "status": "proved",
   "theorems": [
    "CRU.Task.Planning.C115_plan",
    "CRU.Task.Planning.C115_next",
    "CRU.Task.Planning.C115_ends",
    "CRU.Task.Planning.C115_as_without"
   ],
   "note": "States are compared with =, and comparison and hash do not throw. The primitives do not register or unregister primitives while a plan is made. Predicted costs are not negative, which the constructor of StateWithCost ensures."
  },
  {
   "property": "C116",
   "status": "proved",
   "theorems": [
    "CRU.Ser.Self.C116_grid_forgets",
    "CRU.Ser.Self.C116_dynamic_forgets",
    "CRU.Ser.Self.C116_edge_forgets",
    "CRU.Ser.Self.C116_node_forgets",
    "CRU.Ser.Self.C116_dijkstra_forgets",
    "CRU.Ser.Self.C116_graph_forgets",
    "CRU.Ser.Self.C116_sizes_forgets",
    "CRU.Ser.Self.C116_grid_reload",
    "CRU.Ser.Self.C116_graph_keeps",
    "CRU.Ser.Self.C116_sizes_keep",
    "CRU.Ser.Self.C116_grid_after_exception",
    "CRU.Ser.Self.C116_grid_usable_after_exception",
    "CRU.Ser.Self.C116_dynamic_after_exception",
    "CRU.Ser.Self.C116_edge_after_exception",
    "CRU.Ser.Self.C116_node_after_exception",
    "CRU.Ser.Self.C116_dijkstra_after_exception",
    "CRU.Ser.Self.C116_grid_strong_guarantee_false",
    "CRU.Ser.Self.C116_dijkstra_strong_guarantee_false",
    "CRU.Ser.Self.C116_concrete",
    "CRU.Ser.Self.C116_derived_round_trip",
    "CRU.Ser.Self.C116_derived_order_false"
   ],
   "note": "A derived class writes and reads members of its own only. The voxel grid's usability after an exception assumes sizes with which a grid can be constructed (number of cells within int64)."
  },
  {
   "property": "C117",
   "status": "proved",
   "theorems": [
    "CRU.Task.Session.C117_session",
    "CRU.Task.Session.C117_exceptions",
    "CRU.Task.Session.C117_only_candidates",
    "CRU.Task.Session.C117_executions",
    "CRU.Task.Session.C117_answers",
    "CRU.Task.Session.C117_ends",
    "CRU.Task.Session.C117_as_without"
   ],
   "note": "States are compared with =. Name does not throw. The collection may change between plans (by callbacks or Execute), not while a plan is made. Predicted costs are not negative, which the constructor of StateWithCost ensures."
  },
  {
   "property": "C118",
   "status": "proved",
   "theorems": [
    "CRU.Prm.Throw.C118_query_and_add_nodes",
    "CRU.Prm.Throw.C118_caller_roadmap",
    "CRU.Prm.Throw.C118_overlay_agrees",
    "CRU.Prm.Throw.C118_answer",
    "CRU.Prm.Throw.C118_empty",
    "CRU.Prm.Throw.C118_ends",
    "CRU.Prm.Throw.C118_as_without",
    "CRU.Prm.Throw.C118_path_as_without"
   ],
   "note": "The answer of QueryPath is a path of checked edges under the assumptions of C67 (symmetric functions, roadmap edges that were checked). In the search the functions keep no state; the parallel loops are those of C104."
  },
  {
   "property": "C119",
   "status": "proved",
   "theorems": [
    "CRU.Prm.Throw.C119_build",
    "CRU.Prm.Throw.C119_as_without",
    "CRU.Prm.Throw.C119_roadmap",
    "CRU.Prm.Throw.C119_linear_provider",
    "CRU.Prm.Throw.C119_ends"
   ],
   "note": "Values and exceptions of the functions depend on their arguments only; the sampler may return or throw anything in a set. The bodies of a parallel loop run one after the other, in any interleaving of the threads' ranges, and each either stores its result or throws. OpenMP rethrows the exception that was assigned last, std::async that of the first range that has one. C119_roadmap assumes a provider that returns the K nearest (C119_linear_provider: the linear one does)."
  },
  {
   "property": "C120",
   "status": "proved",
   "theorems": [
    "CRU.Utility.C120_alignment",
    "CRU.Utility.C120_alignment_divisor",
    "CRU.Utility.C120_eigen_alignment_off_false",
    "CRU.Utility.C120_substring"
   ],
   "note": "Alignment zero is outside the claim: C120_eigen_alignment_off_false shows that RequireEigenAlignment divides by zero when Eigen's alignment is switched off."
  },
  {
   "property": "C121",
   "status": "partial",
   "theorems": [
    "CRU.Gaussian.C121_law_partial",
    "CRU.Gaussian.C121_limit_partial",
    "CRU.Gaussian.C121_cdf_partial",
    "CRU.Gaussian.C121_standard"
   ],
   "note": "Not for the fourth case (uniform rejection, which draws from the range of the bounds that are not standardised, so that samples can be outside the bounds: C53_false), except for mean 0 and standard deviation 1 (C121_standard). Each round has its own draws; those of a round that are not used have no effect."
  }
 ]
}