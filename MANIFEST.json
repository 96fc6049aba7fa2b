{
 "claims": [
  {
   "property": "C01",
   "status": "proved",
   "theorems": [
    "CM.C01_clean_edges",
    "CM.C01_input_order"
   ],
   "note": ""
  },
  {
   "property": "C02",
   "status": "proved",
   "theorems": [
    "CM.C02_from_edgelist"
   ],
   "note": ""
  },
  {
   "property": "C03",
   "status": "proved",
   "theorems": [
    "CM.C03_from_matrix"
   ],
   "note": ""
  },
  {
   "property": "C04",
   "status": "proved",
   "theorems": [
    "CM.C04_from_adjlist",
    "CM.C04_adjlist_roundtrip",
    "CM.C04_empty"
   ],
   "note": ""
  },
  {
   "property": "C05",
   "status": "proved",
   "theorems": [
    "CM.C05_to_matrix",
    "CM.C05_to_adjlist",
    "CM.C05_to_edgelist",
    "CM.C05_neighbours"
   ],
   "note": ""
  },
  {
   "property": "C06",
   "status": "partial",
   "theorems": [
    "CM.C06_export",
    "CM.C06_edgelist_exactly",
    "CM.C06_matrix_exactly",
    "CM.C06_edgelist_partial",
    "CM.C06_matrix_partial",
    "CM.C06_adjlist",
    "CM.C06_refuted_edgelist",
    "CM.C06_refuted_matrix"
   ],
   "note": "False for duplicate rows and asymmetric matrices (C06_refuted_*): n_edges counts rows or half the marked cells, and the edge-list export then leaves rows uninitialised or writes out of bounds. Proved when the rows are distinct edges or the matrix is symmetric, and without condition for adjacency lists. Exactly then n_edges is right; what the export does in the other cases is proved too (C06_edgelist_exactly, C06_matrix_exactly)."
  },
  {
   "property": "C07",
   "status": "proved",
   "theorems": [
    "CM.C07_round_trip",
    "CM.C07_more_edges",
    "CM.C07_wrong_count",
    "CM.round_trip"
   ],
   "note": "C07_wrong_count shows why the hypothesis on n_edges is needed."
  },
  {
   "property": "C08",
   "status": "partial",
   "theorems": [
    "CM.C08_well_formed",
    "CM.C08_any_file_partial",
    "CM.C08_refuted"
   ],
   "note": "False (C08_refuted): a row with vertex id 0 is accepted. Proved: well-formed files without id 0 give the graph of their rows; for every file, whatever its content, neighbours are among 0..n, the relation is symmetric, and the object is properly loaded if 0 is nobody's neighbour."
  },
  {
   "property": "C09",
   "status": "proved",
   "theorems": [
    "CM.C09_returned_is_clique",
    "CM.C09_any_lower_bound"
   ],
   "note": ""
  },
  {
   "property": "C10",
   "status": "proved",
   "theorems": [
    "CM.C10_untimed_exact",
    "CM.C10_default_call"
   ],
   "note": ""
  },
  {
   "property": "C11",
   "status": "proved",
   "theorems": [
    "CM.C11_lower_bound"
   ],
   "note": ""
  },
  {
   "property": "C12",
   "status": "partial",
   "theorems": [
    "CM.C12_upper_bound_partial",
    "CM.C12_refuted"
   ],
   "note": "False (C12_refuted): upper_bound stops the search once reached but does not cap the size of the result. Proved: the result has at least min(upper_bound, clique number) vertices and is a clique."
  },
  {
   "property": "C13",
   "status": "proved",
   "theorems": [
    "CM.C13_heuristic_harmless",
    "CM.C13_heuristic_then_exact",
    "CM.C14_never_worse"
   ],
   "note": ""
  },
  {
   "property": "C14",
   "status": "proved",
   "theorems": [
    "CM.C14_never_worse",
    "CM.C14_no_expiry",
    "CM.C14_long_enough"
   ],
   "note": ""
  },
  {
   "property": "C15",
   "status": "partial",
   "theorems": [
    "CM.C15_search_done_partial",
    "CM.C15_refuted",
    "CM.C15_given_up_partial",
    "CM.C14_long_enough"
   ],
   "note": "False when a clock expires inside a vertex (C15_refuted). Proved when the clock does not expire, and for every time limit that is long enough (C14_long_enough). For any clocks, what can be missed: only cliques through the last vertex or through a set with at most one vertex for each call with a time limit (C15_given_up_partial)."
  },
  {
   "property": "C16",
   "status": "partial",
   "theorems": [
    "CM.C16_reset_partial",
    "CM.C16_refuted",
    "CM.C16_refuted_timed",
    "CM.C16_given_up_partial"
   ],
   "note": "False after searches that were cut short by upper_bound (C16_refuted) or by the clock (C16_refuted_timed). Proved for every history of exact searches, resets and complete iterations. For every history, what can be missed: cliques larger than the smallest upper_bound used, or through a set with at most one vertex for each call with a time limit (C16_given_up_partial)."
  },
  {
   "property": "C17",
   "status": "proved",
   "theorems": [
    "CM.C17_idempotent"
   ],
   "note": ""
  },
  {
   "property": "C18",
   "status": "partial",
   "theorems": [
    "CM.C18_iterate_first_partial",
    "CM.C18_sizes_partial",
    "CM.C18_largest_partial",
    "CM.C18_refuted"
   ],
   "note": "False when an iteration follows a search (C18_refuted). Proved when the iteration comes first, and anywhere for iterations over sizes no smaller than the clique number (C18_largest_partial). In general a later search returns a maximum clique or one whose size is that of an iteration (C18_sizes_partial)."
  },
  {
   "property": "C19",
   "status": "proved",
   "theorems": [
    "CM.C19_sound"
   ],
   "note": ""
  },
  {
   "property": "C20",
   "status": "partial",
   "theorems": [
    "CM.C20_complete_partial",
    "CM.C20_without_one_partial",
    "CM.C20_refuted"
   ],
   "note": "False: vertex 1 is never a root of the enumeration (C20_refuted). Proved: every clique of the requested size whose first vertex in (degree, id) order is not vertex 1 is produced exactly once."
  },
  {
   "property": "C21",
   "status": "proved",
   "theorems": [
    "CM.C21_terminates"
   ],
   "note": ""
  },
  {
   "property": "C22",
   "status": "partial",
   "theorems": [
    "CM.C22_libstdcxx_sparse",
    "CM.C22_libstdcxx_one_edge",
    "CM.C22_libstdcxx_matrix",
    "CM.C22_libstdcxx_complete_file",
    "CM.C22_no_fault_partial",
    "CM.C22_refuted_edgeless",
    "CM.C22_refuted_moved",
    "CM.C22_refuted_abandoned",
    "CM.C22_refuted_timed",
    "CM.C22_one_iterator_partial",
    "CM.C22_programs_partial",
    "CM.C22_refuted_nested",
    "CM.C22_roomy_usable",
    "CM.C22_moved_faults",
    "CM.C22_edgeless_faults",
    "CM.C22_searchable",
    "CM.C22_usable_edgelist",
    "CM.C22_usable_matrix",
    "CM.C22_usable_adjlist",
    "CM.C22_usable_built",
    "CM.C22_complete_matrix"
   ],
   "note": "False for graphs without edges, for objects whose buffer moved while loading, after several abandoned iterators, and for searches with a time limit while an iterator is held (C22_refuted_*). Proved for every history of searches, resets and complete iterations on the other graphs, and for programs that hold or abandon one iterator and make calls without time limit meanwhile (C22_one_iterator_partial), and for programs with loops nested to any depth and dropped iterators whose sizes add up to no more than a vertex has later neighbours plus one (C22_programs_partial; more can fault, C22_refuted_nested); a graph with enough edges for its largest degree is one of them, whatever the allocator does (*_roomy_usable). Every search on any other loaded graph faults (*_searchable), and which graphs these are is given by the degrees and the capacity of the buffer (*_usable_*). With the capacities that libstdc++ chooses: C22_libstdcxx_*."
  },
  {
   "property": "C23",
   "status": "proved",
   "theorems": [
    "CM.C23_memory_returned",
    "CM.C23_blocks_returned"
   ],
   "note": ""
  },
  {
   "property": "C24",
   "status": "partial",
   "theorems": [
    "CM.C24_sequential_partial",
    "CM.C24_nested_partial",
    "CM.C24_refuted",
    "CM.C24_programs_partial"
   ],
   "note": "False when two iterators alternate (C24_refuted) or a search with a time limit runs while an iterator is held (C22_refuted_timed). Proved for sequential use (C24_sequential_partial) and for one held iterator with any other complete calls, searches without time limit included, in between (C24_nested_partial), and for loops inside loops to any depth and iterators dropped early, as far as the scratch memory is sure to suffice (C24_programs_partial)."
  },
  {
   "property": "C25",
   "status": "proved",
   "theorems": [
    "CM.C25_searches_agree"
   ],
   "note": ""
  },
  {
   "property": "C26",
   "status": "proved",
   "theorems": [
    "CM.C26_graph_unchanged"
   ],
   "note": ""
  },
  {
   "property": "C27",
   "status": "proved",
   "theorems": [
    "CM.C27_indices"
   ],
   "note": ""
  },
  {
   "property": "C28",
   "status": "proved",
   "theorems": [
    "CM.C28_one_to_one",
    "CM.C28_iterator"
   ],
   "note": ""
  },
  {
   "property": "C29",
   "status": "partial",
   "theorems": [
    "CM.C29_compatible_linked",
    "CM.C29_with_condition",
    "CM.C29_exact",
    "CM.C29_double_partial",
    "CM.C29_refuted_rounding"
   ],
   "note": "False for double if epsilon is lost in rounding (C29_refuted_rounding). Proved for exact arithmetic (C29_exact), for the window the code computes in any monotone arithmetic (C29_compatible_linked, C29_with_condition), and for double if the difference is below epsilon by a relative margin of 2^-50 or the ends of the window are representable (C29_double_partial)."
  },
  {
   "property": "C30",
   "status": "partial",
   "theorems": [
    "CM.C30_linked_partial",
    "CM.C30_refuted",
    "CM.C30_double_partial"
   ],
   "note": "False (C30_refuted): the window search also links the nearest distances outside the window. Proved: a linked pair is inside the window or is the nearest one outside it on its side; for double, with a relative margin of 2^-50 for the rounding (C30_double_partial)."
  },
  {
   "property": "C31",
   "status": "partial",
   "theorems": [
    "CM.C31_condition_filters",
    "CM.C31_condition_only_partial",
    "CM.C31_refuted"
   ],
   "note": "Proved for build_edges with metrics and a condition (C31_condition_filters). False for build_edges_condition_only (C31_refuted), which also links the swapped assignment; proved there: the exact set of links, hence the property for functions that treat both assignments alike."
  },
  {
   "property": "C32",
   "status": "proved",
   "theorems": [
    "CM.C32_cliques_are_matchings",
    "CM.C32_sound"
   ],
   "note": ""
  },
  {
   "property": "C33",
   "status": "proved",
   "theorems": [
    "CM.C33_largest"
   ],
   "note": ""
  },
  {
   "property": "C34",
   "status": "partial",
   "theorems": [
    "CM.C34_from_edgelist",
    "CM.C34_from_matrix",
    "CM.C34_kept",
    "CM.C34_refuted_adjlist"
   ],
   "note": "False for from_adjlist (C34_refuted_adjlist): every input it accepts reads one weight past the end. Proved for from_edgelist and from_matrix, and that no later call changes a weight."
  },
  {
   "property": "C35",
   "status": "proved",
   "theorems": [
    "CM.C35_returned_is_clique",
    "CM.C35_any_lower_bound",
    "CM.C35_any_arithmetic"
   ],
   "note": "C35_any_arithmetic assumes no law of arithmetic, so it covers double with rounding, infinities and NaN. For lower bounds that are not positive the result may be the placeholder vertex 0 (C35_any_lower_bound)."
  },
  {
   "property": "C36",
   "status": "partial",
   "theorems": [
    "CM.C36_exact_partial",
    "CM.C36_no_isolated",
    "CM.C36_raise_partial",
    "CM.C36_after_reset_partial",
    "CM.C36_refuted_isolated",
    "CM.C36_refuted_light",
    "CM.C36_refuted_heavy",
    "CM.C36_refuted_rounding",
    "CM.C36_double_partial",
    "CM.C36_double_no_isolated",
    "CM.C36_double_raise_partial",
    "CM.C36_refuted_negative"
   ],
   "note": "False (C36_refuted_*): negative weights, isolated vertices, cliques of weight at most 1, cliques heavier than 65535; with double also when sums of weights round (C36_refuted_rounding). Proved, in exact arithmetic: for nonnegative weights and bounds that do not exclude the optimum the result is at least as heavy as every clique other than an isolated vertex, with and without heuristic, and also after any history of such searches and a reset. Also proved for double whenever no sum of weights needs rounding (C36_double_*), e.g. for integer weights that add up to at most 2^53."
  },
  {
   "property": "C37",
   "status": "partial",
   "theorems": [
    "CM.C37_unloaded_raises_partial",
    "CM.C37_refuted"
   ],
   "note": "False for reset_search() and _vertex_neighbors(0) (C37_refuted). Proved for all other methods."
  },
  {
   "property": "C38",
   "status": "partial",
   "theorems": [
    "CM.C38_refuted",
    "CM.C38_reached"
   ],
   "note": "False in every reachable state (C38_refuted): the printed value is the opposite of the property."
  },
  {
   "property": "C39",
   "status": "partial",
   "theorems": [
    "CM.C39_progress_partial",
    "CM.C39_refuted"
   ],
   "note": "False for short time limits (C39_refuted). Proved: in every reachable state a call whose clock answers often enough before it expires sets search_done."
  },
  {
   "property": "C40",
   "status": "proved",
   "theorems": [
    "CM.C40_set",
    "CM.C40_reset",
    "CM.C40_test",
    "CM.C40_count",
    "CM.C40_next",
    "CM.C40_copy",
    "CM.C40_copy_from",
    "CM.C40_elements",
    "CM.C40_toggle",
    "CM.C40_clear",
    "CM.C40_clear_prefix",
    "CM.C40_and",
    "CM.C40_or",
    "CM.C40_xor",
    "CM.C40_sub",
    "CM.C40_block_empty"
   ],
   "note": ""
  },
  {
   "property": "C41",
   "status": "proved",
   "theorems": [
    "CM.C41_lookup",
    "CM.C41_resume",
    "CM.C41_find_if_neighbors"
   ],
   "note": ""
  },
  {
   "property": "C42",
   "status": "partial",
   "theorems": [
    "CM.C42_refuted",
    "CM.C42_builds_partial",
    "CM.C42_iso"
   ],
   "note": "False when the second set has one element and the first has several (C42_refuted, for every such input). Proved in all other cases."
  },
  {
   "property": "C43",
   "status": "partial",
   "theorems": [
    "CM.C43_rebuild_partial",
    "CM.C43_refuted"
   ],
   "note": "False: search_done and the start vertex of a continued search survive a rebuild (C43_refuted). Proved: same errors, same exports and same outcome of a search that does not use continue_search."
  },
  {
   "property": "C44",
   "status": "partial",
   "theorems": [
    "CM.C44_refuted",
    "CM.C44_loads_partial",
    "CM.C44_garbage_partial"
   ],
   "note": "False (C44_refuted): empty file, header only, wrapped edge count. Proved for well-formed files, also if cut off after at least one row (C44_loads_partial), and for files with anything at all after a well-formed header and first row (C44_garbage_partial)."
  },
  {
   "property": "C45",
   "status": "partial",
   "theorems": [
    "CM.C45_any_arithmetic_partial",
    "CM.C45_refuted_rounding",
    "CM.C45_double_exact",
    "CM.C45_held_any_arithmetic_partial",
    "CM.C45_sound"
   ],
   "note": "False of double when sums of weights round: a reported clique can be lighter than W by a rounding error (C45_refuted_rounding). Proved in exact arithmetic; for any arithmetic everything but the comparison with W is proved (C45_any_arithmetic_partial), also for an iterator that is held while other calls are made (C45_held_any_arithmetic_partial). Also proved for double whenever no sum of weights needs rounding (C45_double_exact), e.g. for integer weights that add up to at most 2^52."
  },
  {
   "property": "C46",
   "status": "partial",
   "theorems": [
    "CM.C46_refuted_rounding",
    "CM.C46_double_exactly_partial",
    "CM.C46_double_covers_partial",
    "CM.C46_exactly_partial",
    "CM.C46_covers_partial",
    "CM.C46_equal_partial",
    "CM.C46_refuted_first_vertex",
    "CM.C46_refuted_extension",
    "CM.C46_refuted_single"
   ],
   "note": "False (C46_refuted_*): cliques whose first vertex is 1, cliques that are heavy enough without their last vertex, single vertices; with double also when sums round (C46_refuted_rounding). Proved, in exact arithmetic: the exact set of cliques that is reported; it covers every heavy clique whose first vertex is not 1, and contains all those of weight exactly W if the weights are positive. Also proved for double whenever no sum of weights needs rounding (C46_double_*), e.g. for integer weights that add up to at most 2^52."
  },
  {
   "property": "C47",
   "status": "proved",
   "theorems": [
    "CM.C47_exports",
    "CM.C47_exports_kept"
   ],
   "note": ""
  },
  {
   "property": "C48",
   "status": "partial",
   "theorems": [
    "CM.C48_double_partial",
    "CM.C48_repeat_partial",
    "CM.C48_refuted"
   ],
   "note": "False for searches by the heuristic alone (C48_refuted). Proved for exact searches, with or without the heuristic, after any history with sufficient upper bounds. Also proved for double whenever no sum of weights needs rounding (C48_double_partial), e.g. for integer weights that add up to at most 2^53."
  },
  {
   "property": "C49",
   "status": "partial",
   "theorems": [
    "CM.C49_weights_partial",
    "CM.C49_heaviest_partial",
    "CM.C49_double_weights_partial",
    "CM.C49_iterate_first_partial",
    "CM.C49_refuted"
   ],
   "note": "False when an iteration follows a search (C49_refuted). Proved when the iterations come first, and anywhere for iterations with thresholds no lighter than any clique (C49_heaviest_partial). In general a later exact search returns a heaviest clique or one that reaches the threshold of an iteration (C49_weights_partial, C49_double_weights_partial)."
  },
  {
   "property": "C50",
   "status": "partial",
   "theorems": [
    "CM.C50_double_partial",
    "CM.C50_refuted",
    "CM.C50_reset_partial"
   ],
   "note": "False after searches that were cut short by upper_bound (C50_refuted). Proved for all other histories. Also proved for double whenever no sum of weights needs rounding (C50_double_partial), e.g. for integer weights that add up to at most 2^53."
  },
  {
   "property": "C51",
   "status": "partial",
   "theorems": [
    "CM.C51_roomy_usable",
    "CM.C51_moved_faults",
    "CM.C51_edgeless_faults",
    "CM.C51_searchable",
    "CM.C51_usable_edgelist",
    "CM.C51_usable_matrix",
    "CM.C51_complete_matrix",
    "CM.C51_one_iterator_partial",
    "CM.C51_no_fault_partial",
    "CM.C51_refuted_edgeless",
    "CM.C51_refuted_moved",
    "CM.C51_refuted_abandoned"
   ],
   "note": "False for graphs without edges, for objects whose buffer moved while loading, and after abandoned iterators (C51_refuted_*). Proved for every history of searches, resets and complete iterations on the other graphs, also while one iterator is held and asked at any times (C51_one_iterator_partial); a graph with enough edges for its largest degree is one of them, whatever the allocator does (*_roomy_usable). Every search on any other loaded graph faults (*_searchable), and which graphs these are is given by the degrees and the capacity of the buffer (*_usable_*)."
  },
  {
   "property": "C52",
   "status": "partial",
   "theorems": [
    "CM.C52_largest",
    "CM.C52_largest_exact",
    "CM.C52_condition",
    "CM.C52_double_partial",
    "CM.C52_refuted_rounding"
   ],
   "note": "False for double if epsilon is lost in rounding (C52_refuted_rounding). Proved for exact arithmetic (C52_largest_exact), for the window the code computes in any monotone arithmetic (C52_largest), for condition functions (C52_condition), and for double with a relative margin of 2^-50 (C52_double_partial)."
  },
  {
   "property": "C53",
   "status": "partial",
   "theorems": [
    "CM.C53_exactly_partial",
    "CM.C53_covers_partial",
    "CM.C53_refuted"
   ],
   "note": "False for correspondences that contain the pair of the two first elements (C53_refuted). Proved: exactly which correspondences are listed (C53_exactly_partial): single pairs, those without that pair, and those in which another pair is joined with fewer pairs."
  },
  {
   "property": "C54",
   "status": "proved",
   "theorems": [
    "CM.C54_raise_or_same",
    "CM.C54_metric_raises"
   ],
   "note": ""
  },
  {
   "property": "C55",
   "status": "partial",
   "theorems": [
    "CM.C55_given_partial",
    "CM.C55_with_condition_partial",
    "CM.C55_condition_only",
    "CM.C55_refuted_ignored_condition",
    "CM.C55_missing_raises",
    "CM.C55_refuted_ignored",
    "CM.C55_refuted"
   ],
   "note": "False (C55_refuted): a second function without a first is ignored. Proved in the other cases, with and without a condition, and that a missing function for a list raises."
  },
  {
   "property": "C56",
   "status": "proved",
   "theorems": [
    "CM.C56_elements",
    "CM.C56_iterator"
   ],
   "note": ""
  },
  {
   "property": "C57",
   "status": "partial",
   "theorems": [
    "CM.C57_vertices",
    "CM.C57_dicts_exactly",
    "CM.C57_dicts_partial",
    "CM.C57_dicts_refuted",
    "CM.C57_dict"
   ],
   "note": "False for return_indices=False (C57_dicts_refuted): neighbours in the second graph are filtered by vertices of the first, so some are dropped or KeyError is raised. Proved for return_indices=True; for return_indices=False exactly what is returned and when it raises (C57_dicts_exactly), hence the property if both lists of vertices have the same elements."
  },
  {
   "property": "C58",
   "status": "partial",
   "theorems": [
    "CM.C58_filter_partial",
    "CM.C58_refuted",
    "CM.C58_beside_partial",
    "CM.C58_outside_undefined"
   ],
   "note": "False if a control point lands at a negative coordinate (C58_refuted). Proved otherwise, in exact arithmetic (C58_filter_partial); for points that land less than one beside the mask, which are counted as if they were in its first row or column (C58_beside_partial); and that farther out the call is undefined, for every such input (C58_outside_undefined)."
  },
  {
   "property": "C59",
   "status": "partial",
   "theorems": [
    "CM.C59_double_partial",
    "CM.C59_upper_bound_partial",
    "CM.C59_refuted"
   ],
   "note": "False (C59_refuted): the result can be heavier than the bound. Proved: it is at least as heavy as the smaller of the bound and any clique with two or more vertices. Also proved for double whenever no sum of weights needs rounding (C59_double_partial), e.g. for integer weights that add up to at most 2^53."
  },
  {
   "property": "C60",
   "status": "proved",
   "theorems": [
    "CM.C60_terminates"
   ],
   "note": ""
  },
  {
   "property": "C61",
   "status": "proved",
   "theorems": [
    "CM.C61_memory_returned"
   ],
   "note": ""
  },
  {
   "property": "C62",
   "status": "partial",
   "theorems": [
    "CM.C62_double_partial",
    "CM.C62_sequential_partial",
    "CM.C62_refuted",
    "CM.C62_nested_partial",
    "CM.C62_double_nested_partial"
   ],
   "note": "False when two iterators are advanced in turn (C62_refuted). Proved for iterators that are consumed one after the other, with exact searches and resets in between, and for one held iterator with any other complete calls in between (C62_nested_partial, C62_double_nested_partial). Also proved for double whenever no sum of weights needs rounding (C62_double_partial), e.g. for integer weights that add up to at most 2^52."
  },
  {
   "property": "C63",
   "status": "partial",
   "theorems": [
    "CM.C63_unloaded_raises_partial",
    "CM.C63_refuted"
   ],
   "note": "False for reset_search() and _vertex_neighbors(0) (C63_refuted). Proved for all other methods and arguments."
  },
  {
   "property": "C64",
   "status": "proved",
   "theorems": [
    "CM.C64_any_arithmetic",
    "CM.C64_double_exact",
    "CM.C64_clique_weight"
   ],
   "note": "For any number type, adding from the left (C64_any_arithmetic), so with the rounding of double; C64 itself in exact arithmetic. Also proved for double whenever no sum of weights needs rounding (C64_double_exact), e.g. for integer weights that add up to at most 2^53."
  },
  {
   "property": "C65",
   "status": "proved",
   "theorems": [
    "CM.C65_matrix_copy",
    "CM.C65_edgelist_copy"
   ],
   "note": ""
  },
  {
   "property": "C66",
   "status": "proved",
   "theorems": [
    "CM.C66_double",
    "CM.C66_unit_weights"
   ],
   "note": "For exact arithmetic and for double (C66_double)."
  },
  {
   "property": "C67",
   "status": "proved",
   "theorems": [
    "CM.C67_indices",
    "CM.C67_iterator"
   ],
   "note": "For lower bounds that are not positive the search may return the placeholder vertex 0; the theorem has a positive lower bound (the default is 1)."
  },
  {
   "property": "C68",
   "status": "partial",
   "theorems": [
    "CM.C68_search",
    "CM.C68_same_graph_partial",
    "CM.C68_refuted",
    "CM.C68_keep_one_partial"
   ],
   "note": "False for all_cliques under renumbering (C68_refuted). Proved for get_max_clique, for all_cliques on the same graph loaded in different ways, and for all_cliques under every renumbering that keeps vertex 1."
  },
  {
   "property": "C69",
   "status": "proved",
   "theorems": [
    "CM.C69_double_complete",
    "CM.C69_search_done",
    "CM.C69_complete"
   ],
   "note": "Completeness in exact arithmetic, and for double whenever no sum of weights needs rounding (C69_double_complete)."
  },
  {
   "property": "C70",
   "status": "partial",
   "theorems": [
    "CM.C70_export",
    "CM.C70_edgelist_exactly",
    "CM.C70_matrix_exactly",
    "CM.C70_edgelist_partial",
    "CM.C70_matrix_partial",
    "CM.C70_refuted"
   ],
   "note": "False for repeated rows and asymmetric matrices (C70_refuted). Proved for edge lists without loops and repetitions and for symmetric matrices. from_adjlist of NWGraph never succeeds without a fault (C34_refuted_adjlist). Exactly then n_edges is right; what the export does in the other cases is proved too (C70_edgelist_exactly, C70_matrix_exactly)."
  },
  {
   "property": "C71",
   "status": "proved",
   "theorems": [
    "CM.C71_integer_search",
    "CM.C71_integer_iterator",
    "CM.round_is_nearest",
    "CM.round_fixes",
    "CM.exact_of_unit",
    "CM.exact2_of_unit"
   ],
   "note": "Weights as double, added with rounding; follows from C36_double_partial, C46_double_exactly_partial, C64_double_exact and exact_of_unit, which allow multiples of any power of two and, for soundness, negative weights. The model of rounding itself is shown to be round-to-nearest (round_is_nearest, round_fixes)."
  },
  {
   "property": "C72",
   "status": "proved",
   "theorems": [
    "CM.C72_euclidean",
    "CM.C72_nearest",
    "CM.C72_default_distance",
    "CM.C72_default_build"
   ],
   "note": "C72_euclidean and C72_nearest: for fixed-point coordinates the distance is the (correctly rounded) root of the exact sum of squares. For every order of summation and every square root that maps 0 to 0 and gives no negative results; distances are double with IEEE 754 rounding and overflow to infinity."
  },
  {
   "property": "C73",
   "status": "proved",
   "theorems": [
    "CM.C73_rigid",
    "CM.C73_copy_is_found",
    "CM.C73_same_distances",
    "CM.C73_default_copy",
    "CM.C73_subgraph_is_found"
   ],
   "note": "Sets with any monotone window (C73_copy_is_found), arrays with the default distance in double (C73_default_copy, C73_same_distances; after a rigid motion of fixed-point coordinates C73_rigid), graphs (C73_subgraph_is_found). As in C09, the bit buffer must not move in the constructor (BufferKept)."
  },
  {
   "property": "C74",
   "status": "partial",
   "theorems": [
    "CM.C74_is_rotation",
    "CM.C74_means",
    "CM.C74_best_partial",
    "CM.C74_exactly_partial",
    "CM.C74_exact_partial",
    "CM.C74_theta",
    "CM.C74_refuted"
   ],
   "note": "In exact arithmetic. That the matrix is a rotation, theta its angle and the means are moved onto each other is proved for all inputs. The fit is not the best one in general (C74_refuted: the code transposes the factor that numpy returns transposed already); proved if that factor happens to be symmetric, and only then if the singular values differ (C74_exactly_partial)."
  },
  {
   "property": "C75",
   "status": "partial",
   "theorems": [
    "CM.C75_filters_agree_partial",
    "CM.C75_refuted"
   ],
   "note": "In exact arithmetic. False for percentage 0 (C75_refuted); proved for positive percentages."
  },
  {
   "property": "C76",
   "status": "partial",
   "theorems": [
    "CM.C76_array_partial",
    "CM.C76_weighted_array_partial",
    "CM.C76_refuted"
   ],
   "note": "False for arrays with fewer than two columns, which are read beyond their end (C76_refuted, for every such array with vertices in it). Proved for all other shapes; for weighted graphs what is done with the pairs is C34_from_edgelist."
  },
  {
   "property": "C77",
   "status": "partial",
   "theorems": [
    "CM.C77_sets_decide",
    "CM.C77_documented_partial",
    "CM.C77_refuted_arrays",
    "CM.C77_refuted_lists"
   ],
   "note": "pybind11 chooses by the sets and not by the class (C77_sets_decide). Arrays whose rows are not contiguous, read-only arrays and, for AlignGraph, arrays of another type raise (C77_refuted_arrays); L2LGraph with two matrices of float64 does not (C77_refuted_lists). Proved for the sets that are meant. The conditions under which pybind11 accepts an array as a mutable Eigen::Ref are assumed as documented."
  },
  {
   "property": "C78",
   "status": "partial",
   "theorems": [
    "CM.C78_raises_partial",
    "CM.C78_refuted"
   ],
   "note": "False for all graphs and sizes: the method asks for the length of the graphs, which have none, and raises TypeError (C78_raises_partial, C78_refuted)."
  },
  {
   "property": "C79",
   "status": "partial",
   "theorems": [
    "CM.C79_text",
    "CM.C79_in_row_partial",
    "CM.C79_first_row_partial",
    "CM.C79_header_partial",
    "CM.C79_between_rows_partial",
    "CM.C79_any_cut_partial",
    "CM.C79_refuted"
   ],
   "note": "False (C79_refuted): a row that is cut off can be read as an edge that the graph does not have, and a file that ends in its header or in the first number of its first row leads to a variable that was never assigned. Proved for every cut: what is loaded has the edges of the complete rows and at most one other (C79_any_cut_partial), with the exact result in each case (C79_header_partial, C79_first_row_partial, C79_in_row_partial, C79_between_rows_partial)."
  },
  {
   "property": "C80",
   "status": "partial",
   "theorems": [
    "CM.C80_unasked_partial",
    "CM.C80_ended_partial",
    "CM.C80_refuted",
    "CM.C80_asked_undefined"
   ],
   "note": "False (C80_refuted): an iterator that has been asked before reads freed memory after build_edges(), and one that has ended comes back to life if the new graph is larger. Proved: an iterator that has not been asked behaves like a new one (C80_unasked_partial), one that has ended stays so if the graph did not grow (C80_ended_partial). For every object, an iterator (k at least 2) whose last answer was a clique reads freed memory when asked after a build for sets that are not smaller (C80_asked_undefined)."
  },
  {
   "property": "C81",
   "status": "partial",
   "theorems": [
    "CM.C81_integers_partial",
    "CM.C81_weighted_integers_partial",
    "CM.C81_reals_partial",
    "CM.C81_refuted",
    "CM.C81_matrix"
   ],
   "note": "False for floating-point arrays (C81_refuted): 1.5 is read as vertex 1, and what NaN or a number out of range is read as depends on the platform. Proved for integers of all types: negative and other wrong numbers are refused, right ones are loaded (C81_integers_partial, C81_weighted_integers_partial); for floating-point numbers between -1 and 2^64 exactly what happens (C81_reals_partial); for from_matrix the full statement (C81_matrix)."
  },
  {
   "property": "C82",
   "status": "partial",
   "theorems": [
    "CM.C82_edgelist_partial",
    "CM.C82_matrix_partial",
    "CM.C82_adjlist_partial",
    "CM.C82_weighted_edgelist_partial",
    "CM.C82_weighted_matrix_partial",
    "CM.C82_refuted"
   ],
   "note": "False exactly for graphs that have a vertex with 63, 127, ... neighbours, e.g. all complete graphs with 64, 128, ... vertices (C82_refuted). Proved for all other graphs: the strict loader returns the same object as the one the other theorems are about."
  },
  {
   "property": "C83",
   "status": "partial",
   "theorems": [
    "CM.C83_finite_partial",
    "CM.C83_nonneg_partial",
    "CM.C83_refuted",
    "CM.C83_refuted_infinite"
   ],
   "note": "False for weights that are NaN (C83_refuted) and for infinite weights of both signs (C83_refuted_infinite), whatever the sorting function does otherwise. Proved for all finite weights and for all weights that are not negative (possibly infinite), after every history of calls: the strict search returns what the search of the other theorems returns."
  },
  {
   "property": "C84",
   "status": "partial",
   "theorems": [
    "CM.C84_two_columns_partial",
    "CM.C84_other_columns",
    "CM.C84_refuted"
   ],
   "note": "False for control points that do not have two columns, for which no edge is ever built and the call is undefined unless it never looks at them (C84_other_columns), and for points with one column (C84_refuted). Proved for control points with two columns and points with two or more; exact arithmetic, landing at coordinates that are not negative, as in C58."
  },
  {
   "property": "C85",
   "status": "partial",
   "theorems": [
    "CM.C85_lower_bound_partial",
    "CM.C85_refuted_lower",
    "CM.C85_refuted_upper"
   ],
   "note": "False: a lower_bound that no clique exceeds makes every later search return one vertex until reset_search (C85_refuted_lower, and in general in C85_lower_bound_partial), and an upper_bound stays for ever (C85_refuted_upper). Proved: true if the first call had a lower_bound that some clique exceeds, or none, and no upper_bound below the size of a clique."
  },
  {
   "property": "C86",
   "status": "partial",
   "theorems": [
    "CM.C86_bounds_partial",
    "CM.C86_double_partial",
    "CM.C86_refuted_lower",
    "CM.C86_refuted_upper"
   ],
   "note": "False: C86_refuted_lower, C86_refuted_upper. Proved for nonnegative weights (exact arithmetic; doubles that add up exactly) if the first call was an exact search with a lower_bound that some clique of two or more vertices exceeds and no upper_bound was too small."
  },
  {
   "property": "C87",
   "status": "partial",
   "theorems": [
    "CM.C87_build_edges_partial",
    "CM.C87_condition_only",
    "CM.C87_iso",
    "CM.C87_refuted"
   ],
   "note": "False for distance functions declared asymmetric, where edges are counted repeatedly and rows of to_edgelist() are not initialised (C87_refuted). Proved if both functions are declared symmetric, for build_edges_condition_only and for IsoGraph; in the other cases n_edges is at least the number of edges and the list begins with the edges."
  },
  {
   "property": "C88",
   "status": "partial",
   "theorems": [
    "CM.C88_recording",
    "CM.C88_metric",
    "CM.C88_condition_only",
    "CM.C88_both_partial",
    "CM.C88_refuted",
    "CM.C88_any_flags_partial"
   ],
   "note": "False for condition functions if exactly one distance is declared symmetric: they are asked twice about the same elements (C88_refuted). Proved otherwise, for functions over an arbitrary world; for all flags the graph is that of the table that says yes where the function said yes at least once, and it is asked at most twice (C88_any_flags_partial). C88_recording shows that recording the calls changes nothing."
  },
  {
   "property": "C89",
   "status": "partial",
   "theorems": [
    "CM.C89_reentrant_partial",
    "CM.C89_refuted",
    "CM.C89_any_flags_partial",
    "CM.C89_untouched"
   ],
   "note": "False for continue_search (C89_refuted). Proved for the graph and for all other searches, with C88 (C89_any_flags_partial if only one distance is declared symmetric)."
  },
  {
   "property": "C90",
   "status": "partial",
   "theorems": [
    "CM.C90_resized_partial",
    "CM.C90_resized_iterator_partial",
    "CM.C90_emptied",
    "CM.C90_refuted",
    "CM.C90_refuted_iterator"
   ],
   "note": "False (C90_refuted): the pairs are computed with the size the second set has now, wrong ones are returned silently, with indices out of range if the set has become smaller; division by zero whenever there is a result and the set is empty (C90_emptied). Proved: the same cases succeed, and which of the pairs are right (C90_resized_partial, C90_resized_iterator_partial): all, if the second set has its old size. The iterator is wrong in the same way (C90_refuted_iterator)."
  },
  {
   "property": "C91",
   "status": "partial",
   "theorems": [
    "CM.C91_programs_partial",
    "CM.C91_one_to_one",
    "CM.C91_refuted_nested"
   ],
   "note": "False for the cliques that C20 is about (C53_refuted) and for loops nested too deeply, which overrun the scratch memory (C91_refuted_nested). Proved for programs whose nested loops have sizes that add up to at most the size of a clique (C91_programs_partial): no fault, every loop yields the pairs of the cliques of its size but for the defect of C20, each once; searches return the pairs of a maximum clique or of a clique of a size iterated over. C91_one_to_one: these pairs are one-to-one and joined."
  },
  {
   "property": "C92",
   "status": "partial",
   "theorems": [
    "CM.C92_program_partial",
    "CM.C92_enough_time",
    "CM.C92_refuted_count",
    "CM.C92_refuted_clock"
   ],
   "note": "False: the count leaves out the cliques that C20 is about (C92_refuted_count: a triangle), and if the ten seconds are not enough the second line may be the number 0 (C92_refuted_clock). Proved for every clock: the program ends, the first line is a clique, the last a maximum clique even if the timed search gave up a vertex before, and the number is exactly that of the other cliques with one vertex less; the second line is a maximum clique given enough time (C92_enough_time)."
  },
  {
   "property": "C93",
   "status": "partial",
   "theorems": [
    "CM.C93_output",
    "CM.C93_program_partial",
    "CM.C93_refuted",
    "CM.C93_refuted_pair"
   ],
   "note": "False: the number leaves out the cliques that C46 is about (C93_refuted: a triangle), and for a graph without triangles single vertices are not counted (C93_refuted_pair). Proved: the program ends, prints a clique, a maximum clique and their sizes as weights; if the maximum has three or more vertices the number is exactly that of the cliques with one vertex less not first at vertex 1. Assumes that the vector of edges need not move when the working storage is added."
  },
  {
   "property": "C94",
   "status": "proved",
   "theorems": [
    "CM.C94_precision",
    "CM.C94_meaning",
    "CM.C94_no_limit",
    "CM.C94_soon"
   ],
   "note": "C94_meaning ties the searches of the other properties, which are told after how many questions their time is over, to searches that read a clock in microseconds and compare it as a double with the limit. The heuristic does not read the clock. Time is counted in readings of the clock, not in instructions."
  },
  {
   "property": "C95",
   "status": "proved",
   "theorems": [
    "CM.C95_longer"
   ],
   "note": "The earlier calls are searches with a positive lower_bound. Assumes that the sorting function of the heuristic, if it is used, gives the same order in both calls."
  },
  {
   "property": "C96",
   "status": "proved",
   "theorems": [
    "CM.C96_itself",
    "CM.C96_shared"
   ],
   "note": "C96_itself is for any class of iterators whose objects share the enumerator; the four classes are cliqueIter, corrIter, wcliqueIter and wcorrIter in Model/Handles. C96_shared says what one iterator and the objects made from it answer together; the cliques that C20 is about are missing there as in C20."
  },
  {
   "property": "C97",
   "status": "proved",
   "theorems": [
    "CM.C97_same_answers",
    "CM.C97_same_answers_weighted"
   ],
   "note": "C97_same_answers for Graph, C97_same_answers_weighted for NWGraph with weights of any arithmetic. An iterator is asked at the end of the history, without calls in between. The order of elements that compare equal under std::sort is the same in both builds."
  },
  {
   "property": "C98",
   "status": "proved",
   "theorems": [
    "CM.C98_reserved_memory",
    "CM.C98_correspondence"
   ],
   "note": "Any arithmetic, so doubles with their rounding, infinities and NaNs included. The vector weights is used beyond its size() but within its capacity; C98 is about the numbers found there."
  },
  {
   "property": "C99",
   "status": "partial",
   "theorems": [
    "CM.C99_same_or_stopped_partial",
    "CM.C99_iterator_partial",
    "CM.C99_stopped",
    "CM.C99_refuted"
   ],
   "note": "False: the vector weights is reserved but never given elements, so the search is stopped at the first vertex it loads (C99_refuted; C99_stopped: every graph with positive weights, without the heuristic, whenever a clique heavier than lower_bound exists). Proved: a call that is not stopped gives the answer it gives without checks, and an iterator that is not stopped never gives a clique. All other vectors of the model fault beyond their size, so the other theorems, which exclude faults, cover them and Graph."
  },
  {
   "property": "C100",
   "status": "proved",
   "theorems": [
    "CM.C100_never_too_early",
    "CM.C100_no_undefined_behaviour",
    "CM.C100_never_too_late",
    "CM.C100_no_leak",
    "CM.C100_iterator_outlives_variable"
   ],
   "note": "For any class of iterators whose objects hold a counted reference to the graph and share a counted enumerator; all four are of this form. Reference counts of CPython and std::shared_ptr are modelled, their atomicity and the memory allocator are not. Several iterators in use at once are subject to C24 (memory) as without deletions."
  },
  {
   "property": "C101",
   "status": "partial",
   "theorems": [
    "CM.C101_same_or_undefined_partial",
    "CM.C101_defined_partial",
    "CM.C101_search_undefined",
    "CM.C101_iteration_undefined",
    "CM.C101_fresh_iteration_undefined",
    "CM.C101_weighted_same_or_undefined_partial",
    "CM.C101_weighted_defined_partial",
    "CM.C101_weighted_undefined",
    "CM.C101_refuted",
    "CM.C101_refuted_weighted"
   ],
   "note": "False of the code (C101_refuted, C101_refuted_weighted, C101_search_undefined, C101_iteration_undefined, C101_weighted_undefined): the last element of a stack is read after pop_back. Proved: a call that is not undefined for this reason does what the other properties say, and timed searches, the heuristic alone and listings of cliques of size 0 and 1 are never undefined for it."
  },
  {
   "property": "C102",
   "status": "partial",
   "theorems": [
    "CM.C102_refused_partial",
    "CM.C102_used",
    "CM.C102_histories",
    "CM.C102_search",
    "CM.C102_weighted_refused_partial",
    "CM.C102_weighted_used",
    "CM.C102_weighted_histories",
    "CM.C102_weighted_search",
    "CM.C102_nan_bounds",
    "CM.C102_nan_weight",
    "CM.C102_refuted"
   ],
   "note": "False: NaN is accepted as a bound, where it means no bound (C102_nan_bounds), as a weight, where nothing is listed (C102_nan_weight), and as a time limit, where it means none (C94); None and numbers are accepted as flags (C102_refuted). Proved: everything else that makes no sense raises without effect, the other values are used (integers as the nearest double where a double is expected), and histories with any values are harmless and lead to states that the other properties cover. The type casters of pybind11 are modelled from their documentation."
  },
  {
   "property": "C103",
   "status": "partial",
   "theorems": [
    "CM.C103_search_partial",
    "CM.C103_history_partial",
    "CM.C103_after_partial",
    "CM.C103_iteration_partial",
    "CM.C103_answer",
    "CM.C103_next",
    "CM.C103_refuted",
    "CM.C103_refuted_lost",
    "CM.C103_refuted_size"
   ],
   "note": "False after searches with an upper_bound smaller than a degree, where scratch space is lost until an ordinary search writes beyond the buffer (C103_refuted) or an iterator gives cliques of a wrong size (C103_refuted_size); and a clique found but not returned is lost (C103_refuted_lost). Proved: a search that does not raise MemoryError is the ordinary one and an iterator is exact up to its first MemoryError, always (C103_answer, C103_next); the rest for calls with an upper_bound larger than every degree, in every history and at every moment memory runs out; iterators (of two or more vertices) lose at most one clique per MemoryError and never give a wrong one. Only Graph; loaders and complete listings are assumed to have enough memory."
  },
  {
   "property": "C104",
   "status": "partial",
   "theorems": [
    "CM.C104_enough",
    "CM.C104_left",
    "CM.C104_reached",
    "CM.C104_searches_partial",
    "CM.C104_listing_partial",
    "CM.C104_refuted",
    "CM.C104_refuted_empty",
    "CM.C104_export",
    "CM.C104_rebuilt",
    "CM.C104_first",
    "CM.C104_refuted_first",
    "CM.C104_refuted_fewer"
   ],
   "note": "False: load_graph writes the numbers of vertices and edges of the new graph before it makes the graph, so an object left with the old graph has the new numbers: listings then read beyond the vertices (C104_refuted, for every history and every larger graph), lose cliques (C104_refuted_fewer), or the object counts as not initialized (C104_refuted_empty); exports have rows for the wrong number of edges (C104_export, exactly). Proved: nothing else changes, searches answer as before, listings too if the numbers of vertices agree, and a later build repairs the object (C104_rebuilt). Only Graph; a failure anywhere in the constructor is one refusal, since it leaves no graph."
  },
  {
   "property": "C105",
   "status": "partial",
   "theorems": [
    "CM.C105_answer",
    "CM.C105_search_partial",
    "CM.C105_history_partial",
    "CM.C105_after_partial",
    "CM.C105_refuted"
   ],
   "note": "False: the candidates of a weighted search are chosen by weight but the vector for those to remove is reserved by degree, so it may have to grow in the middle of an ordinary search; if that is refused, scratch space is lost, and after nine such calls an ordinary search runs out of the memory of the object (C105_refuted). Proved: a search that does not raise MemoryError is the ordinary one, always (C105_answer); the rest for graphs in which every vertex has at most two more later neighbours by weight than some vertex by degree (Roomy), e.g. all graphs without a vertex of more than three neighbours (roomy_of_degree), in every history and at every moment memory runs out. Complete listings in the history are assumed to have enough memory."
  },
  {
   "property": "C106",
   "status": "partial",
   "theorems": [
    "CM.C106_next",
    "CM.C106_iteration_partial",
    "CM.C106_sound",
    "CM.C106_loss",
    "CM.C106_refuted_lost",
    "CM.C106_refuted_many"
   ],
   "note": "False: a clique that was found when memory runs out for the list of its vertices is not given again (C106_refuted_lost), and in graphs where to_remove must grow in the middle of a call one refusal may lose all cliques with the candidate in hand (C106_refuted_many). Proved: up to the first MemoryError the answers are the ordinary ones, always (C106_next); for Roomy graphs, whatever each call is refused, the answers are those of an iterator with enough memory except that each MemoryError may lose one clique (C106_iteration_partial); on every object and whatever each call is refused, the cliques given are different, weigh W or more, and without negative weights are among those of an iterator with enough memory (C106_sound, rational weights), and at the end every clique missing contains the two vertices that belong to one of the MemoryErrors (C106_loss)."
  },
  {
   "property": "C107",
   "status": "partial",
   "theorems": [
    "CM.C107_raises",
    "CM.C107_new",
    "CM.C107_round_trip_partial",
    "CM.C107_full",
    "CM.C107_refuted_every",
    "CM.C107_refuted"
   ],
   "note": "False: to_file never looks at the stream after opening it, so on a full disk it returns and leaves the beginning of the file; for every graph with two edges there is an amount of room with which to_file returns and from_file loads a graph without one of them (C107_refuted_every; C107_refuted has a file read with an edge that never was). Proved: an exception leaves the file as it was, and is raised exactly if nothing is loaded or the file cannot be opened (C107_raises, C107_new); with enough room the round trip works (C107_round_trip_partial); what a full disk holds (C107_full)."
  },
  {
   "property": "C108",
   "status": "partial",
   "theorems": [
    "CM.C108_record_partial",
    "CM.C108_last",
    "CM.C108_refuted",
    "CM.C108_weighted_partial",
    "CM.C108_refuted_after"
   ],
   "note": "False: the call returns the clique that the last search returned, on a fresh graph one vertex (C108_refuted, every graph), and its bounds spoil later searches (C108_refuted_after). Proved: exactly what it does after any history (C108_record_partial, C108_last, C108_weighted_partial); it does raise if lower_bound is greater than the size (weight) of the clique found last."
  },
  {
   "property": "C109",
   "status": "partial",
   "theorems": [
    "CM.C109_search_partial",
    "CM.C109_iterator_partial",
    "CM.C109_weighted_partial",
    "CM.C109_weighted_iterator_partial",
    "CM.C109_refuted",
    "CM.C109_refuted_bound",
    "CM.C109_refuted_weighted"
   ],
   "note": "False: the exact search makes two requests (C109_refuted, every graph), with a small upper_bound memory is requested during the search (C109_refuted_bound), and in some weighted graphs during an ordinary search (C109_refuted_weighted). Proved: for values of upper_bound above the number of neighbours of any vertex, the default among them, and for weighted graphs that are Roomy (see C105), after any history: exactly how many requests a search makes, so it succeeds with that many and raises MemoryError with fewer; what suffices for iterators. A request is a growing std::vector or the Python list that is returned; the list counts as one."
  },
  {
   "property": "C110",
   "status": "proved",
   "theorems": [
    "CM.C110_same_answers",
    "CM.C110_same_object",
    "CM.C110_weighted"
   ],
   "note": "C110_same_answers (any loaders, any builds), C110_same_object (one compiler: the objects are equal but for the number of edges displayed, so also with iterators held and undefined behaviour), C110_weighted (any arithmetic)."
  },
  {
   "property": "C111",
   "status": "partial",
   "theorems": [
    "CM.C111_program_partial",
    "CM.C111_search_partial",
    "CM.C111_list",
    "CM.C111_factor",
    "CM.C111_whole",
    "CM.C111_refuted_heuristic",
    "CM.C111_refuted_default"
   ],
   "note": "Proved for arithmetic without rounding, for whole programs without use of the heuristic, and for iterators without that restriction (C111_list). False of searches with the heuristic, which compares a number of candidates with a weight, and of calls with the default bounds, which are 1 and 65535 in any unit: C111_refuted_heuristic, C111_refuted_default."
  },
  {
   "property": "C112",
   "status": "partial",
   "theorems": [
    "CM.C112_condition_graph",
    "CM.C112_condition",
    "CM.C112_metric_partial",
    "CM.C112_refuted"
   ],
   "note": "Proved for condition functions alone, of any kind. For distances it is proved for answers in which all distances agree within the tolerance; it is false in general, because of the wrong links of C30: C112_refuted."
  },
  {
   "property": "C113",
   "status": "proved",
   "theorems": [
    "CM.C113_same_object",
    "CM.C113_factor"
   ],
   "note": "For distances without rounding. One implementation of std::sort that only compares distances is assumed to treat equal distances alike in both units (SameSort)."
  },
  {
   "property": "C114",
   "status": "proved",
   "theorems": [
    "CM.C114_graph",
    "CM.C114_both",
    "CM.C114_epsilon",
    "CM.C114_condition"
   ],
   "note": "For any ordered type of distances and intervals whose ends move outwards, as d - epsilon and d + epsilon do, rounding included; the same std::sort in both builds. Both graphs have an edge and their search memory in place (Usable)."
  },
  {
   "property": "C115",
   "status": "partial",
   "theorems": [
    "CM.C115_max_clique",
    "CM.C115_list_partial",
    "CM.C115_refuted",
    "CM.C115_weighted_partial",
    "CM.C115_double_partial"
   ],
   "note": "False of all_cliques(k), which leaves out the cliques whose first vertex is vertex 1, and which vertex is first depends on the degrees: C115_refuted. Proved: get_max_clique() (C115_max_clique), all_cliques(k) for cliques without vertex 1, and the weighted search for weights that are not negative if no vertex of the larger graph is alone (its default bounds 1 and 65535 permitting)."
  },
  {
   "property": "C116",
   "status": "partial",
   "theorems": [
    "CM.C116_first_partial",
    "CM.C116_right_partial",
    "CM.C116_refuted",
    "CM.C116_condition"
   ],
   "note": "False of elements of the second set left out of build_edges, because of the wrong links of C30: C116_refuted. Proved: for elements of the first set, with any tolerance and condition function (C116_first_partial); for elements of both sets whenever the shorter answer is right, i.e. its distances agree within the tolerance (C116_right_partial); for condition functions alone, elements of both sets (C116_condition)."
  },
  {
   "property": "C117",
   "status": "partial",
   "theorems": [
    "CM.C117_first_partial",
    "CM.C117_right_partial",
    "CM.C117_refuted",
    "CM.C117_condition"
   ],
   "note": "False of the second set in build_edges, because of the wrong links of C30: C117_refuted. Proved: for the first set (C117_first_partial); for both sets whenever the answers are right (C117_right_partial); for symmetric condition functions alone, both sets (C117_condition)."
  },
  {
   "property": "C118",
   "status": "partial",
   "theorems": [
    "CM.C118_exact",
    "CM.C118_heuristic_partial",
    "CM.C118_after_partial",
    "CM.C118_refuted",
    "CM.C118_weighted",
    "CM.C118_refuted_zero",
    "CM.C118_weighted_heuristic_partial",
    "CM.C118_weighted_after_partial",
    "CM.C118_refuted_weighted",
    "CM.C118_double",
    "CM.C118_double_heuristic_partial",
    "CM.C118_double_after_partial",
    "CM.C118_refuted_double"
   ],
   "note": "False of the heuristic alone: C118_refuted, C118_refuted_weighted, C118_refuted_double; and of complete searches if a weight is zero: C118_refuted_zero. Proved: complete searches return cliques that cannot be extended (C118_exact, and C118_weighted and C118_double for positive weights); the heuristic alone returns a single vertex, the clique returned before, or a clique that only vertices before all its members could extend, in the order by degree and number (C118_heuristic_partial, C118_after_partial) or by weight of the neighbourhood and number (C118_weighted_heuristic_partial, C118_weighted_after_partial, and C118_double_heuristic_partial, C118_double_after_partial for doubles that add up exactly)."
  },
  {
   "property": "C119",
   "status": "partial",
   "theorems": [
    "CM.C119_first_partial",
    "CM.C119_condition",
    "CM.C119_refuted",
    "CM.C119_max_clique",
    "CM.C119_one_edge",
    "CM.C119_weighted_partial",
    "CM.C119_double_partial"
   ],
   "note": "False of elements of the second set left out, with distances: C119_refuted. Proved: graphs (C119_max_clique, C119_one_edge), elements of the first set left out (C119_first_partial), elements of both sets with a condition function alone (C119_condition), and weighted graphs with nonnegative weights where C36 holds (C119_weighted_partial, and C119_double_partial for doubles that add up exactly)."
  },
  {
   "property": "C120",
   "status": "partial",
   "theorems": [
    "CM.C120_window",
    "CM.C120_distance",
    "CM.C120_double_partial",
    "CM.C120_condition",
    "CM.C120_iso",
    "CM.C120_refuted_rounding"
   ],
   "note": "False of doubles if the tolerance is lost in rounding: C120_refuted_rounding. Proved: for distances of any ordered kind without rounding (C120_window, with condition functions; C120_distance for integers), for doubles where rounding does not matter (C120_double_partial), for condition functions alone (C120_condition) and for IsoGraph (C120_iso)."
  },
  {
   "property": "C121",
   "status": "proved",
   "theorems": [
    "CM.C121_apart",
    "CM.C121_joined",
    "CM.C121_vertex",
    "CM.C121_weighted",
    "CM.C121_double"
   ],
   "note": "For graphs whose cliques have at most 65535 vertices, the default upper_bound. No edges between the parts: C121_apart; all edges: C121_joined; a vertex adjacent to all others: C121_vertex; weighted graphs, no edges between the parts: C121_weighted, and C121_double for doubles that add up exactly."
  }
 ]
}