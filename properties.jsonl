{"id": "C01", "title": "Edge cleaning sorts and deduplicates", "statement": "Handing any edge multiset to a graph constructor leaves the edges in strictly increasing lexicographic order with each distinct edge present exactly once, whatever the input order, multiplicity or vertex-id magnitude.", "quantifier": "every finite list of (u,v) pairs whose endpoints are at most the vertex count, of any length and order", "why_tests_cant": "the 16-way in-place radix sort recurses on hexadecimal digits and switches to insertion sort below 33 elements; tests hit a few sizes only", "anchors": ["src/cliquematch/detail/utils.cpp:clean_edges", "src/cliquematch/detail/utils.cpp:radixSort", "src/cliquematch/detail/utils.cpp:insertionSort", "src/cliquematch/detail/utils.cpp:modUnique"]}
{"id": "C02", "title": "Graph built is the graph given (edge list)", "statement": "Graph.from_edgelist(E, n) succeeds iff every endpoint is in 1..n, and then _vertex_neighbors(v) is exactly {u != v : (u,v) or (v,u) in E} for every vertex v.", "quantifier": "every n and every list of pairs, including duplicates, both orientations and self loops", "why_tests_cant": "adjacency depends on sorting, deduplication and offset computation over arbitrary inputs", "anchors": ["src/cliquematch/core/pygraph.cpp:from_edgelist", "src/cliquematch/detail/graph/graph.cpp:graph::graph", "src/cliquematch/core/pygraph.cpp:get_vertex_data"]}
{"id": "C03", "title": "Graph built is the graph given (adjacency matrix)", "statement": "Graph.from_matrix(A) succeeds iff A is square, and then u,v (u != v) are adjacent iff A[u-1][v-1] or A[v-1][u-1].", "quantifier": "every Boolean matrix, symmetric or not, any diagonal", "why_tests_cant": "all matrices of all sizes", "anchors": ["src/cliquematch/core/pygraph.cpp:from_adj_matrix"]}
{"id": "C04", "title": "Adjacency-list validation is exact and lossless", "statement": "Graph.from_adjlist(n, m, L) succeeds iff len(L)=n+1, L[0] is empty, every entry is in 1..n, is not its own index and is symmetric, and m equals half the number of entries; then to_adjlist() returns L.", "quantifier": "every n, m and list of sets", "why_tests_cant": "validation and round trip over all inputs", "anchors": ["src/cliquematch/core/pygraph.cpp:from_adj_list", "src/cliquematch/core/pygraph.cpp:to_adj_list"]}
{"id": "C05", "title": "Every export describes the stored graph", "statement": "to_matrix() is the symmetric zero-diagonal adjacency matrix, to_adjlist() the neighbour sets and to_edgelist() lists each edge once as (smaller, larger) in increasing order, all of the same graph that was loaded, provided n_edges equals the number of distinct edges.", "quantifier": "every loaded graph", "why_tests_cant": "holds for every graph; to_edgelist trusts the caller-supplied n_edges when it sizes its output", "anchors": ["src/cliquematch/core/pygraph.cpp:to_adj_matrix", "src/cliquematch/core/pygraph.cpp:to_edgelist", "src/cliquematch/detail/graph/graph.cpp:send_data"]}
{"id": "C06", "title": "n_edges is the number of edges", "statement": "After any successful load the n_edges property equals the number of distinct undirected edges of the graph, and to_edgelist() writes within its allocated rows and fills all of them.", "quantifier": "every input of every loader", "why_tests_cant": "false for duplicates, loops and asymmetric matrices, which the tests never feed", "anchors": ["src/cliquematch/core/pygraph.cpp:from_edgelist", "src/cliquematch/core/pygraph.cpp:from_adj_matrix", "src/cliquematch/core/pygraph.cpp:to_edgelist"]}
{"id": "C07", "title": "File round trip", "statement": "Reading back with from_file a file written by to_file yields a graph with the same vertex count, edge count and adjacency.", "quantifier": "every loaded graph with at least one vertex whose n_edges is right, after any history of searches on the object", "why_tests_cant": "every decimal rendering and every graph", "anchors": ["src/cliquematch/core/pygraph.cpp:to_file", "src/cliquematch/detail/mmio.cpp:mmio4_reader", "src/cliquematch/core/pygraph.cpp:from_file"]}
{"id": "C08", "title": "File reader never produces a vertex outside 1..n", "statement": "from_file builds a graph whose edges only join vertices in 1..n: entries with an endpoint out of range and self loops are skipped.", "quantifier": "every file content", "why_tests_cant": "file contents are unbounded; id 0 is not filtered", "anchors": ["src/cliquematch/detail/mmio.cpp:mmio4_reader"]}
{"id": "C09", "title": "A returned clique is a clique", "statement": "Whenever get_max_clique returns a list, its members are pairwise adjacent, distinct and in increasing order.", "quantifier": "every graph with an edge, every bounds/flags/time limit, every clock behaviour, every earlier history of searches, resets and fully consumed iterations on the same object", "why_tests_cant": "quantifies over histories and timer schedules", "anchors": ["src/cliquematch/core/pygraph.cpp:get_max_clique", "src/cliquematch/detail/graph/clique.cpp", "src/cliquematch/detail/graph/heuristic.cpp", "src/cliquematch/detail/graph/dfs_stack.cpp", "src/cliquematch/detail/graph/dfs_recurse.cpp"]}
{"id": "C10", "title": "Untimed search is exact", "statement": "On a freshly loaded graph with at least one edge get_max_clique() with the default lower bound, no time limit, use_dfs=True and an upper_bound (65535 by default) that is not below the size of a maximum clique returns a clique of maximum size, with or without the heuristic.", "quantifier": "every graph with an edge whose buffer was not moved while it was loaded (for the others see C22)", "why_tests_cant": "optimality against all subsets of all graphs", "anchors": ["src/cliquematch/detail/graph/dfs_stack.cpp:StackDFS::process_vertex", "src/cliquematch/detail/graph/clique.cpp:find_max_cliques"]}
{"id": "C11", "title": "lower_bound is exclusive and failure is exact", "statement": "On a fresh graph with an edge, get_max_clique(lower_bound=L>=2), with an upper_bound not below the size of a maximum clique, raises iff no clique has more than L vertices, and otherwise returns a maximum clique.", "quantifier": "every graph and every L", "why_tests_cant": "all graphs and bounds", "anchors": ["src/cliquematch/core/pygraph.cpp:get_max_clique"]}
{"id": "C12", "title": "upper_bound limits the answer", "statement": "get_max_clique(upper_bound=U) returns a clique with at most U vertices, of the largest size not exceeding U.", "quantifier": "every graph and every U", "why_tests_cant": "the bound is a stop threshold only, so the stated property fails on graphs the tests do not contain", "anchors": ["src/cliquematch/core/pygraph.cpp:get_max_clique", "src/cliquematch/detail/graph/dfs_stack.cpp"]}
{"id": "C13", "title": "Heuristic is sound and harmless", "statement": "The heuristic phase only ever replaces the stored clique by a strictly larger clique of the graph; running it before the exact search never changes the size the exact search reports.", "quantifier": "every graph, every tie-breaking order of its neighbour sort", "why_tests_cant": "std::sort tie order is unspecified", "anchors": ["src/cliquematch/detail/graph/heuristic.cpp:DegreeHeuristic::process_vertex"]}
{"id": "C14", "title": "Timed search is sound under every clock", "statement": "get_max_clique with a positive time limit returns a clique no smaller than the best known before the call, whatever the clock does, and a maximum clique if the clock never expires.", "quantifier": "every graph and every point at which the time limit may expire", "why_tests_cant": "expiry can fall between any two steps", "anchors": ["src/cliquematch/detail/graph/dfs_recurse.cpp:RecursionDFS::search_vertex"]}
{"id": "C15", "title": "search_done means the search is complete", "statement": "If search_done is True after a sequence of timed calls with continue_search=True on a fresh graph, the returned clique is maximum.", "quantifier": "every graph and every expiry schedule", "why_tests_cant": "depends on where the clock expires", "anchors": ["src/cliquematch/core/pygraph.cpp:get_max_clique", "src/cliquematch/detail/graph/dfs_recurse.cpp:RecursionDFS::process_graph"]}
{"id": "C16", "title": "reset_search forgets earlier searches", "statement": "After any history of searches, reset_search followed by an untimed default get_max_clique returns a clique of maximum size.", "quantifier": "every history of calls with any bounds and time limits", "why_tests_cant": "history-dependent state (limits and per-vertex bounds) is never restored", "anchors": ["src/cliquematch/core/pygraph.cpp:reset_search"]}
{"id": "C17", "title": "Repeating a search is idempotent", "statement": "On a freshly loaded graph, repeating a successful default get_max_clique, with anything but a reset or iteration in between, returns a clique of the same size.", "quantifier": "every graph, every number of repetitions", "why_tests_cant": "history property", "anchors": ["src/cliquematch/core/pygraph.cpp:get_max_clique"]}
{"id": "C18", "title": "Iteration does not disturb the maximum clique", "statement": "Consuming an all_cliques iterator does not change the size of what a later get_max_clique returns.", "quantifier": "every graph, every size, every interleaving", "why_tests_cant": "depends on which vertex stores the best clique", "anchors": ["src/cliquematch/detail/graph/enumerate.cpp", "src/cliquematch/detail/graph/clique.cpp:get_max_clique"]}
{"id": "C19", "title": "all_cliques is sound and duplicate free", "statement": "Every list yielded by all_cliques(k) is a clique with exactly k vertices and no clique is yielded twice.", "quantifier": "every graph, every k", "why_tests_cant": "all cliques of all graphs", "anchors": ["src/cliquematch/detail/graph/enumerate.cpp:CliqueEnumerator::process_graph", "src/cliquematch/core/pyiterator.cpp"]}
{"id": "C20", "title": "all_cliques is complete", "statement": "all_cliques(k) yields every clique with k vertices.", "quantifier": "every graph, every k>=1", "why_tests_cant": "the enumerator never roots a search at vertex 1; the tests' graphs do not expose it", "anchors": ["src/cliquematch/detail/graph/dfs.h:CliqueEnumerator", "src/cliquematch/detail/graph/enumerate.cpp:CliqueEnumerator::process_vertex"]}
{"id": "C21", "title": "Iteration terminates", "statement": "Calling next() on an all_cliques iterator raises StopIteration after finitely many results and on every call after that.", "quantifier": "every graph, every k", "why_tests_cant": "termination for all graphs", "anchors": ["src/cliquematch/detail/graph/enumerate.cpp", "src/cliquematch/core/pyiterator.cpp"]}
{"id": "C22", "title": "Search memory stays inside its buffer", "statement": "No search of or iteration over a Graph, even one that is abandoned half way, reads or writes outside the graph's buffers.", "quantifier": "every loaded graph and every history of calls", "why_tests_cant": "an overflow needs the right degree sequence and is silent", "anchors": ["src/cliquematch/detail/graph/graph.h:load_memory", "src/cliquematch/detail/graph/graph.cpp:set_bounds"]}
{"id": "C23", "title": "Search memory is returned", "statement": "After every completed search or fully consumed iterator the scratch space is entirely free and zero, so searches can be repeated indefinitely.", "quantifier": "every sequence of completed operations", "why_tests_cant": "balance over all paths including early exits", "anchors": ["src/cliquematch/detail/graph/graph.h:clear_memory", "src/cliquematch/detail/graph/dfs_stack.cpp"]}
{"id": "C24", "title": "Iterators on one graph are independent", "statement": "Interleaving two iterators, or a search with a partly consumed iterator, gives each the same results it would give alone.", "quantifier": "every interleaving", "why_tests_cant": "interleavings are unbounded; scratch space is a shared stack", "anchors": ["src/cliquematch/detail/graph/graph.h:load_memory", "src/cliquematch/detail/graph/enumerate.cpp"]}
{"id": "C25", "title": "Both exact searches agree", "statement": "The untimed search and the timed search with a clock that never expires return cliques of the same size on a fresh graph.", "quantifier": "every graph", "why_tests_cant": "two independent implementations over all graphs", "anchors": ["src/cliquematch/detail/graph/dfs_stack.cpp", "src/cliquematch/detail/graph/dfs_recurse.cpp"]}
{"id": "C26", "title": "Searching never changes the graph", "statement": "n_vertices, n_edges, neighbours and exports are the same before and after any sequence of searches, resets and iterations.", "quantifier": "every history", "why_tests_cant": "histories", "anchors": ["src/cliquematch/detail/graph/graph.h", "src/cliquematch/core/pygraph.cpp"]}
{"id": "C27", "title": "Correspondence indices are in range and invertible", "statement": "get_correspondence returns indices i < len(S1), j < len(S2), one pair per clique vertex, and distinct vertices give distinct pairs.", "quantifier": "every set size and clique", "why_tests_cant": "all sizes", "anchors": ["src/cliquematch/core/pygraph.cpp:get_correspondence2", "src/cliquematch/templates/ext_template.hpp:edges_from_relsets"]}
{"id": "C28", "title": "Correspondences are one-to-one", "statement": "No element of S1 or of S2 appears twice in a returned correspondence.", "quantifier": "every pair of sets, metrics, epsilon, condition and bounds", "why_tests_cant": "all inputs", "anchors": ["src/cliquematch/templates/ext_template.hpp", "src/cliquematch/core/pygraph.cpp:get_correspondence2"]}
{"id": "C29", "title": "Every distance-compatible pair is linked", "statement": "After build_edges with metrics d1,d2 and epsilon, two correspondences (i1,j1),(i2,j2) with |d1(i1,i2)-d2(j1,j2)| < epsilon are compatible (can appear together).", "quantifier": "all sets, metrics and epsilon", "why_tests_cant": "binary search over arbitrary distance arrays", "anchors": ["src/cliquematch/templates/ext_template.hpp:edges_from_relsets", "src/cliquematch/templates/pair_dist.hpp:binary_find2"]}
{"id": "C30", "title": "Only distance-compatible pairs are linked", "statement": "Two correspondences that appear together in a result satisfy |d1-d2| <= epsilon.", "quantifier": "all sets, metrics and epsilon", "why_tests_cant": "the window search admits out-of-range neighbours only for particular arrays", "anchors": ["src/cliquematch/templates/ext_template.hpp:edges_from_relsets", "src/cliquematch/templates/pair_dist.hpp:binary_find2"]}
{"id": "C31", "title": "The condition function filters every pair", "statement": "With a condition function, two correspondences appear together only if the function accepted that very assignment.", "quantifier": "all sets and condition functions", "why_tests_cant": "all functions", "anchors": ["src/cliquematch/templates/ext_template.hpp:efr_condition", "src/cliquematch/templates/ext_template.hpp:build_edges_condition_only"]}
{"id": "C32", "title": "IsoGraph results are subgraph isomorphisms", "statement": "Each correspondence of an IsoGraph maps distinct vertices of S2 to distinct vertices of S1 such that every edge of S2 between matched vertices is an edge of S1; and every such matching is a clique of the search graph.", "quantifier": "every pair of graphs", "why_tests_cant": "all graphs", "anchors": ["src/cliquematch/detail/graph/graph.cpp:iso_edges"]}
{"id": "C33", "title": "IsoGraph finds the largest common match", "statement": "get_correspondence on an IsoGraph with default bounds returns a matching of maximum size among all edge-preserving injective partial maps.", "quantifier": "every pair of graphs", "why_tests_cant": "optimality", "anchors": ["src/cliquematch/detail/graph/graph.cpp:iso_edges", "src/cliquematch/core/pygraph.cpp:get_correspondence"]}
{"id": "C34", "title": "Weighted loaders assign the given weights", "statement": "In an NWGraph built by any loader vertex i carries the i-th supplied weight.", "quantifier": "every weight vector and every loader", "why_tests_cant": "from_adjlist shifts the weights and reads past the end; the tests use equal weights", "anchors": ["src/cliquematch/core/pynwgraph.cpp:nw_from_adj_list", "src/cliquematch/detail/nwgraph/nwgraph.cpp"]}
{"id": "C35", "title": "Weighted search is sound", "statement": "NWGraph.get_max_clique with a positive lower_bound either raises or returns a clique of the graph whose total weight is not below lower_bound; get_clique_weight answers that weight.", "quantifier": "every graph with an edge, weights of any sign, all bounds and flags, every history of earlier calls", "why_tests_cant": "all graphs, weights and histories", "anchors": ["src/cliquematch/detail/nwgraph/nw_dfs.cpp", "src/cliquematch/core/pynwgraph.cpp"]}
{"id": "C36", "title": "Weighted search is exact", "statement": "NWGraph.get_max_clique() with default bounds and no heuristic returns a clique of maximum total weight.", "quantifier": "every graph with positive weights", "why_tests_cant": "all graphs and weights; a heavy isolated vertex is never recorded, and the default bounds hide light and heavy cliques", "anchors": ["src/cliquematch/detail/nwgraph/nw_dfs.cpp"]}
{"id": "C37", "title": "Uninitialised objects raise", "statement": "Every method of a Graph that has not been loaded raises an error instead of touching memory.", "quantifier": "every method", "why_tests_cant": "method by method contract", "anchors": ["src/cliquematch/core/pygraph.cpp:check_loaded", "src/cliquematch/core/pygraph.cpp:reset_search", "src/cliquematch/core/pygraph.cpp:get_vertex_data"]}
{"id": "C38", "title": "repr reports search_done", "statement": "The search_done value printed by repr agrees with the search_done property.", "quantifier": "every history", "why_tests_cant": "history", "anchors": ["src/cliquematch/core/pygraph.cpp:showdata"]}
{"id": "C39", "title": "Time-limited loop makes progress", "statement": "The documented loop `while not G.search_done: G.get_max_clique(time_limit=t, continue_search=True)` terminates.", "quantifier": "every graph and every positive t", "why_tests_cant": "depends on where the clock expires in every call", "anchors": ["src/cliquematch/detail/graph/dfs_recurse.cpp:RecursionDFS::process_graph"]}
{"id": "C40", "title": "Bit-packed candidate sets behave as sets", "statement": "Cliques reported do not depend on how neighbour positions fall into 64-bit words: insertion, removal, flipping, clearing, membership, cardinality, next-member, union, intersection, difference and read-out on packed sets agree with the mathematical set for every length.", "quantifier": "every length, every content, every position", "why_tests_cant": "2^n contents; boundaries at multiples of 64", "anchors": ["src/cliquematch/detail/gbits.h", "src/cliquematch/detail/gbits.cpp"]}
{"id": "C41", "title": "Neighbour lookup is exact", "statement": "Adjacency queries during a search answer correctly for every sorted neighbour list and every resume position of the incremental scan.", "quantifier": "every sorted list, value and resume offset", "why_tests_cant": "all arrays", "anchors": ["src/cliquematch/detail/utils.h:binary_find", "src/cliquematch/detail/graph/graph.h:find_if_neighbors"]}
{"id": "C42", "title": "Building a correspondence graph succeeds or raises", "statement": "build_edges on two sets with at least one element each either builds the correspondence graph or raises an exception.", "quantifier": "all sizes of the two sets, all metrics, tolerances, sorting tie orders and condition functions", "why_tests_cant": "a one-element second set reads past an empty array, which may go unnoticed in a test run", "anchors": ["src/cliquematch/templates/ext_template.hpp:efr_condition", "src/cliquematch/templates/ext_template.hpp:edges_from_relsets", "src/cliquematch/templates/pair_dist.hpp:binary_find2"]}
{"id": "C43", "title": "Rebuilding starts afresh", "statement": "Calling build_edges again on an object that has been used gives the same object state and the same later results as calling it on a new object.", "quantifier": "every builder, every input and every earlier history of the object", "why_tests_cant": "stale search progress survives only in certain histories", "anchors": ["src/cliquematch/core/pygraph.cpp:load_graph"]}
{"id": "C44", "title": "from_file loads or raises", "statement": "from_file on any file either loads a graph or raises an exception.", "quantifier": "every file content", "why_tests_cant": "file contents are unbounded; empty and truncated files read variables that were never assigned, which a test run may not notice", "anchors": ["src/cliquematch/detail/mmio.cpp:mmio4_reader", "src/cliquematch/core/pygraph.cpp:from_file"]}
{"id": "C45", "title": "Weighted iteration is sound and duplicate free", "statement": "list(G.all_cliques(W)) on an NWGraph terminates; every list it reports is a clique with at least two vertices whose total weight is at least W, and no clique is reported twice.", "quantifier": "every graph with an edge, weights of any sign, every W, every history of searches, resets and iterations", "why_tests_cant": "all graphs, weights and histories", "anchors": ["src/cliquematch/detail/nwgraph/nw_enumerate.cpp", "src/cliquematch/core/pyiterator.cpp"]}
{"id": "C46", "title": "Weighted iteration is complete", "statement": "NWGraph.all_cliques(W) reports every clique whose total weight is at least W.", "quantifier": "every graph with nonnegative weights and every W", "why_tests_cant": "all graphs and weights; the tests only count cliques of graphs with equal weights", "anchors": ["src/cliquematch/detail/nwgraph/nw_enumerate.cpp:process_vertex", "src/cliquematch/core/pyiterator.cpp"]}
{"id": "C47", "title": "Weighted exports describe the stored graph", "statement": "to_matrix(), to_adjlist() and (if n_edges is the number of distinct edges) to_edgelist() of an NWGraph describe the graph that was loaded, before and after any sequence of searches, resets and iterations.", "quantifier": "every loaded NWGraph and every history", "why_tests_cant": "all graphs and histories", "anchors": ["src/cliquematch/core/pynwgraph.cpp:to_edgelist", "src/cliquematch/core/pynwgraph.cpp:to_adj_matrix", "src/cliquematch/core/pynwgraph.cpp:to_adj_list"]}
{"id": "C48", "title": "Repeating a weighted search never gives a lighter clique", "statement": "If NWGraph.get_max_clique returned a clique, later calls without a reset or iteration in between, with a lower_bound not above its weight, return a clique that is at least as heavy.", "quantifier": "every graph with nonnegative weights, all flags, all histories", "why_tests_cant": "histories; the heuristic adds up weights of stale entries", "anchors": ["src/cliquematch/detail/nwgraph/nw_heuristic.cpp:process_vertex", "src/cliquematch/core/pynwgraph.cpp:get_max_clique"]}
{"id": "C49", "title": "Weighted iteration does not disturb the heaviest clique", "statement": "Consuming an NWGraph.all_cliques iterator does not change the weight of what a later get_max_clique returns.", "quantifier": "every graph with nonnegative weights and every history of searches and iterations", "why_tests_cant": "histories", "anchors": ["src/cliquematch/detail/nwgraph/nw_enumerate.cpp", "src/cliquematch/core/pynwgraph.cpp:get_max_clique"]}
{"id": "C50", "title": "reset_search forgets earlier weighted searches", "statement": "After any history of weighted searches, reset_search followed by an exact search without bounds returns a clique of maximum weight.", "quantifier": "every graph with nonnegative weights and every history", "why_tests_cant": "histories", "anchors": ["src/cliquematch/core/pynwgraph.cpp:reset_search", "src/cliquematch/detail/nwgraph/nwgraph.cpp"]}
{"id": "C51", "title": "Weighted search memory stays inside its buffer", "statement": "No search of or iteration over an NWGraph reads or writes outside the graph's buffers.", "quantifier": "every graph, all weights and every history of calls", "why_tests_cant": "out of bounds accesses may go unnoticed in a test run", "anchors": ["src/cliquematch/detail/nwgraph/nwgraph.cpp", "src/cliquematch/detail/nwgraph/nw_dfs.cpp", "src/cliquematch/detail/nwgraph/nw_enumerate.cpp"]}
{"id": "C52", "title": "The correspondence found is a largest one", "statement": "get_correspondence() with default arguments, on an object whose edges were just built, returns a one-to-one correspondence with at least as many pairs as every one-to-one correspondence in which each two pairs agree in distance up to the tolerance and are accepted by the condition function.", "quantifier": "all pairs of sets, metrics, tolerances and condition functions; every order std::sort may leave equal elements in", "why_tests_cant": "the optimum ranges over exponentially many correspondences", "anchors": ["src/cliquematch/templates/ext_template.hpp", "src/cliquematch/core/pygraph.cpp:get_correspondence", "src/cliquematch/detail/graph/dfs_stack.cpp"]}
{"id": "C53", "title": "all_correspondences is complete", "statement": "all_correspondences(k) yields every one-to-one correspondence of k pairs in which each two pairs agree, after any history of resets, complete iterations and searches that were not cut short.", "quantifier": "all pairs of sets, all relations used to build the edges, all k and all histories", "why_tests_cant": "exponentially many correspondences, histories", "anchors": ["src/cliquematch/core/pyiterator.cpp", "src/cliquematch/detail/graph/enumerate.cpp"]}
{"id": "C54", "title": "Exceptions of user functions surface, or have no effect", "statement": "build_edges and its variants with distance or condition functions that may raise either raise, or give exactly the object that functions with the same values that never raise would give; a distance function that raises for two different elements always makes build_edges raise.", "quantifier": "all user functions and the points at which they raise, all sizes", "why_tests_cant": "every call may be the one that raises", "anchors": ["src/cliquematch/templates/relset.hpp:fill_dists", "src/cliquematch/templates/ext_template.hpp"]}
{"id": "C55", "title": "The distance functions passed are the ones used", "statement": "The distance functions passed to the constructor of A2AGraph, A2LGraph, L2AGraph or L2LGraph, and the Euclidean default for an array without one, are the ones build_edges compares; for a list without a function build_edges raises.", "quantifier": "all combinations of given and missing functions, all functions and sets", "why_tests_cant": "all functions; the combination with only the second function given is never tested", "anchors": ["src/cliquematch/wrappers/a2agraph.py", "src/cliquematch/wrappers/a2lgraph.py", "src/cliquematch/wrappers/l2agraph.py", "src/cliquematch/wrappers/l2lgraph.py", "src/cliquematch/ext/A2Agraph.cpp", "src/cliquematch/ext/L2Lgraph.cpp"]}
{"id": "C56", "title": "return_indices=False returns the elements at the indices", "statement": "get_correspondence(return_indices=False) on two lists or arrays answers with the elements at the positions that return_indices=True answers with, in the same order, never raises IndexError, and raises exactly when the other call does.", "quantifier": "all sets, all histories of calls and all arguments", "why_tests_cant": "histories", "anchors": ["src/cliquematch/wrappers/_gen_graph.py:get_correspondence", "src/cliquematch/wrappers/l2lgraph.py:_format_correspondence"]}
{"id": "C57", "title": "IsoGraph reports matched vertices and subgraphs", "statement": "IsoGraph.get_correspondence(return_indices=True) returns vertices numbered from 1 that form a subgraph isomorphism; with return_indices=False it returns the two matched subgraphs as dictionaries of neighbours and the dictionary of the isomorphism, whenever there is a correspondence.", "quantifier": "all pairs of graphs and all histories", "why_tests_cant": "all pairs of graphs", "anchors": ["src/cliquematch/wrappers/isograph.py:_format_correspondence", "src/cliquematch/wrappers/isograph.py:get_correspondence"]}
{"id": "C58", "title": "The mask filter keeps exactly the alignments that fit", "statement": "AlignGraph.build_edges_with_filter joins two correspondences only if the similarity they determine moves at least the given fraction of the control points into set cells of the mask, and does join them if in addition the distances agree.", "quantifier": "all point sets, control points, masks, percentages in (0, 1]", "why_tests_cant": "all real inputs; conversion of negative coordinates is undefined behaviour that a test run may not notice", "anchors": ["src/cliquematch/ext/Aligngraph.cpp:filter_score", "src/cliquematch/ext/Aligngraph.cpp:build_edges_with_filter"]}
{"id": "C59", "title": "Weighted upper_bound limits the answer", "statement": "NWGraph.get_max_clique(upper_bound=U) returns a clique no heavier than U, and as heavy as possible within that bound.", "quantifier": "every graph with nonnegative weights and every U", "why_tests_cant": "the bound is a stop threshold only, so the stated property fails on graphs the tests do not contain", "anchors": ["src/cliquematch/core/pynwgraph.cpp:get_max_clique", "src/cliquematch/detail/nwgraph/nw_dfs.cpp"]}
{"id": "C60", "title": "Weighted iteration terminates", "statement": "next() on an NWGraph.all_cliques(W) iterator yields the cliques of list(all_cliques(W)) one by one and then raises StopIteration, on that call and every later one.", "quantifier": "every graph with an edge, all weights and W, every history, every number of next() calls", "why_tests_cant": "all graphs and histories; a loop that does not end cannot be observed", "anchors": ["src/cliquematch/detail/nwgraph/nw_enumerate.cpp", "src/cliquematch/core/pyiterator.cpp"]}
{"id": "C61", "title": "Weighted search memory is returned", "statement": "After any sequence of searches, resets and complete iterations on an NWGraph all scratch memory is free and zero again.", "quantifier": "every graph with an edge, all weights and every history", "why_tests_cant": "history property of internal memory that later searches rely on", "anchors": ["src/cliquematch/detail/nwgraph/nw_dfs.cpp", "src/cliquematch/detail/nwgraph/nw_enumerate.cpp", "src/cliquematch/detail/nwgraph/nwgraph.cpp"]}
{"id": "C62", "title": "Iterators on one weighted graph are independent", "statement": "The cliques an NWGraph.all_cliques(W) iterator yields do not depend on other iterators, searches and resets on the same object.", "quantifier": "every graph with nonnegative weights, every W and every interleaving of calls", "why_tests_cant": "interleavings are unbounded", "anchors": ["src/cliquematch/core/pyiterator.cpp", "src/cliquematch/detail/nwgraph/nw_enumerate.cpp"]}
{"id": "C63", "title": "Uninitialised weighted objects raise", "statement": "Every method of an NWGraph that was created but not loaded raises an exception.", "quantifier": "all methods and arguments", "why_tests_cant": "a null pointer access may go unnoticed or crash the test run", "anchors": ["src/cliquematch/core/pynwgraph.cpp"]}
{"id": "C64", "title": "get_clique_weight adds up the given weights", "statement": "get_clique_weight(l) is the sum of the weights that were given for the vertices in l, counted as often as they occur; entries that are not vertices are ignored.", "quantifier": "every loaded NWGraph, every list of numbers and every history", "why_tests_cant": "all lists and histories", "anchors": ["src/cliquematch/core/pynwgraph.cpp:get_clique_weight", "src/cliquematch/detail/nwgraph/nwgraph.cpp"]}
{"id": "C65", "title": "Exporting and loading copies a weighted graph", "statement": "Loading what to_matrix() (or, if n_edges is the number of distinct edges, to_edgelist()) and get_all_weights() return gives an object for the same weighted graph, after any history.", "quantifier": "every loaded NWGraph with an edge (fewer than 2^28 vertices for matrices) and every history", "why_tests_cant": "all graphs and histories", "anchors": ["src/cliquematch/core/pynwgraph.cpp:to_adj_matrix", "src/cliquematch/core/pynwgraph.cpp:to_edgelist", "src/cliquematch/core/pynwgraph.cpp:get_all_weights", "src/cliquematch/core/pynwgraph.cpp:nw_from_adj_matrix", "src/cliquematch/core/pynwgraph.cpp:nw_from_edgelist"]}
{"id": "C66", "title": "With unit weights the weighted search finds a maximum clique", "statement": "On the same graph, NWGraph.get_max_clique() with all weights 1 and Graph.get_max_clique() return cliques of the same size.", "quantifier": "every graph with an edge and at most 65535 vertices; all tie orders of std::sort", "why_tests_cant": "two implementations compared on all graphs", "anchors": ["src/cliquematch/core/pynwgraph.cpp:get_max_clique", "src/cliquematch/core/pygraph.cpp:get_max_clique"]}
{"id": "C67", "title": "Weighted correspondences are read off cliques", "statement": "_get_correspondence and _all_correspondences of an NWGraph on M*N vertices return, for each clique, as many indices below M and below N as the clique has vertices, from which the vertices can be recovered in order.", "quantifier": "all M, N, graphs with an edge, weights, bounds and histories", "why_tests_cant": "all sizes and histories", "anchors": ["src/cliquematch/core/pynwgraph.cpp:get_correspondence", "src/cliquematch/core/pyiterator.cpp", "src/cliquematch/detail/nwgraph/nwgraph.cpp"]}
{"id": "C68", "title": "The order and numbering of the input do not matter", "statement": "Loading a graph in another format, with its edges in another order or its vertices renumbered, changes neither the size of the clique get_max_clique() returns nor how many cliques all_cliques(k) yields.", "quantifier": "every graph with an edge and at most 65535 vertices, all renumberings, all formats", "why_tests_cant": "all graphs and renumberings", "anchors": ["src/cliquematch/core/pygraph.cpp:get_max_clique", "src/cliquematch/core/pyiterator.cpp", "src/cliquematch/detail/graph/enumerate.cpp"]}
{"id": "C69", "title": "search_done of a weighted graph reports an exact search", "statement": "search_done of an NWGraph is true exactly if get_max_clique was called since the graph was loaded or reset and its last call ran the exact search; with nonnegative weights and bounds that do not exclude the heaviest clique the first such call has then returned a clique at least as heavy as every clique other than an isolated vertex.", "quantifier": "every graph with an edge and every history of searches, resets and iterations", "why_tests_cant": "history property", "anchors": ["src/cliquematch/core/pynwgraph.cpp:get_max_clique", "src/cliquematch/core/pynwgraph.cpp:reset_search"]}
{"id": "C70", "title": "n_vertices and n_edges of a weighted graph", "statement": "n_vertices and n_edges of an NWGraph are the numbers of vertices and of distinct edges it was loaded with, at any time.", "quantifier": "every edge list and matrix, every history", "why_tests_cant": "all inputs; duplicates and asymmetric matrices are not tested", "anchors": ["src/cliquematch/core/pynwgraph.cpp:nw_from_edgelist", "src/cliquematch/core/pynwgraph.cpp:nw_from_adj_matrix"]}
{"id": "C71", "title": "Integer weights are not subject to rounding", "statement": "If the weights of an NWGraph are nonnegative integers that add up to at most 2^52, floating point does not matter: get_clique_weight of a returned clique is its exact weight, an exact get_max_clique with bounds that do not exclude it returns a clique at least as heavy as every clique of two or more vertices, all_cliques(W) yields only cliques that weigh at least W, none of them twice, and a part of every clique of two or more vertices that weighs W unless that clique's lightest-neighbourhood vertex is vertex 1.", "quantifier": "every graph and weights within the bound, every order of the sort, every history with sufficient upper bounds", "why_tests_cant": "all sums that the search forms, in any order, must be exact; tests cover a few weights", "anchors": ["src/cliquematch/detail/nwgraph/nwgraph.cpp", "src/cliquematch/detail/nwgraph/nw_dfs.cpp", "src/cliquematch/detail/nwgraph/nw_enumerate.cpp", "src/cliquematch/core/pynwgraph.cpp:get_max_clique"]}
{"id": "C72", "title": "The default distance is a distance", "statement": "For arrays with finite coordinates the default distance of A2AGraph, A2LGraph and L2AGraph is never NaN or negative, does not depend on the order of the two points, is zero for equal points, and build_edges() without distance functions succeeds and joins correspondences whose distances agree within epsilon by more than the rounding error. For points with fixed-point coordinates it is the double nearest to the Euclidean distance.", "quantifier": "all arrays with finite coordinates, every order in which the squares are added up", "why_tests_cant": "all coordinates, including those whose squares overflow or are rounded", "anchors": ["src/cliquematch/ext/eigen_distance.hpp", "src/cliquematch/ext/A2Agraph.cpp", "src/cliquematch/wrappers/_gen_graph.py"]}
{"id": "C73", "title": "A copy is matched completely", "statement": "If the second set contains a copy of the first one, in any order and among other elements, and epsilon is not lost in rounding, build_edges() and get_correspondence() match every element of the first set; in particular every point, if the second array contains the points of the first one after a translation, rotation or reflection that keeps the coordinates exact; if the first graph of an IsoGraph contains the second one as a subgraph, every vertex of the second graph is matched.", "quantifier": "all sets with 2 to 65535 elements, all placements of the copy, all metrics and epsilon with room around the distances; all graphs", "why_tests_cant": "the placement of the copy ranges over all injections", "anchors": ["src/cliquematch/templates/ext_template.hpp", "src/cliquematch/core/pygraph.cpp:get_correspondence", "src/cliquematch/ext/Isograph.cpp"]}
{"id": "C74", "title": "The reported rotation and translation fit the matched points", "statement": "The dictionary AlignGraph.get_correspondence() returns contains a rotation matrix, its angle theta, and a translation which together move the matched points of the first set as near as possible (least squares) to their partners.", "quantifier": "all matched points and every singular value decomposition np.linalg.svd may return", "why_tests_cant": "all point sets and all valid decompositions; tests use a few point sets", "anchors": ["src/cliquematch/wrappers/aligngraph.py:_format_correspondence"]}
{"id": "C75", "title": "MaskFilter and build_edges_with_filter agree", "statement": "build_edges_with_condition(MaskFilter(points, mask, percentage), False) builds the same graph as build_edges_with_filter(points, mask, percentage).", "quantifier": "all point sets, masks, control points and percentages", "why_tests_cant": "two implementations, one in Python and one in C++, compared on all inputs", "anchors": ["src/cliquematch/wrappers/aligngraph.py:MaskFilter", "src/cliquematch/ext/Aligngraph.cpp"]}
{"id": "C76", "title": "Edge lists of any shape are loaded or refused", "statement": "Graph.from_edgelist and NWGraph.from_edgelist, given an array of any shape, load the graph of the pairs in its first two columns or raise an exception.", "quantifier": "all array shapes and contents", "why_tests_cant": "an out-of-bounds read usually goes unnoticed in a test", "anchors": ["src/cliquematch/core/pygraph.cpp:from_edgelist", "src/cliquematch/core/pynwgraph.cpp:nw_from_edgelist", "src/cliquematch/core/core.h:ndarray"]}
{"id": "C77", "title": "Which distance is used by default", "statement": "Without distance functions build_edges() and build_edges_with_condition() of A2AGraph, A2LGraph, L2AGraph and AlignGraph compare the sets documented as arrays by the Euclidean distance of their rows, whatever the type and layout of the arrays, and for the sets documented as lists (A2LGraph, L2AGraph, L2LGraph) they raise an exception.", "quantifier": "all classes, array types, layouts and objects, with and without distance functions", "why_tests_cant": "one set of overloads serves all classes; the layouts of arrays are not tested", "anchors": ["src/cliquematch/wrappers/_gen_graph.py", "src/cliquematch/wrappers/a2agraph.py", "src/cliquematch/wrappers/aligngraph.py", "src/cliquematch/templates/wrap_template.hpp", "src/cliquematch/core/core.cpp"]}
{"id": "C78", "title": "Iterating over subgraph isomorphisms", "statement": "IsoGraph(G1, G2).all_correspondences(size), after build_edges(), yields the isomorphisms between subgraphs with the given number of vertices.", "quantifier": "all pairs of graphs and sizes", "why_tests_cant": "all graphs; no test calls it", "anchors": ["src/cliquematch/wrappers/isograph.py:all_correspondences", "src/cliquematch/core/wrap_pygraph.cpp"]}
{"id": "C79", "title": "Files that to_file did not finish", "statement": "If writing a graph with to_file stops at any point (crash, full disk), from_file on what is in the file raises an exception or loads a graph all of whose edges are edges of the saved one.", "quantifier": "every graph, every history, every point at which the writing stops", "why_tests_cant": "crash points: every prefix of every file", "anchors": ["src/cliquematch/core/pygraph.cpp:to_file", "src/cliquematch/core/pygraph.cpp:from_file", "src/cliquematch/detail/mmio.cpp:mmio4_reader"]}
{"id": "C80", "title": "Iterators kept while build_edges() is called again", "statement": "An iterator of all_cliques() or all_correspondences() that is kept while build_edges() is called again raises an exception, ends, or yields cliques of the new graph; one that has ended yields nothing any more.", "quantifier": "every object, every builder, every state of the iterator, every number of calls", "why_tests_cant": "history property; reading freed memory usually goes unnoticed in a test", "anchors": ["src/cliquematch/core/pyiterator.h:CliqueIterator", "src/cliquematch/core/pygraph.cpp:load_graph", "src/cliquematch/detail/graph/enumerate.cpp:process_graph"]}
{"id": "C81", "title": "Entries that are not vertex numbers", "statement": "Graph.from_edgelist and NWGraph.from_edgelist, given an array or list of any numeric type, raise an exception if an entry in the first two columns is not the number of a vertex (negative, fractional, NaN, too large), and otherwise load the graph the entries describe; from_matrix, given a matrix of any numeric type, joins two vertices exactly if one of their two entries is not zero.", "quantifier": "all arrays of integers (signed and unsigned, up to 64 bits) and floating-point numbers", "why_tests_cant": "all values, including those that wrap around or are truncated when numpy converts them", "anchors": ["src/cliquematch/core/core.h:ndarray", "src/cliquematch/core/pygraph.cpp:from_edgelist", "src/cliquematch/core/pynwgraph.cpp:nw_from_edgelist", "src/cliquematch/core/pygraph.cpp:from_adj_matrix"]}
{"id": "C82", "title": "Loading does not depend on how the processor shifts", "statement": "Loading a graph executes no shift of a 64-bit number by 64 places, which C++ leaves undefined, so that the compiler and the processor do not matter.", "quantifier": "every well-formed edge list, matrix and adjacency list, with and without weights", "why_tests_cant": "all degrees; the usual processors happen to give the wanted result", "anchors": ["src/cliquematch/detail/gbits.h:refer_from", "src/cliquematch/detail/graph/vertex.h:set_spos", "src/cliquematch/detail/nwgraph/wvertex.h:load"]}
{"id": "C83", "title": "Weights that cannot be ordered", "statement": "A search of an NWGraph never calls std::sort with a comparison that is not a strict weak order of the elements, which C++ leaves undefined.", "quantifier": "every graph, all weights including infinities and NaN, every history of calls, all arguments", "why_tests_cant": "all weights; sorting few elements happens to work", "anchors": ["src/cliquematch/detail/nwgraph/nw_heuristic.cpp:process_vertex", "src/cliquematch/detail/nwgraph/nwclique.h:NWHeuristic::vdata"]}
{"id": "C84", "title": "Shapes of the arrays given to the mask filter", "statement": "AlignGraph.build_edges_with_filter, given points and control points with any numbers of rows and columns, raises an exception or builds the graph filtered by the first two coordinates.", "quantifier": "all shapes and contents of the three arrays, all masks, positive percentages", "why_tests_cant": "all shapes; reading beyond an array usually goes unnoticed", "anchors": ["src/cliquematch/ext/Aligngraph.cpp:filter_score", "src/cliquematch/ext/Aligngraph.cpp:build_edges_with_filter", "src/cliquematch/wrappers/aligngraph.py:build_edges_with_filter"]}
{"id": "C85", "title": "Bounds of one search do not affect the next", "statement": "The lower_bound and upper_bound given to one call of Graph.get_max_clique have no effect on later calls: an exact get_max_clique() returns a maximum clique, whatever bounds earlier calls had.", "quantifier": "every graph with an edge, all bounds, every sequence of searches", "why_tests_cant": "all bounds and sequences of calls", "anchors": ["src/cliquematch/core/pygraph.cpp:get_max_clique", "src/cliquematch/core/pygraph.cpp:reset_search"]}
{"id": "C86", "title": "Bounds of one weighted search do not affect the next", "statement": "The lower_bound and upper_bound given to one call of NWGraph.get_max_clique have no effect on later calls: an exact search whose own bounds do not exclude the heaviest clique returns a clique as heavy as any.", "quantifier": "every weighted graph with an edge, all bounds, every sequence of searches", "why_tests_cant": "all bounds and sequences of calls", "anchors": ["src/cliquematch/core/pynwgraph.cpp:get_max_clique", "src/cliquematch/core/pynwgraph.cpp:reset_search"]}
{"id": "C87", "title": "Number of edges of a correspondence graph", "statement": "After every successful build_edges(), n_edges is the number of edges of the correspondence graph and to_edgelist() is the list of these edges, each exactly once.", "quantifier": "all sizes, distance functions, epsilons and condition functions, declared symmetric or not; all pairs of graphs", "why_tests_cant": "all functions and sizes", "anchors": ["src/cliquematch/templates/ext_template.hpp:edges_from_relsets", "src/cliquematch/templates/ext_template.hpp:efr_condition", "src/cliquematch/ext/Isograph.cpp:iso_edges", "src/cliquematch/core/pygraph.cpp:load_graph", "src/cliquematch/core/pygraph.cpp:to_edgelist"]}
{"id": "C88", "title": "Functions that keep state", "statement": "build_edges() asks the distance functions for every pair of elements exactly once (in both orders if the function is declared asymmetric; set 1 before set 2, in order) and the condition function about every combination of pairs at most once, so that functions that are random, count, cache or log are treated as the table of the answers they gave.", "quantifier": "all functions with arbitrary state and side effects, which may also raise; all sizes, epsilons and flags", "why_tests_cant": "all functions, histories and side effects", "anchors": ["src/cliquematch/templates/relset.hpp:fill_dists", "src/cliquematch/templates/ext_template.hpp:efr_condition", "src/cliquematch/templates/ext_template.hpp:build_edges_condition_only"]}
{"id": "C89", "title": "Functions that use the object being built", "statement": "Distance and condition functions may use the object whose build_edges() is running (search it, iterate over it, build it): the result is the same as for functions that return the same answers and do not; if they leave it alone and one of them raises, the object is unchanged.", "quantifier": "all functions with arbitrary effects on the object and everything else, all states of the object", "why_tests_cant": "all re-entrant calls at every point of the construction", "anchors": ["src/cliquematch/templates/ext_template.hpp:build_edges", "src/cliquematch/templates/ext_template.hpp:build_edges_metric_only", "src/cliquematch/templates/ext_template.hpp:build_edges_condition_only", "src/cliquematch/core/pygraph.cpp:load_graph"]}
{"id": "C90", "title": "Sets that change size after the graph was built", "statement": "If the set S1 or S2 has another size when get_correspondence() or all_correspondences() is called than when build_edges() was called, the call raises an exception or returns pairs of elements that the graph was built from.", "quantifier": "every graph of pairs, every history of calls, all arguments, all new sizes", "why_tests_cant": "all sizes and histories", "anchors": ["src/cliquematch/wrappers/_gen_graph.py:get_correspondence", "src/cliquematch/core/pygraph.cpp:get_correspondence", "src/cliquematch/core/pygraph.cpp:get_correspondence2"]}
{"id": "C91", "title": "Loops over correspondences inside each other", "statement": "A loop over all_correspondences(k), with calls of get_correspondence() and further loops over all_correspondences() in its body, goes through the one-to-one correspondences of k pairs, each once, and ends; every get_correspondence() in it returns a largest correspondence.", "quantifier": "every graph of pairs, every history of calls, all programs with nested loops that may depend on what they have seen, any depth", "why_tests_cant": "all programs, sizes and histories", "anchors": ["src/cliquematch/core/pyiterator.cpp:CorrespondenceIterator::next_clique", "src/cliquematch/core/pygraph.cpp:get_correspondence", "src/cliquematch/wrappers/_gen_graph.py:all_correspondences"]}
{"id": "C92", "title": "What the command-line program prints", "statement": "The program mem_test, given a file that Graph.from_file loads into a graph with an edge, prints three cliques (heuristic, search of at most ten seconds, search without a time limit), of which the last two are maximum cliques, and then the number of cliques that have one vertex less than the last.", "quantifier": "every file, graph with an edge and sorting order; every moment at which the ten seconds may run out", "why_tests_cant": "all files and all moments at which the clock runs out", "anchors": ["mem_test/main.cpp:main", "src/cliquematch/detail/graph/clique.cpp:find_max_cliques", "src/cliquematch/detail/graph/dfs_recurse.cpp:process_graph"]}
{"id": "C93", "title": "What the command-line program for weighted graphs prints", "statement": "The program cm_nw, given a file that Graph.from_file loads into a graph with an edge, prints a clique found by the heuristic, a maximum clique, the number of vertices of each as its weight, and then the number of cliques that weigh one less than the maximum.", "quantifier": "every file, graph with an edge and sorting order", "why_tests_cant": "all files and graphs", "anchors": ["mem_test/nwmain.cpp:main", "src/cliquematch/detail/nwgraph/nwclique.cpp:find_max_cliques", "src/cliquematch/detail/nwgraph/nw_enumerate.cpp:process_graph"]}
{"id": "C94", "title": "What a time limit means", "statement": "Graph.get_max_clique(time_limit=t) with a t that is zero, negative, infinite or NaN has no time limit and, on a fresh graph, returns a maximum clique. With a positive t the search ends soon after t seconds: once the clock shows more than t, it is read at most (D+1)(D+2)+1 more times in a graph without vertices of more than D neighbours, however large the rest of the search would be.", "quantifier": "every graph with an edge, every history of calls, every double t, every clock that does not go back, all other arguments", "why_tests_cant": "all clocks, limits and moments at which the limit passes", "anchors": ["src/cliquematch/detail/graph/clique.cpp:find_max_cliques", "src/cliquematch/detail/graph/dfs_recurse.cpp:search_vertex", "src/cliquematch/detail/graph/dfs_recurse.cpp:process_graph", "src/cliquematch/detail/graph/graph.h:elapsed_time"]}
{"id": "C95", "title": "More time never gives a smaller clique", "statement": "If Graph.get_max_clique(time_limit=t) returns a clique, then the same call in the same state with a longer limit, on a machine that is as fast or faster, returns a clique that is at least as large.", "quantifier": "every graph with an edge, every sequence of searches before the call, all limits and clocks, all other arguments", "why_tests_cant": "all moments at which the two searches may be cut short", "anchors": ["src/cliquematch/detail/graph/dfs_recurse.cpp:search_vertex", "src/cliquematch/detail/graph/dfs_recurse.cpp:process_graph", "src/cliquematch/core/pygraph.cpp:get_max_clique"]}
{"id": "C96", "title": "Loops over an iterator that is already in use", "statement": "iter(it) on an iterator from all_cliques() or all_correspondences() of a Graph or NWGraph gives an object that can be used instead of it: in any program, using one for the other, at any moment, gives the same answers. A loop over an iterator that was used before goes on where it was left, so that nothing is repeated or lost.", "quantifier": "all graphs, all programs with any number of iterators and of objects made from them by iter(), calls in between", "why_tests_cant": "all programs and orders of calls", "anchors": ["src/cliquematch/core/pyiterator.cpp:init_iterators", "src/cliquematch/core/pyiterator.h:CliqueIterator", "src/cliquematch/core/pyiterator.h:CorrespondenceIterator", "src/cliquematch/core/pyiterator.h:NWCliqueIterator", "src/cliquematch/core/pyiterator.h:NWCorrespondenceIterator"]}
{"id": "C97", "title": "The same answers with every compiler", "statement": "The answers of Graph and NWGraph do not depend on what C++ leaves to the compiler and its library: the same loading call followed by the same calls gives the same results, in the same order, whether function arguments are evaluated from left to right or from right to left, and whatever spare room vectors get, as long as adding the working storage does not move them.", "quantifier": "every graph with an edge, every loader, every history of searches, resets and iterations, all arguments, both evaluation orders, all capacities", "why_tests_cant": "all compilers, all histories; a test runs with one compiler", "anchors": ["src/cliquematch/detail/graph/dfs_stack.cpp:process_vertex", "src/cliquematch/detail/graph/enumerate.cpp:load_vertex", "src/cliquematch/detail/graph/graph.h:load_memory", "src/cliquematch/detail/graph/graph.h:clear_memory", "src/cliquematch/detail/graph/graph.cpp:set_bounds", "src/cliquematch/detail/nwgraph/nw_dfs.cpp:process_vertex", "src/cliquematch/detail/nwgraph/nw_enumerate.cpp:load_vertex"]}
{"id": "C98", "title": "Numbers left in reserved memory never show", "statement": "A program on a loaded NWGraph (searches, resets, complete listings, and an iterator asked between other calls) sees the same answers and leaves the same graph whatever numbers the memory that the searches and iterators reserve for vertex weights contained before.", "quantifier": "every weighted graph with an edge, all arithmetics, all programs of this form, all contents of the reserved memory at every reservation", "why_tests_cant": "all contents of uninitialised memory, all programs", "anchors": ["src/cliquematch/detail/nwgraph/nw_dfs.cpp:process_graph", "src/cliquematch/detail/nwgraph/nw_dfs.cpp:process_vertex", "src/cliquematch/detail/nwgraph/nw_enumerate.cpp:load_vertex", "src/cliquematch/detail/nwgraph/nw_enumerate.cpp:process_graph", "src/cliquematch/detail/nwgraph/nwclique.h:weights"]}
{"id": "C99", "title": "Vectors are used within their size", "statement": "NWGraph gives the same answers when the extension is compiled with containers that stop the program at an index beyond their size: searches and iterations are never stopped.", "quantifier": "every weighted graph with an edge, all arithmetics, every history of calls, all arguments, all thresholds", "why_tests_cant": "all graphs, histories and arguments", "anchors": ["src/cliquematch/detail/nwgraph/nw_dfs.cpp:process_vertex", "src/cliquematch/detail/nwgraph/nw_enumerate.cpp:load_vertex", "src/cliquematch/detail/nwgraph/nwclique.h:weights"]}
{"id": "C100", "title": "Graphs and iterators live as long as they are used", "statement": "A program may delete its variables for graphs and iterators in any order: an iterator from all_cliques() or all_correspondences() keeps its graph alive and goes on as if nothing had been deleted; no destroyed object is used or destroyed again; and an object is destroyed as soon as the program can no longer reach it, so that deleting all variables leaves nothing behind.", "quantifier": "all programs that make any number of graphs and iterators, copy references, call iter(), next() and other methods, and delete variables, for each of the four classes of iterators", "why_tests_cant": "all programs and orders of deletion", "anchors": ["src/cliquematch/core/pyiterator.h:CliqueIterator", "src/cliquematch/core/pyiterator.h:CorrespondenceIterator", "src/cliquematch/core/pyiterator.h:NWCliqueIterator", "src/cliquematch/core/pyiterator.h:NWCorrespondenceIterator", "src/cliquematch/core/pyiterator.cpp:init_iterators", "src/cliquematch/core/wrap_pygraph.cpp:all_cliques"]}
{"id": "C101", "title": "Nothing is used after it was destroyed", "statement": "Graph.get_max_clique(), NWGraph.get_max_clique() and iterating over all_cliques() to the end use no object after the C++ standard says it was destroyed, so that their results do not depend on what is left in its memory.", "quantifier": "every graph with an edge, every history of calls, all arguments, both classes of graphs", "why_tests_cant": "all graphs, histories and arguments; a test runs with one compiler, which may leave a destroyed object intact", "anchors": ["src/cliquematch/detail/graph/dfs_stack.cpp:process_vertex", "src/cliquematch/detail/graph/enumerate.cpp:process_graph", "src/cliquematch/detail/nwgraph/nw_dfs.cpp:process_vertex", "src/cliquematch/detail/nwgraph/nw_enumerate.cpp:process_graph", "src/cliquematch/detail/graph/searchstate.h:SearchState"]}
{"id": "C102", "title": "Values that make no sense are refused", "statement": "get_max_clique, all_cliques and _vertex_neighbors of Graph and get_max_clique and all_cliques of NWGraph raise, and have no effect on the object, if a value makes no sense for its argument: a number of vertices or a vertex that is not an integer from 0 on, a time limit, bound or weight that is not a number, a flag that is neither true nor false. All other values are used as they are, and after any calls with any values the graph answers as after calls with sensible ones.", "quantifier": "all Python values for all arguments (None, booleans, integers of any size, floats with infinities and NaN, other objects), every state of the object, every history of such calls", "why_tests_cant": "all values and histories", "anchors": ["src/cliquematch/core/wrap_pygraph.cpp:init_pygraph", "src/cliquematch/core/pygraph.cpp:get_max_clique", "src/cliquematch/core/pynwgraph.cpp:get_max_clique", "src/cliquematch/core/pyiterator.h:CliqueIterator"]}
{"id": "C103", "title": "Running out of memory does not damage a graph", "statement": "If memory runs out in the middle of Graph.get_max_clique() or of asking an iterator from all_cliques() for the next clique, MemoryError is raised and the graph stays usable: apart from search_done, it is as if the call had been asked to do less. After reset_search(), a search with enough memory returns a maximum clique, and an iterator goes on with the clique it would have given.", "quantifier": "every graph with an edge, every history of calls any of which may run out of memory, every moment at which memory runs out, all arguments, all growth policies of vectors", "why_tests_cant": "all moments at which a request for memory may be refused, and all histories", "anchors": ["src/cliquematch/detail/graph/dfs_stack.cpp:process_graph", "src/cliquematch/detail/graph/dfs_stack.cpp:process_vertex", "src/cliquematch/detail/graph/heuristic.cpp:process_graph", "src/cliquematch/detail/graph/enumerate.cpp:process_graph", "src/cliquematch/core/pygraph.cpp:get_max_clique", "src/cliquematch/core/pyiterator.h:CliqueIterator"]}
{"id": "C104", "title": "A build that runs out of memory changes nothing", "statement": "If memory runs out in the middle of build_edges(), build_edges_with_condition() or build_edges_with_filter() of a correspondence graph, or of building an IsoGraph, MemoryError is raised and every later call answers as if the build had not been tried; a later build that has the memory gives the object it would have given.", "quantifier": "every correspondence graph, every history of calls before and after, every builder with all its arguments, every moment at which memory runs out", "why_tests_cant": "all moments at which a request for memory may be refused, all histories", "anchors": ["src/cliquematch/core/pygraph.cpp:load_graph", "src/cliquematch/core/pygraph.cpp:check_loaded", "src/cliquematch/core/pyiterator.cpp:next_clique", "src/cliquematch/core/pygraph.cpp:to_edgelist", "src/cliquematch/templates/ext_template.hpp:build_edges_metric_only", "src/cliquematch/templates/ext_template.hpp:build_edges_condition_only", "src/cliquematch/templates/ext_template.hpp:build_edges", "src/cliquematch/ext/Isograph.cpp:build_edges_for_iso"]}
{"id": "C105", "title": "Running out of memory does not damage a weighted graph", "statement": "If memory runs out in the middle of NWGraph.get_max_clique(), MemoryError is raised and the graph stays usable: apart from search_done, it is as if the call had been asked to do less, and after reset_search() a search with enough memory returns a heaviest clique. A search that does not raise MemoryError is as it would be with all the memory in the world.", "quantifier": "every weighted graph with an edge, every history of calls any of which may run out of memory, every moment at which memory runs out, all arguments, all growth policies of vectors", "why_tests_cant": "all moments at which a request for memory may be refused, all histories, all weights", "anchors": ["src/cliquematch/detail/nwgraph/nw_dfs.cpp:process_graph", "src/cliquematch/detail/nwgraph/nw_dfs.cpp:process_vertex", "src/cliquematch/detail/nwgraph/nw_heuristic.cpp:process_graph", "src/cliquematch/core/pynwgraph.cpp:get_max_clique"]}
{"id": "C106", "title": "Running out of memory does not damage a weighted iterator", "statement": "If memory runs out while an iterator of NWGraph.all_cliques(W) is asked for its next clique, MemoryError is raised, and the iterator afterwards goes on where it would have: leaving out the calls that raised MemoryError, its answers are those of an iterator with enough memory. It never gives anything but different cliques that weigh W or more.", "quantifier": "every weighted graph with an edge, every history of calls, every W, any number of next() calls, every moment in each at which memory runs out, all growth policies of vectors", "why_tests_cant": "all moments at which a request for memory may be refused in every one of any number of calls, all histories, all weights", "anchors": ["src/cliquematch/detail/nwgraph/nw_enumerate.cpp:process_graph", "src/cliquematch/detail/nwgraph/nw_enumerate.cpp:load_vertex", "src/cliquematch/core/pyiterator.h:NWCliqueIterator", "src/cliquematch/core/pyiterator.cpp:next_clique"]}
{"id": "C107", "title": "to_file tells when it could not save", "statement": "If G.to_file(name) returns, the file holds the graph: from_file(name) then loads a graph with the same number of vertices, n_edges and adjacency. If it raises an exception, the file is as it was before.", "quantifier": "every loaded graph with at least one vertex whose n_edges is right, after any history of searches, every earlier content of the file, every disk: files that cannot be opened, any amount of room", "why_tests_cant": "every point at which a disk can be full", "anchors": ["src/cliquematch/core/pygraph.cpp:to_file", "src/cliquematch/core/pygraph.cpp:from_file"]}
{"id": "C108", "title": "A search that is told not to search", "statement": "As the documentation says, get_max_clique(use_heuristic=False, use_dfs=False) skips the clique search entirely and raises an exception.", "quantifier": "every graph with an edge, every history of calls, all other arguments, both classes of graphs", "why_tests_cant": "all graphs, histories and arguments", "anchors": ["docs/source/user.rst", "src/cliquematch/detail/graph/clique.cpp:find_max_cliques", "src/cliquematch/core/pygraph.cpp:get_max_clique", "src/cliquematch/detail/nwgraph/nwclique.cpp:find_max_cliques", "src/cliquematch/core/pynwgraph.cpp:get_max_clique"]}
{"id": "C109", "title": "How often memory is requested", "statement": "As docs/source/how.rst says, the number of requests for memory does not depend on the graph: a search method makes one request when it starts, none while it searches, and then those needed to return the clique. So a search that is granted that many requests succeeds, one that is granted fewer raises MemoryError, and an iterator needs more than those for its answers only in its first __next__.", "quantifier": "every Graph, NWGraph and history of calls on it, every argument of get_max_clique, every number of requests granted, every number of __next__ calls", "why_tests_cant": "that nothing is requested during a search is a claim about every step of every search; a test counts the requests of the graphs it has", "anchors": ["docs/source/how.rst", "detail/graph/heuristic.cpp: process_graph", "detail/graph/dfs_stack.cpp: StackDFS::process_graph", "detail/graph/enumerate.cpp: CliqueEnumerator::process_graph", "detail/nwgraph/nw_heuristic.cpp", "detail/nwgraph/nw_dfs.cpp", "detail/nwgraph/nw_enumerate.cpp", "core/pygraph.cpp: pygraph::get_max_clique"]}
{"id": "C110", "title": "The answers depend on the graph, not on how it was written down", "statement": "Two objects that hold the same graph give the same answers to the same calls, with the cliques in the same order, and iterators give the same cliques in the same order: it does not matter in which order the edges were listed, which end came first, whether edges were repeated, or whether the graph came from an edge list, an array, neighbour sets, a file or a build. Only the number of edges displayed, and the edge list and file that are exported with it, may differ. The same for NWGraph with the same weights, however weights are rounded.", "quantifier": "all pairs of loads of one graph, in any builds, all histories of calls, any number of __next__ calls, all graphs with an edge, all weights", "why_tests_cant": "all orders, repetitions and formats of all graphs, and everything that can be asked afterwards", "anchors": ["src/cliquematch/detail/utils.cpp:clean_edges", "src/cliquematch/core/pygraph.cpp:from_edgelist", "src/cliquematch/core/pygraph.cpp:from_adj_matrix", "src/cliquematch/core/pygraph.cpp:from_adj_list", "src/cliquematch/core/pygraph.cpp:load_graph", "src/cliquematch/core/pynwgraph.cpp:nw_from_edgelist", "src/cliquematch/core/pynwgraph.cpp:nw_from_adj_matrix"]}
{"id": "C111", "title": "The unit of the weights does not matter", "statement": "A weighted program whose weights are all given in another unit (the weights of the vertices, the lower and upper bound of get_max_clique and the weight given to all_cliques) sees the same cliques in the same order, raises in the same calls, and reads the same quantities in the new unit.", "quantifier": "All changes of unit that keep zero, sums, differences and comparisons, all graphs and weights given to any of the three loaders, and all programs of searches, listings, resets and steps of a held iterator", "why_tests_cant": "A test compares one graph in two units; a constant in the search code that is compared with a weight shows only in units where the weights are near it.", "anchors": ["src/cliquematch/detail/nwgraph/nw_dfs.cpp: NWStackDFS", "src/cliquematch/detail/nwgraph/nw_enumerate.cpp: NWCliqueEnumerator", "src/cliquematch/detail/nwgraph/nw_heuristic.cpp: NWHeuristic", "src/cliquematch/core/pynwgraph.cpp: get_max_clique", "src/cliquematch/core/wrap_pygraph.cpp: get_max_clique"]}
{"id": "C112", "title": "Exchanging the two sets mirrors the correspondences", "statement": "Matching a set A with a set B and matching B with A (the distance functions, or the arguments of the condition function, exchanged too) give correspondence graphs that are mirror images, and get_correspondence() returns correspondences of the same length.", "quantifier": "All pairs of finite sets, distance functions, tolerances and condition functions", "why_tests_cant": "A test matches a few sets both ways; the code treats the two sets differently (it searches the sorted distances of the second one only), so a difference shows only in certain combinations of distances.", "anchors": ["src/cliquematch/templates/ext_template.hpp: edges_from_relsets", "src/cliquematch/templates/ext_template.hpp: build_edges_condition_only", "src/cliquematch/templates/pair_dist.hpp: binary_find2", "src/cliquematch/core/pygraph.cpp: get_correspondence"]}
{"id": "C113", "title": "The unit of lengths does not matter", "statement": "A program that gives all distances and the tolerance in another unit of length builds the same correspondence graph, or fails in the same way, and so gets the same correspondences from it.", "quantifier": "All changes of unit that keep zero and the order of lengths and commute with the window of the tolerance, all sets, distance functions, condition functions and tolerances, distances without rounding", "why_tests_cant": "A test compares one pair of sets in two units; a constant compared with a length in the building code shows only in units where lengths are near it.", "anchors": ["src/cliquematch/templates/ext_template.hpp: edges_from_relsets", "src/cliquematch/templates/ext_template.hpp: efr_condition", "src/cliquematch/templates/pair_dist.hpp: binary_find2", "src/cliquematch/templates/relset.hpp: fill_dists"]}
{"id": "C114", "title": "A larger tolerance never gives a shorter correspondence", "statement": "If the two sets and their distance functions stay the same, then with a larger epsilon, or with a condition function that accepts everything the old one did, the correspondence graph has all the edges it had, and get_correspondence() matches at least as many elements.", "quantifier": "all sets, distance functions, condition functions and pairs of tolerances", "why_tests_cant": "all pairs of tolerances and all sets; the search for the ends of an interval of distances may behave differently for each tolerance", "anchors": ["src/cliquematch/templates/ext_template.hpp:edges_from_relsets", "src/cliquematch/templates/ext_template.hpp:efr_condition", "src/cliquematch/templates/ext_template.hpp:build_edges_condition_only", "src/cliquematch/templates/pair_dist.hpp:binary_find2", "src/cliquematch/core/pygraph.cpp:get_max_clique"]}
{"id": "C115", "title": "A larger graph never gives less", "statement": "With vertices or edges added, get_max_clique() with its default arguments never returns a smaller clique, and all_cliques(k) still lists every clique it listed before. With vertices or edges added to a weighted graph, or weights raised, its get_max_clique() never returns a lighter clique.", "quantifier": "all pairs of graphs of which one contains the other, all weights", "why_tests_cant": "all pairs of graphs", "anchors": ["src/cliquematch/core/pygraph.cpp:get_max_clique", "src/cliquematch/core/wrap_pygraph.cpp:all_cliques", "src/cliquematch/core/pynwgraph.cpp:get_max_clique", "src/cliquematch/detail/graph/enumerate.cpp:process_graph"]}
{"id": "C116", "title": "Leaving elements out never gives a longer correspondence", "statement": "If elements of the two sets are left out, the others staying in their order with the same distances and conditions, get_correspondence() does not match more elements than before.", "quantifier": "all pairs of finite sets, all choices of elements to leave out, all distance functions, tolerances and condition functions", "why_tests_cant": "all sets and all parts of them; the edges are found by a search in the sorted distances, which changes when elements are left out", "anchors": ["src/cliquematch/templates/ext_template.hpp:edges_from_relsets", "src/cliquematch/templates/ext_template.hpp:efr_condition", "src/cliquematch/templates/ext_template.hpp:build_edges_condition_only", "src/cliquematch/templates/pair_dist.hpp:binary_find2", "src/cliquematch/core/pygraph.cpp:get_correspondence"]}
{"id": "C117", "title": "The order of the elements does not matter", "statement": "If the elements of the two sets are given in another order, with the same distances and conditions, get_correspondence() matches as many elements as before.", "quantifier": "all pairs of finite sets, all orders, all symmetric distance functions, all tolerances, all condition functions that do not depend on the order of two elements of a set", "why_tests_cant": "all orders of all sets; which edges are found depends on searches in sorted distances and on loops over i < j", "anchors": ["src/cliquematch/templates/ext_template.hpp:edges_from_relsets", "src/cliquematch/templates/ext_template.hpp:efr_condition", "src/cliquematch/templates/ext_template.hpp:build_edges_condition_only", "src/cliquematch/templates/pair_dist.hpp:binary_find2", "src/cliquematch/templates/relset.hpp:fill_dists", "src/cliquematch/core/pygraph.cpp:get_correspondence"]}
{"id": "C118", "title": "A clique that is returned cannot be extended", "statement": "get_max_clique() returns a clique that cannot be extended: no vertex outside it is adjacent to all its vertices, whether the search is complete or uses the heuristic alone, and for weighted graphs with positive weights too.", "quantifier": "all graphs with an edge, all positive weights, all arguments of the search, all ways std::sort may order equal elements", "why_tests_cant": "A greedy search that drops a candidate too early, or stops one candidate too soon, still returns a clique; only a vertex that happens to be adjacent to everything returned shows the difference.", "anchors": ["src/cliquematch/detail/graph/heuristic.cpp:DegreeHeuristic::process_vertex", "src/cliquematch/detail/graph/heuristic.cpp:DegreeHeuristic::process_graph", "src/cliquematch/detail/graph/dfs_stack.cpp:process_vertex", "src/cliquematch/core/pygraph.cpp:get_max_clique"]}
{"id": "C119", "title": "Small changes change the answer little", "statement": "With the edges of one vertex changed, get_max_clique() with its default arguments returns at most one vertex more or less than before; for weighted graphs the weight of what is returned falls by at most the weight of that vertex. If elements of the two sets are left out, the others staying in their order with the same distances and conditions, get_correspondence() loses at most as many matches as there are elements left out.", "quantifier": "all pairs of graphs that differ in the edges of one vertex, all weights; all pairs of finite sets, all choices of elements to leave out, all distance functions, tolerances and condition functions", "why_tests_cant": "all pairs of graphs and sets; the search and the sorted distances are different after the change", "anchors": ["src/cliquematch/core/pygraph.cpp:get_max_clique", "src/cliquematch/core/pynwgraph.cpp:get_max_clique", "src/cliquematch/core/pygraph.cpp:get_correspondence", "src/cliquematch/templates/ext_template.hpp:edges_from_relsets", "src/cliquematch/templates/ext_template.hpp:build_edges_condition_only", "src/cliquematch/templates/pair_dist.hpp:binary_find2"]}
{"id": "C120", "title": "A correspondence that is returned cannot be extended", "statement": "get_correspondence() with its default arguments returns matches to which no further match can be added: for any two elements that are left over, one of each set, there is a match from which their distances differ by epsilon or more, or with which the condition function refuses them; for IsoGraph, no further pair of vertices can be added to the subgraph isomorphism.", "quantifier": "all pairs of finite sets, distance functions, tolerances, condition functions and graphs, all pairs of elements left over", "why_tests_cant": "all sets and distances; a link that is not found in the sorted distances shows only if the pair it belongs to could have been added to what is returned", "anchors": ["src/cliquematch/core/pygraph.cpp:get_correspondence", "src/cliquematch/core/pygraph.cpp:get_max_clique", "src/cliquematch/templates/ext_template.hpp:edges_from_relsets", "src/cliquematch/templates/ext_template.hpp:efr_condition", "src/cliquematch/templates/ext_template.hpp:build_edges_condition_only", "src/cliquematch/templates/pair_dist.hpp:binary_find2"]}
{"id": "C121", "title": "Graphs made of two parts", "statement": "If a graph consists of two parts with no edge between them, get_max_clique() with its default arguments returns as many vertices as for the part with the larger clique. If it has all edges between them, it returns as many as for both parts together. A vertex adjacent to all others adds exactly one vertex. For weighted graphs with nonnegative weights that add up without rounding and no isolated vertex, if no edge joins the parts, each part has an edge whose ends weigh more than the default lower_bound, and no clique weighs more than the default upper_bound, what is returned is as heavy as for the part with the heavier clique.", "quantifier": "all graphs and weights, all ways to divide the vertices into two parts that each have an edge, all ways std::sort may order equal elements", "why_tests_cant": "all graphs and their parts; the search prunes the vertices of one part with what it found in the other", "anchors": ["src/cliquematch/core/pygraph.cpp:get_max_clique", "src/cliquematch/detail/graph/heuristic.cpp:DegreeHeuristic::process_graph", "src/cliquematch/detail/graph/dfs_stack.cpp:process_vertex"]}
