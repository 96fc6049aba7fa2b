# Formal model of ahgamut/cliquematch in Lean 4

Written before the proofs, updated as the model grows.  Paths without a prefix are under
`/repo/src/cliquematch`; `Model/`, `Lemmas/`, `Props/` are under `lean/Verif/`.

## 1. Approach

The C++ core is modelled function by function as *total, computable* Lean functions in an
error monad

    abbrev M α := Except Fault α
    Fault = throw (a CM_ERROR reaches Python)
          | ub    (an access the C++ program may not make: out of bounds, dangling pointer,
                   null pointer, division by zero)
          | fuel  (a loop ran longer than the bound written in the model)

so undefined behaviour and non-termination are outcomes a theorem has to exclude, never
something a total definition hides.  C++ `for` loops become `forRange`, `while` loops become
`loop fuel`; each has one induction rule (invariant, measure).  The fuel written at a loop is
never a hypothesis of a property theorem: that it suffices is proved.

The bit sets are not abstracted away: the model keeps the shared word buffer `edge_bits` as a
`List (BitVec 64)`, a bit set is an offset into it plus a length, and every
set/reset/copy/count/next is the word-level operation of the source, including the
scratch-space stack `load_memory`/`clear_memory`.  A layer of lemmas translates word operations
into statements about the set of bit addresses.

| layer | contents |
|-------|----------|
| `Spec`, `SpecWeighted` | independent vocabulary: the graph of a list of edges (Mathlib `SimpleGraph`), cliques, maximum cliques, matchings, weights.  No model definition is imported. |
| `SpecMemory` | how many words of memory the searches of a graph want, from degrees alone |
| `SpecHeap`, `SpecNWHeap` | what may be left by a call that ran out of memory |
| `SpecLoops`, `SpecCorrLoops` | what programs with nested loops may do and should see |
| `SpecDouble` | which numbers are binary64, when sums of weights need no rounding (imports only the type `Dbl`) |
| `SpecMetric`, `SpecEuclid`, `SpecKabsch` | the error of a rounded distance; Euclidean distances and correctly rounded roots; rotations, least squares, singular value decompositions |
| `Model/*` | the model, one file per group of C++ files; every definition cites file and lines |
| `Lemmas/*` | helper lemmas; for weighted graphs `AW*` hold for any arithmetic, `NW*`, `EX*` for `ExactNum`, `NWRat` restates them for `Rat`; `DblRound` is about rounding |
| `Props/*` | the property theorems, non-vacuity examples beside them, counterexample theorems |

Naming: `Cxx_…` proves property `Cxx`; `Cxx_…_partial` proves less than the English statement,
its docstring says what is missing; `Cxx_refuted…` proves that the English statement is *false*
of the code, by a concrete run (`decide +kernel` on the model) or for a whole class of inputs.
A property with a `_refuted` theorem has status `partial` in MANIFEST.json: what holds is
proved, what does not is refuted.

Statements are about API calls (`PyGraph.fromEdgelist`, `PyGraph.getMaxClique`,
`PyGraph.listCliques`, …), about all objects a loader can return (`Loaded`, `WLoaded`,
`Matcher`) and about all sequences of calls on them (`runs ops`, `wruns ops`).

## 2. What is modelled

| code | model | remarks |
|------|-------|---------|
| `detail/utils.{h,cpp}` | `Model/Utils` | `binary_find` with wrapping 64-bit indices, `insertionSort`, `radixSort` (American flag), `modUnique`, `clean_edges` |
| `detail/gbits.{h,cpp}` | `Model/Bits`, `Model/SetOps` | all operations but `show` |
| `detail/graph/{vertex,graph,clique}.*` | `Model/Graph` | constructor, `set_bounds`, scratch space, `get_clique`, `send_data`, `vertex_data`, `find_if_neighbors`; not `disp` |
| `detail/graph/{heuristic,dfs_stack,dfs_recurse}.cpp` | `Model/Search` | both searches, the heuristic, `find_max_clique`, `continue_search`, `reset_search` |
| `detail/graph/{clique.cpp,dfs_recurse.cpp}`, `graph.h: elapsed_time` | `Model/Clock` | timed searches with the clock they read, from the `time_limit` in seconds on |
| `detail/graph/enumerate.cpp`, `searchstate.h`, `dfs.h` | `Model/Enum` | the resumable enumerator |
| `detail/graph/{heuristic,dfs_stack,enumerate,clique}.cpp`, `core/{pygraph,pyiterator}.cpp` | `Model/Heap` | searches and iterators whose requests for memory may be refused (C103, C109 only) |
| `detail/nwgraph/{nw_heuristic,nw_dfs,nwclique}.cpp`, `core/pynwgraph.cpp` | `Model/NWHeap` | weighted searches whose requests for memory may be refused (C105, C106, C109 only) |
| `detail/nwgraph/nw_enumerate.cpp`, `core/pyiterator.cpp` | `Model/NWHeapEnum` | weighted iterators whose requests for memory may be refused (C106, C109 only) |
| `core/pygraph.cpp:load_graph`, `templates/ext_template.hpp`, `ext/Isograph.cpp` | `Model/HeapBuild` | building a correspondence graph when a request for memory is refused (C104 only) |
| `detail/mmio.*`, `from_file`, `to_file` | `Model/File` | at the level of characters, including the `ifstream` operations used |
| `from_file`, `to_file` on a disk that may be full or refuse to open a file | `Model/Disk` | an `ofstream` without a buffer; a disk that is full stays full (C107 only) |
| `detail/nwgraph/*` | `Model/NWGraph`, `NWSearch`, `NWEnum` | weighted graph, heuristic, search, enumerator |
| `double` | `Model/Double` | IEEE binary64: `+`, `-`, comparisons, conversion of integers |
| `core/pygraph.cpp`, `core/pyiterator.*` | `Model/Api` | loaders, exports, getters, `get_max_clique` argument checks, iterators |
| `core/pynwgraph.cpp` | `Model/NWApi` | the same for weighted graphs |
| `from_edgelist` with the numpy array it reads | `Model/Arrays` | arrays in C order of any shape |
| arrays of other number types (`forcecast` in core.h) | `Model/Convert` | numpy's conversion of integers and doubles to `uint64` and `bool`; where C leaves the result open it is a parameter |
| `graphBits::refer_from` with the C++ rule for shifts | `Model/Shift` | constructors and loaders once more; only for C82 |
| `NWHeuristic::process_vertex` with the C++ rule for `std::sort` | `Model/SortRule` | the search once more; only for C83 |
| `graph.cpp:iso_edges`, `ext/Isograph.cpp`, `templates/*` | `Model/Corr` | `relset`, `binary_find2`, `edges_from_relsets`, `efr_condition`, the three builders, correspondence iterators |
| `templates/*` with callbacks that raise | `Model/Callbacks` | the builders again, in the error monad throughout |
| `templates/*` with callbacks that have effects | `Model/Effects` | the builders again, over the object and an arbitrary world |
| `wrappers/*.py`, `ext/{A2A,A2L,L2A,L2L}graph.cpp` | `Model/Wrappers` | which metric is used, elements for indices, dictionaries of `IsoGraph` |
| `ext/eigen_distance.hpp`, `ext/A2Agraph.cpp`, `templates/*` with `double` distances | `Model/Metric` | the default distance and the window around a distance, with IEEE 754 rounding; the order of summation (Eigen vectorises) and the square root are parameters |
| `wrappers/aligngraph.py:_format_correspondence` | `Model/Kabsch` | rotation, translation and angle, in exact arithmetic over any ordered field; `np.linalg.svd` is a parameter of which only its contract is assumed |
| `ext/Aligngraph.cpp`, `wrappers/aligngraph.py:MaskFilter` | `Model/Align` | the mask filters over exact rationals; the LU solver is replaced by its solution (`Align.solve_iff`) |
| `ext/Aligngraph.cpp` with arrays of any shape | `Model/AlignShape` | contiguous arrays; only for C84 |
| `core/core.cpp`, `templates/wrap_template.hpp`, `wrappers/*.py` | `Model/Dispatch` | which overload pybind11 picks; its type caster for `Eigen::Ref` is assumed to accept what its documentation says |
| `std::vector` of libstdc++ | `Model/Capacity` | how the capacity of the edge array grows (only for `C22_libstdcxx_*`) |
| `mem_test/main.cpp` | `Model/MemTest` | the numbers that are printed, not their layout |
| `mem_test/nwmain.cpp` | `Model/NWMemTest` | as above |
| clients | `Model/History`, `Calls`, `Matcher`, `NWHistory`, `Nested`, `NWNested`, `Blocks`, `CorrBlocks`, `Rebuild`, `Handles`, `Lifetime`, `Recompile` | which objects exist, sequences of calls |

Parameters that stand for choices the C++ standard or the platform leaves open; every theorem
holds for all of their values:

* `srt`: the result of `std::sort` up to the order of equal elements (that the weighted search may
  call it is C83, which is false for NaN; the other theorems about weighted searches do not look
  at this rule of C++);
* `cap`: the capacity of `edge_bits` when the constructor resizes it (moving it leaves every
  vertex's bit set dangling; see disagreement 3);
* `argLR`: the order in which the arguments `load_memory(..), load_memory(..)` of one call are
  evaluated (dfs_stack.cpp:50-52 and the like);
* `junk`: the content of uninitialised storage of the weighted search;
* the clock: the number of queries of `steady_clock` answered before the time limit expires
  (`none`: never).  `Model/Clock` has the clock itself, in microseconds, and the limit as a
  `double`; C94 says that the two descriptions agree.

Deliberate simplifications:

* Weights: the weighted model is generic in the number type `R` (a zero, `+`, `-`, integers,
  `<`, `≤`, no laws).  What does not depend on arithmetic is proved for every `R`
  (C34, C35_any_arithmetic, C45_any_arithmetic_partial,
  C45_held_any_arithmetic_partial, C47, C51, C60, C61, C63, C64_any_arithmetic,
  C65, C67, C69_search_done, C70), so for `double` with its rounding, infinities and NaN.
  `Model/Double` is `double` itself (`Dbl`: IEEE binary64, round to nearest even, no signed zero,
  no NaN payload; `round_is_nearest` and `round_fixes` show that its rounding is IEEE 754's).  What
  compares sums is proved for exact arithmetic (`Rat`) and for `Dbl` whenever no sum of weights
  needs rounding (`Props/WeightedDouble`; `ExactWeights` in `SpecDouble`; C71 for integers), and
  is shown to fail for `Dbl` when sums round (disagreement 23).
* Distances are elements of an arbitrary linear order with arbitrary functions `d ↦ d - ε`,
  `d ↦ (d - ε) + 2ε` (`Window`), so they hold for `double` without NaN; where a theorem needs
  more (monotonicity) it says so.  `Model/Metric` has `double` distances (`Dist`: `Dbl` without
  NaN) and the rounded window (`dblWindow`); a NaN distance is undefined behaviour there, since
  `std::sort` then has no strict weak order.
* User callbacks (metrics, conditions): in `Model/Corr` they are functions of the indices that do
  not raise, in `Model/Callbacks` they may raise, and in `Model/Effects` they may also keep state,
  have effects on everything and use the object that is being built.
* Arguments arrive as natural numbers, `double`s, truth values, lists and matrices.  What pybind11 and
  numpy make of other Python values is in `Model/Values` (numbers and flags, C102), `Model/Convert`
  (entries of arrays, C81), `Model/Arrays` (shapes, C76) and `Model/Dispatch` (sets, C77).  Of the other
  arguments, e.g. file names and lists of weights, only those of the right type are modelled.
* Sizes: `Loaded` bounds the number of vertices by 2^31 (2^28 for matrices) and rows by 2^56, so
  that 64-bit sizes, such as `2 * (CLIQUE_LIMIT + 1) * dlen(max_degree)` in `set_bounds` or the
  number of cells of a matrix, do not wrap.  These are no limits of the proofs' method but
  sufficient conditions for the absence of overflow; larger inputs need hundreds of
  gigabytes for the vertices alone.
* Allocation failure: `Model/Heap` has searches and iterators of `Graph` that run out of memory (C103),
  `Model/NWHeap` and `Model/NWHeapEnum` those of `NWGraph` that do (C105, C106), `Model/HeapBuild`
  correspondence graphs whose construction does (C104); all other properties assume that memory suffices.
  Other loaders that run out of memory are not modelled.
* `pad_cover` for a multiple of 64 shifts by 64, undefined in C++; the model has the x86-64 and
  AArch64 result (count modulo 64).  `Model/Shift` has the constructor with the C++ rule; C82 says
  for which graphs the two differ (a vertex with 63, 127, ... neighbours).
* References into `std::vector` after `pop_back` (enumerate.cpp, dfs_stack.cpp) read the popped
  element, which is still in memory; the model does the same.  `Model/Popped` has the searches and
  iterators with the C++ rule; C101 says which calls the rule leaves undefined.
* `std::cerr`/`std::cout` output, `disp`, `show` are not modelled.

Not modelled: Eigen (but for the default distance, see `Model/Metric`), the Python package's
plotting/examples/tests/docs, `setup.py`.

## 3. Plan per property

| id | modelled by / proved by |
|----|-------------------------|
| C01 | `cleanEdges`; permutation + sortedness by induction over digits (American-flag partition invariant), then dedup |
| C02 C03 C04 | loaders composed with C01 and the constructor's offset loop; neighbours characterised as sets |
| C05 C06 | `sendData`, exports; counting edges; negation witnesses for duplicates and asymmetric matrices |
| C07 C08 C44 | character-level writer and reader; decimal round trip; negation witnesses |
| C09 | invariant over all API histories: every vertex's stored bit set is a clique containing it |
| C10 C11 C12 C25 | small-step invariant for the stack machine ("the target clique is already matched by the record or pending at a stack level"), recursion induction for RecursionDFS; C12 refuted |
| C13 | heuristic invariant; sort is an arbitrary permutation |
| C14 | RecursionDFS with a tick budget; soundness for all budgets |
| C15 C16 C17 C18 C39 | API state machine; positive partial theorems and counterexample runs; for C15 and C16 also an invariant over all clocks: each call with a time limit gives up at most one vertex (`Lemmas/Timed`) |
| C19 C20 C21 | enumerator invariant: yielded ++ pending is a permutation of all rooted k-cliques; negation for roots at vertex 1 |
| C22 C23 C24 | the model is memory-explicit, so "no ub" and "scratch pointer restored, scratch zero" are parts of the invariants; the invariants of iterations hold for scratch space used from any offset (`OkAt b`), so a call made while one iterator is paused is an ordinary call that starts higher up (`Lemmas/Nested`, `Held`); programs with nested loops (`Model/Blocks`, `SpecLoops`) by induction on the program, a paused iterator over cliques of size `k` using at most `k` sets of neighbours (`Lemmas/Blocks`); negations: edgeless graph, reallocation, interleaved iterators, timed search while an iterator is held; exactly which loaded graphs can be searched (`C22_searchable`, `C22_usable_*`, also for C51) by running the search on the moved buffer beside the search on the kept one (`Lemmas/Cut`) |
| C26 | frame part of the same invariants |
| C27 C28 | arithmetic of the pair encoding + cliques of the correspondence graph |
| C29 C30 C31 C42 | `binary_find2` window lemma; negation witnesses |
| C32 C33 | `isoEdges` characterised, combined with C10 |
| C34 C35 C36 | weighted loaders; weighted stack-machine invariant over the rationals; negation witnesses |
| C37 C38 | decision logic of the API layer |
| C40 | bit-level lemmas incl. SWAR popcount for all 2^64 words |
| C41 | `binaryFind` specification incl. incremental resume and the wrapped N=0 case |
| C43 | `loadGraph` on a used object compared with a new one |
| C45 C46 | weighted enumerator invariant with the exact set of reported cliques (`WFirst`, `ReachedLast`) |
| C47 | exports of the shared part; frame over weighted histories |
| C52 C53 | C10, C20 applied to the relation that the builders join pairs by |
| C54 | simulation between the builders in `Model/Callbacks` and `Model/Corr` ("equal, or stopped") |
| C55 C56 C57 | case analysis of the wrappers, composed with C19, C27, C29, C32; counterexample runs |
| C58 | exact solution of the linear system, floor arithmetic, composed with the builder's specification; counterexample runs |
| C59 C60 C61 C62 C63 | the weighted counterparts of C12, C21, C23, C24, C37: same invariants over `wruns`; a held iterator (`Model/NWNested`) is one that other calls start above, as in C24; counterexample runs |
| C64 C65 C66 C67 | composition of C34, C35, C36, C45, C47 with the loaders, with C10 and with the pair encoding |
| C69 C70 | the fields of the object along `wruns`; counting edges as for C06; counterexample runs |
| C71 | the weighted lemmas are proved once for every number type whose `+` and `-` are exact when the result is representable (`ExactNum`: `Rat`, `Dbl`); multiples of a power of two are |
| C72 C73 | rounding is monotone and nonnegative sums of squares stay so; relative error of the rounded window; C73 is C52 and C33 applied to the copy (`Embeds`); for fixed-point coordinates no step but the root rounds (`SpecEuclid.lean`, `Props/Euclid.lean`), so rigid motions keep the computed distances |
| C74 | the misfit of a rotation with the best translation is a constant minus twice its inner product with the cross matrix; that product is bounded by the singular values |
| C75 | both filters decide the same for a positive percentage, then `buildFilter` is the conditional builder |
| C76 | induction on the rows; the other shapes reduce to C02 and C34 |
| C77 C78 | the first overload that accepts the sets, by cases; composed with C54 and C72 |
| C79 | prefixes of the written text fall into a few kinds; the reader's specification (C08) up to the last complete row, then one step for what is left |
| C80 | the enumerator's states carry a flag "their memory was freed" (`Model/Rebuild`); the answers depend on the graph and the enumerator only |
| C81 | arithmetic modulo `2^64` and of the floor function, then C76, C34 and C03 |
| C82 | the strict constructor is compared with the other one step by step; the lengths of the bit sets are the degrees |
| C83 | the strict search is compared with the other one step by step: the degrees of the candidates are those computed when loading, sums of weights that are not NaN |
| C84 | the filter on matrices is compared with the one on points by loop invariants; with another number of columns a read or write outside is found in every run |
| C85 C86 | a record that is not below the size of any clique never changes again; for weights as C48; counterexample runs |
| C87 | links between different element pairs have different keys; each pair of elements is listed once if both functions are symmetric, so every link is counted once |
| C88 C89 | builders over an arbitrary world (`Model/Effects.lean`); simulation by the builders with a table of the recorded answers; the questions asked are a fixed list without repetitions |
| C90 | `PyGraph.getCorrespondence` with the present size of the second set on a graph built for another one; vertex numbers are read off by division |
| C91 | the blocks of C24 with `get_correspondence` and `all_correspondences` (`Model/CorrBlocks`); the same induction, each answer of the iterator is an answer of the clique iterator read off by division |
| C92 | `memMain` (`Model/MemTest`) from the text of the file to the printed numbers; the timed search gives up at most one root, and late, so that the repeated search makes up for it (`Lemmas/Late`) |
| C93 | `nwMemMain` (`Model/NWMemTest`), with `Dbl`; all weights are one, so that sums are exact; the enumerator does not look at the record or at the stored clique (`Same`) |
| C94 C95 | searches that read a clock and count how often (`Model/Clock`), related step by step to those of `Model/Search` (`Tracks`); after the limit every open level only finishes its loop; for C95 two runs side by side, equal until the time of the first is over (`Lemmas/Longer`) |
| C96 | iterator objects as pointers to enumerators on a heap, `iter()` copies the pointer (`Model/Handles`); a program and the one without `iter()` (`SpecHandles`) run side by side |
| C97 | the flag `argLR` (order of the two `load_memory` arguments) and `cap` (room of a vector) of every loader; two runs side by side whose root result and candidate sets lie at exchanged places of the scratch memory (`Lemmas/Moved`: words exchanged, equal elsewhere) and which pop and clear the same words; the pieces above the root are laid out alike in both; the same for weighted graphs (`Lemmas/FlipNW*`) |
| C98 | the parameter `junk` of every weighted search and iterator; two runs side by side whose `weights` agree on the candidates of the current root (`Agr`, `JR`): loading a root writes exactly these, and the searches read nothing else while a state is on the stack; the value read when the root is popped is not used afterwards |
| C99 | the weighted searches and iterators started with a vector `weights` of size 0, which is what `reserve` gives (`Model/Checked`); if such a run does not fault, neither does the run with reserved memory, and the results are the same (`Follows`); the first vertex loaded that has a candidate faults; counterexample run |
| C100 | a heap of counted objects with the references that iterator objects hold (`Model/Lifetime`), compared with a machine that never destroys anything (`SpecLifetime`): the counted heap is a function of the variables and of all objects ever made (`Forever.real`), kept by every action |
| C101 | the searches and iterators with the use of the popped element undefined (`Model/Popped`); every call gives the same result as in the model or is undefined (`OrUB`, kept by every construct of the model); a search that pops nothing leaves the record alone or reaches the limit, an iterator that pops nothing never leaves its vertex; counterexample runs |
| C102 | the type casters for any Python value (`Model/Values`), each shown to accept exactly the values `SpecValues` describes; every call with any values is one of the calls the other properties are about or leaves the object as it is, so histories by induction; an iterator whose threshold nothing reaches (NaN) yields nothing: loop invariants |
| C103 | the searches and iterators with vectors that have a capacity and a heap that may refuse any request (`Model/Heap`); while every root has fewer candidates than the vectors were reserved for (`Lim`), which a large enough `upper_bound` guarantees, no `push_back` requests memory, so a run refused nothing when reserving is the ordinary run (`loop_carry`); in general each loop is in step with the ordinary one until a request is refused (`loop_either`); histories by induction; counterexample runs |
| C104 | a build that fails leaves the graph with perhaps other numbers of vertices and edges (`C104_left`); searches read neither (`getMaxClique_same`), so histories of them are the same by induction (`runs_same`); an iterator stops at the first vertex beyond the number, so with more vertices than the graph has it reads the one after the last (`consume_past`), with fewer it stops early (`consume_fewer`) |
| C105 | the weighted searches with vectors and a heap as in C103 (`Model/NWHeap`); in general each loop of the run with a heap is in step with the ordinary one until a request is refused (`loop_either`); if no vertex has more candidates than reserved (`Calm`, from `Roomy`), requests are only made before the scratch space is taken, so a refused call is an ordinary one that did less; histories by induction; counterexample run |
| C106 | the weighted iterators with vectors and a heap as in C105 (`Model/NWHeapEnum`); up to the first refusal each loop is in step with the ordinary one (`loop_either`); if no vertex has more candidates than reserved (`Calm`, from `Roomy`), a refused call does nothing or all but its answer; sequences of calls by induction.  Soundness on all graphs: a refusal in the middle of a round leaves what a round asking for an unreachable weight leaves, so the invariant of C45's proof survives (`loop_try`), and what is no longer pending has two positions in common (`Lost`); counterexample runs |
| C107 | `to_file` as a sequence of writes to a stream with limited room; what is stored is the beginning of what C79 says is written, by induction on the writes; composed with C07 and C79 |
| C108 | from the model, a search with neither method only sets the bounds; composed with the invariants of histories (the list stored is a clique, `search_done` agrees with the position) |
| C109 | `SpecRequests` says how many requests; induction over the loops shows that a vector that was reserved never grows while `upper_bound` (or `Roomy`) holds, so the model with refusals (C103, C105, C106) uses up exactly that many |
| C110 | every loader passes to the constructor an array that describes the graph, and the constructor sorts it and removes duplicates, so two loads differ in the displayed number of edges and as two builds do; C97 and a congruence for the number of edges do the rest |
| C111 | every definition of the weighted code is shown to commute with a change of unit that keeps zero, sums, differences and comparisons; only the heuristic is left out, because it converts a count to a weight, and the witness for it and for the default bounds is computed |
| C112 | the graph of a condition function is known (C31), and the mirror image of it is read off; a clique of one graph is mirrored to a clique of the other; for distances C52 in both directions, and a computed counterexample |
| C113 | every definition of the building code is shown to commute with the change of unit, so the same object results |
| C114 | the edges made by `efr_condition` are characterised exactly by the two positions where `binary_find2` stops, and that position is shown to be monotone in the value searched, by running two searches side by side; so the edge sets are nested, and C10 compares the answers |
| C115 | from the exactness of the searches (C10, C36) and of the listing (C20): a clique of the smaller graph is one of the larger; a witness for the listing |
| C116 | the links of the build are a relation of the two pairs, their distances and the (fixed) sorted distances of the second set, so leaving out elements of the first set keeps the links of the others; then as in C114; witness for the second set |
| C117 | the same with a permutation and its inverse, for a symmetric distance; for both sets through C52, which says that right answers are largest; witness for the second set |
| C118 | complete searches from C10 and C36, because an extension would be larger; for the heuristic alone the greedy loop, which drops a candidate only if it is not adjacent to a vertex it took, so that only vertices before the root can be missing; witness |
| C119 | from C10 and C36: without the changed vertex the old answer is a clique of the new graph; for correspondences the old one restricted to the elements that are left, counted by a pigeonhole argument (`Lemmas/Lost`); witness |
| C120 | from C52 and C33: a match joined to all matches returned would make a longer matching (`no_more`); witness |
| C121 | from C10: a clique is inside one part, or two cliques join to one (`join_clique`) |
| C68 | images of cliques under a renumbering, C10, C20; counterexample run |
| C48 C49 C50 C51 | weighted API histories (`wruns`), heuristic bound; for C49 also the invariant that the record is at most the weight of the stored clique, a lower bound used, or the stored clique reaches a threshold iterated over (`EXHeld`); counterexample runs |

## 4. Trusted base

* Lean 4.33.0's kernel.  Axioms used: `propext`, `Classical.choice`, `Quot.sound` and no others
  (`decide +kernel` is evaluated by the kernel; no `native_decide`, no `bv_decide`).
* The reading of the C++ text into the Lean definitions of `Model/*` (each cites its lines),
  with the simplifications of section 2.
* 64-bit `size_t`/`u64`, flat address space.
* pybind11: overloads are tried in order of registration, first without conversions; which arrays
  are accepted as a mutable `Eigen::Ref` (C77 only).
* Mathlib's definitions used in statements: `SimpleGraph`, `Finset`, `List.Perm`, `Rat` order.

## 5. Where the code disagrees with the property

Each is a theorem about the model; the witness is in its statement.

1. C06/C70: `from_edgelist` sets `n_edges` to the number of rows and `from_matrix` to half the
   number of marked cells, so duplicates or asymmetric matrices give a wrong `n_edges`;
   `to_edgelist` then leaves rows uninitialised or writes out of bounds
   (`C06_refuted_edgelist`, `C06_refuted_matrix`, `C70_refuted`; exactly then:
   `C06_edgelist_exactly`, `C06_matrix_exactly`).
2. C08: a file row with vertex id 0 is accepted and joins the sentinel vertex (`C08_refuted`).
   C44: an empty file, a header without rows and a wrapped edge count are undefined behaviour
   (`C44_refuted`).  With a well-formed header and first row any file is loaded
   (`C44_garbage_partial`).
3. C22/C51: a search on a graph without edges accesses memory out of bounds; if the
   constructor's `resize` moves `edge_bits`, all vertices keep pointers into the freed buffer;
   an iterator that is dropped half way leaves its scratch space allocated, and enough of them
   overrun the buffer, as do loops over cliques nested deeply enough (`C22_refuted_*`, `C51_refuted_*`).  The first two always fault and are
   the only loaded graphs whose searches do (`C22_searchable`, `C51_searchable`); whether the
   buffer moves depends on the degrees and on the capacity `cap` of the vector
   (`C22_usable_edgelist` and so on).  The standard leaves the growth of vectors to the library; for GNU's
   libstdc++ it is in `Model/Capacity`: a single edge on at most five vertices given to
   `from_edgelist` and the file of a triangle cannot be searched (`C22_libstdcxx_one_edge`,
   `C22_libstdcxx_complete_file`), symmetric matrices with degrees below 64 can
   (`C22_libstdcxx_matrix`).
4. C12/C59: `upper_bound` stops the search once a clique of that size was found; the result can be
   larger (`C12_refuted`, `C59_refuted`).
5. C15/C16: a timed search interrupted inside a vertex has already overwritten that vertex's
   bound, so continuing it (or resetting and searching again) can miss the maximum, while
   `search_done` is true (`C15_refuted`, `C16_refuted_timed`).  C16/C50: a small `upper_bound`
   lowers a limit that no later call restores, not even `reset_search` (`C16_refuted`,
   `C50_refuted`).
6. C18/C49: the enumerator overwrites the stored clique, so iterating after a search changes
   what the next search returns (`C18_refuted`, `C49_refuted`).
7. C20/C46: the enumerator skips vertex 1 as a root: cliques whose first vertex in
   (degree, id) order is vertex 1 are not reported (`C20_refuted`, `C46_refuted_first_vertex`).
   The weighted enumerator does not extend a clique that is heavy enough already, and never
   reports single vertices (`C46_refuted_extension`, `C46_refuted_single`).
   By the same skip, how many cliques are reported depends on the numbering (`C68_refuted`).
8. C24/C62: two iterators on one object disturb each other (`C24_refuted`, `C62_refuted`).
   A search with a time limit that runs while an iterator is held can overrun the buffer
   (`C22_refuted_timed`).
9. C30: the distance window is found by binary search for its ends; when an end is absent, the
   nearest distance outside the window is included (`C30_refuted`).
10. C31: `build_edges_condition_only` links the swapped assignment without asking the condition
    (`C31_refuted`).
11. C42: a second set with one element has an empty distance list, whose last element is read
    at index 2^64-1 (`C42_refuted`).
12. C43: `load_graph` on a used object keeps `search_done` and the start vertex of a continued
    search (`C43_refuted`).
13. C34: the weighted `from_adjlist` requires `n` weights and reads `n + 1`
    (`C34_refuted_adjlist`).
14. C36: the default bounds of the weighted search exclude cliques of weight at most 1 or above
    65535, an isolated vertex is never an answer, and negative weights make the bound of a vertex
    smaller than the weight of a clique in it (`C36_refuted_*`).
15. C48: the weighted heuristic compares a candidate count with a weight, and reads the
    neighbour after the one it means; two heuristic-only calls can return first a heavier and
    then a lighter clique (`C48_refuted`).
16. C37/C63: `reset_search()` and `_vertex_neighbors(0)` on an unloaded object dereference a null
    pointer (`C37_refuted`, `C63_refuted`).
17. C38: `repr` prints the negation of `search_done` (`C38_refuted`).
18. C39: a time limit shorter than the work on one vertex makes the documented loop repeat for
    ever (`C39_refuted`).
19. C53: by 7, `all_correspondences` misses those that match the two first elements with each
    other (`C53_refuted`).
20. C55: the constructors and `build_edges` look at `d2` only if `d1` is given
    (`C55_refuted`).
21. C57: `IsoGraph._format_correspondence` has `v2 = set(indices[0])`, so neighbours in the second
    graph are compared with vertices of the first: neighbours are lost, or `KeyError` is raised
    (`C57_dicts_refuted`).
22. C58: `rot_con.cast<u64>()` on negative coordinates is undefined, and coordinates in (-1, 0)
    are counted as pixel 0 (`C58_refuted`, for all inputs `C58_beside_partial`, `C58_outside_undefined`).
23. C36/C45/C46: the searches add and subtract weights in different orders, so with weights whose
    sums round, a reported clique can be lighter than the threshold, a clique of the threshold's
    weight can be missed, and the heaviest clique can be missed (`C45_refuted_rounding`,
    `C46_refuted_rounding`, `C36_refuted_rounding`, with weights like 0.1 and 0.7).
24. C29/C52: the window around a distance `x` is computed as `x - ε` and `(x - ε) + 2ε`
    (ext_template.hpp).  If `ε` is lost in rounding it is the single number `x`, and
    `binary_find2` then finds only one of several equal distances (`C29_refuted_rounding`,
    `C52_refuted_rounding`: three points at distance 2^60 matched with themselves, ε = 1).
25. C74: `AlignGraph` computes `V D Uᵀ` from `V, s, U = np.linalg.svd(X)` (aligngraph.py:130-137),
    but numpy's third result is the transpose already, so the reported rotation is in general not
    the one that fits (`C74_refuted`: points that a rotation moves onto each other exactly).
26. C75: with percentage 0 the Python filter refuses pairs of points that no similarity moves onto
    each other, the C++ filter accepts them (`C75_refuted`).
27. C76: `from_edgelist` reads two columns of its array without checking that there are two
    (pygraph.cpp:142-146); an array of shape `(n, 1)` is read beyond its end (`C76_refuted`).
28. C77: the builders of all classes share one name (wrap_template.hpp, core.cpp:22-25) and pybind11
    chooses by the arguments: arrays that are not accepted as `Eigen::Ref` (transposed, read-only,
    or integers given to `AlignGraph`, which does not convert) are taken for lists and the default
    distance raises (`C77_refuted_arrays`); `L2LGraph` with two matrices uses the Euclidean
    distance (`C77_refuted_lists`).
29. C78: `IsoGraph.all_correspondences` calls `len()` on a `Graph`, which has no `__len__`
    (`C78_refuted`).
30. C79: the reader does not check that both numbers of a row could be read (mmio.cpp), so the end
    of a file that was cut off can be read as an edge that the graph does not have, or leads to a
    variable that was never assigned (`C79_refuted`).
31. C80: `build_edges()` frees the graph whose memory the states of an iterator point to, and the
    iterator does not notice (`C80_refuted`).  Whenever the iterator has given a clique (`k ≥ 2`), has
    not ended and the sets are not smaller, the next question is undefined behaviour
    (`C80_asked_undefined`).
32. C81: numpy truncates floating-point numbers silently (`forcecast`, core.h:25-28), so
    `from_edgelist([[1.5, 2.9]], 2)` loads an edge (`C81_refuted`).
33. C82: `ALL_ONES << (64 - (n_bits & 63))` (gbits.h:98) shifts by 64 if a vertex has 63, 127, ...
    neighbours (`C82_refuted`).
34. C83: with a NaN among the weights, or infinite weights of both signs, `std::sort` is called with
    a comparison that is not a strict weak order (`C83_refuted`, `C83_refuted_infinite`).
35. C84: control points with one or three columns, and points with one, are not refused; memory
    outside the arrays is used (`C84_other_columns`, `C84_refuted`).
36. C85/C86: `get_max_clique` raises the record to `lower_bound` and lowers the limit to `upper_bound`
    (pygraph.cpp:55-59) and leaves them there, so a call with a bound that is too large or too small
    spoils the ones after it (`C85_refuted_lower`, `C85_refuted_upper`, `C86_refuted_lower`,
    `C86_refuted_upper`).
37. C87: for distance functions declared asymmetric an edge is found, and counted, from both of its
    directions (ext_template.hpp:46-50, 84-163), so `n_edges` is too large and `to_edgelist()` ends
    in rows that are not initialised (`C87_refuted`).
38. C88: if exactly one distance function is declared symmetric, the condition function is asked twice
    about the same elements (ext_template.hpp:121-159; `C88_refuted`).
39. C89: a search of the object by a distance function, while `build_edges()` runs, leaves
    `search_done` set for the new graph (`C89_refuted`; as in 12).
40. C90: `get_correspondence()` reads the pairs off with the size `S2` has at that time, not the one the
    graph was built with (_gen_graph.py:129-131): wrong pairs, indices out of range, division by
    zero (`C90_refuted`, `C90_emptied`).  `all_correspondences()` does the same with the size at the time
    of that call (`C90_refuted_iterator`).
41. C91: loops over correspondences nested too deeply run out of scratch memory, as in 3
    (`C91_refuted_nested`).
42. C92: the number printed leaves out the cliques that C20 is about (`C92_refuted_count`: a triangle
    is said to have one clique of two vertices); if the time runs out before a clique of two
    vertices was found, `0` is printed as a clique (`C92_refuted_clock`).
43. C93: the number printed leaves out the cliques first at vertex 1, in the order by degree
    (`C93_refuted`: a triangle is said to have one clique of weight two); for a graph without
    triangles it is not the number of single vertices (`C93_refuted_pair`).
44. C99: the vector `weights` of the weighted searches and iterators is reserved but never given
    elements, and then used with `weights[i]`, beyond its size (nw_dfs.cpp:12, 35, 47, 59,
    nw_enumerate.cpp:42, 54, 80).  With containers that check indices (`-D_GLIBCXX_ASSERTIONS`) every search
    for a clique is stopped (`C99_refuted`, `C99_stopped`).  Without them the memory is there, and
    what it contained does not matter (C98); all other properties of weighted graphs assume that.
45. C101: the exact searches and the iterators read `cur_state` after `states.pop_back()` has destroyed
    it (dfs_stack.cpp:186-191, enumerate.cpp:215-220, nw_dfs.cpp:173-179, nw_enumerate.cpp:196-202).  By the
    C++ standard, and in a build with container annotations of the address sanitizer, this is an
    error: every complete iteration that yields a clique of two or more vertices
    (`C101_iteration_undefined`, `C101_weighted_undefined`) and most searches without the heuristic
    (`C101_search_undefined`, `C101_refuted`).  Today's compilers leave the element in memory, and all other
    properties assume that.
46. C102: NaN is accepted as a bound of `NWGraph.get_max_clique`, where it means no bound
    (`C102_nan_bounds`), and as a weight of `NWGraph.all_cliques`, which then yields nothing
    (`C102_nan_weight`); `None` and numbers are accepted as flags (`C102_refuted`).
47. C103: an object whose `upper_bound` was once smaller than the number of neighbours of some vertex
    reserves too little for `states` and `to_remove` (dfs_stack.cpp:28-29), so `push_back` requests memory in
    the middle of a search.  If that is refused, `MemoryError` is raised and the scratch space of the search
    is never given back; after a few such calls an ordinary search writes beyond the buffer (`C103_refuted`),
    and an iterator that goes on afterwards yields cliques of a wrong size (`C103_refuted_size`).  A
    `__next__` that finds a clique but cannot build the list loses it (`C103_refuted_lost`).  After
    `MemoryError`, `search_done` keeps the value of the search before.
48. C104: `load_graph` assigns `nvert` and `nedges` before it makes the graph (pygraph.cpp:26-29).  If the
    constructor runs out of memory, the object has the old graph with the new numbers.  If the new graph would
    have had more vertices, every listing of cliques reads beyond the vertices (`C104_refuted`); if
    fewer, cliques are lost (`C104_refuted_fewer`); if none, the object counts as not initialized
    (`C104_refuted_empty`).  `to_edgelist()` writes beyond its array or leaves rows unwritten
    (`C104_export`).  A first build that fails makes `_vertex_neighbors` follow a null pointer
    (`C104_refuted_first`).
49. C105: a weighted search chooses candidates by the weights of neighbourhoods (nw_dfs.cpp), but
    reserves `to_remove` by the largest number of candidates by degree.  In graphs where these differ by more
    than two, `push_back` requests memory in the middle of an ordinary search; if that is refused the
    scratch space is not given back, and after nine such calls an ordinary search runs out of the
    memory of the object (`C105_refuted`).
50. C106: an iterator of `NWGraph` that finds a clique and has no memory for the list to return loses it
    (`C106_refuted_lost`).  If `to_remove` must grow (49) and cannot, the candidate in hand is already
    taken out, and all cliques with it are lost (`C106_refuted_many`).  No more than that is lost
    (`C106_loss`).
51. C107: `to_file` does not look at the stream after opening it: on a full disk it returns, and
    `from_file` may load what is there (`C107_refuted_every`, `C107_refuted`).
52. C108: docs/source/user.rst:70-72 says that a search with neither heuristic nor depth-first search
    raises a `RuntimeError`: it returns what was found before, or one vertex (`C108_refuted`), and leaves
    its bounds behind (`C108_refuted_after`).
53. C109: docs/source/how.rst:16-21 says that a search method makes one request for memory when it starts
    and none while it searches: the exact search makes two (`C109_refuted`; the weighted one three), with a
    small `upper_bound` the vectors grow during the search (`C109_refuted_bound`), and in some weighted
    graphs always (`C109_refuted_weighted`).
54. C111: the heuristic of weighted searches compares the number of candidates with the weight found
    (nw_heuristic.cpp:70), so the same graph in grams instead of kilograms gives another clique, with
    the depth-first search after it too (`C111_refuted_heuristic`); the default bounds are the numbers 1
    and 65535 in any unit (`C111_refuted_default`).
55. C112: `build_edges` matches A with B better than B with A, or worse, when it links pairs whose
    distances do not agree (9): points 0, 1, 5 and points 0, 3, 7 of a line (`C112_refuted`).
56. C115: `all_cliques(3)` lists the triangle 1, 2, 3 of a graph and does not when three edges are added
    (`C115_refuted`, because of the loss of vertex 1 in C20).
57. C116: two of the points 0, 1, 2 match points of 0, 2, 4, 8 with tolerance 1, and three when the point
    8 is left out (`C116_refuted`, because of the wrong links of C30).
58. C117: three of the points 0, 1, 2 match points of 0, 1, 3, 6 with tolerance 1, and two if the latter
    are listed as 6, 1, 3, 0 (`C117_refuted`, because of the wrong links of C30).
59. C118: on the graph with edges 1-3, 1-4, 1-5, 2-3, 2-4, 3-5, 3-6 and 4-6 the heuristic alone returns
    vertices 1 and 3, and vertex 5 is adjacent to both; on a graph with one edge it returns one of its
    ends (`C118_refuted`).  The same with weights (`C118_refuted_weighted`,
    `C118_refuted_double`).  Complete weighted searches leave out vertices of weight 0 that could be
    added (`C118_refuted_zero`).
60. C119: of the points 6, 4, 5, 3 and 8, 3, 0, 8, 5 of a line four are matched with tolerance 2; with
    the last one left out only two are, because pairs that are too far apart are linked or not
    depending on the other distances (`C119_refuted`; compare C30 and C116).
61. C120: of three points at distance 2^60 of each other, matched with themselves with tolerance 1, only
    two are matched, and elements 2 and 1 could be added (`C120_refuted_rounding`; the tolerance is
    lost in rounding, as in C52).

## 6. Tests of the theorems

`seeded/LOG.jsonl` records edits of the model in a scratch copy, one per line: the definition
edited, the edit, the claim it breaks, the theorems that failed to build, the property theorems
that depend on those, and what was tightened.

`Props/RepoTests.lean` puts the literal inputs of the repository's own tests through the model and
finds the outputs those tests expect.  It is evidence for the reading of the code, not a proof.
