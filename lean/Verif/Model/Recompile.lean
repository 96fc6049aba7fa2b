import Verif.Model.Nested
import Verif.Model.NWNested

/-!
# The same program on two machines

`Recompiled pg pg'`: the objects `pg` and `pg'` come from the same loading call, with the same
arguments, in two builds of the library.  `l`, `l'` are the argument evaluation orders of the two
compilers (dfs_stack.cpp:47-48, enumerate.cpp:45-46: two calls of `load_memory` are arguments of
one constructor call) and `c`, `c'` the capacities their allocators gave to the bit buffer.
-/

namespace CM

/-- The same loading call in two builds. (core/pygraph.cpp:23-30, 126-233.) -/
inductive Recompiled : PyGraph → PyGraph → Prop
  /-- `Graph.from_edgelist(rows, n)` (core/pygraph.cpp:126-165) -/
  | edgelist {l l' : Bool} {c c' n : Nat} {rows : List (Nat × Nat)} {pg pg' : PyGraph} :
      PyGraph.fromEdgelist l c rows n = .ok pg → PyGraph.fromEdgelist l' c' rows n = .ok pg' →
      Recompiled pg pg'
  /-- `Graph.from_matrix(A)` (core/pygraph.cpp:167-204) -/
  | matrix {l l' : Bool} {c c' n : Nat} {A : Nat → Nat → Bool} {pg pg' : PyGraph} :
      PyGraph.fromMatrix l c n n A = .ok pg → PyGraph.fromMatrix l' c' n n A = .ok pg' →
      Recompiled pg pg'
  /-- `Graph.from_adjlist(n, m, sets)` (core/pygraph.cpp:205-233) -/
  | adjlist {l l' : Bool} {c c' n m : Nat} {sets : List (List Nat)} {pg pg' : PyGraph} :
      PyGraph.fromAdjList l c n m sets = .ok pg → PyGraph.fromAdjList l' c' n m sets = .ok pg' →
      Recompiled pg pg'
  /-- any other loader: an edge array passed to `pygraph::load_graph` (core/pygraph.cpp:23-30) -/
  | built {l l' : Bool} {c c' n m : Nat} {edges : Edges} {pg pg' : PyGraph} :
      PyGraph.loadGraph l c PyGraph.new n m edges = .ok pg →
      PyGraph.loadGraph l' c' PyGraph.new n m edges = .ok pg' →
      Recompiled pg pg'

/-- The same loading call of a weighted graph in two builds (nw_dfs.cpp:31-32,
nw_enumerate.cpp:28-29 for the two `load_memory` calls). -/
inductive WRecompiled {R : Type} [Zero R] [Add R] [Sub R] [NatCast R] [LT R] [LE R] [DecidableLT R]
    [DecidableLE R] : PyNW R → PyNW R → Prop
  /-- `NWGraph.from_edgelist(rows, n, wts)` (core/pynwgraph.cpp:106-157) -/
  | edgelist {l l' : Bool} {c c' n : Nat} {rows : List (Nat × Nat)} {wts : List R}
      {pg pg' : PyNW R} :
      PyNW.fromEdgelist l c rows n wts = .ok pg → PyNW.fromEdgelist l' c' rows n wts = .ok pg' →
      WRecompiled pg pg'
  /-- `NWGraph.from_matrix(A, wts)` (core/pynwgraph.cpp:159-204) -/
  | matrix {l l' : Bool} {c c' n : Nat} {A : Nat → Nat → Bool} {wts : List R} {pg pg' : PyNW R} :
      PyNW.fromMatrix l c n n A wts = .ok pg → PyNW.fromMatrix l' c' n n A wts = .ok pg' →
      WRecompiled pg pg'
  /-- any other loader: an edge array and weights passed to `pynwgraph::load_graph`
  (core/pynwgraph.cpp:21-29) -/
  | built {l l' : Bool} {c c' n m : Nat} {edges : Edges} {wts : List R} {pg pg' : PyNW R} :
      PyNW.loadGraph l c PyNW.new n m edges wts = .ok pg →
      PyNW.loadGraph l' c' PyNW.new n m edges wts = .ok pg' →
      WRecompiled pg pg'

end CM
