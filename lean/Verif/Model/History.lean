import Verif.Spec
import Verif.Model.Api

/-!
# Uses of a `Graph` object: how it is created, and what is called on it

`Loaded` and `Op` describe the client of the library: which objects exist and which
sequences of calls are made on one object.
-/

namespace CM

open Spec

namespace PyGraph

/-- `list(G.all_cliques(k))` (core/pyiterator.h:21-27, pyiterator.cpp:8-18).  The number of
`__next__` calls allowed to the loop, `n_vert * 2^max_degree + 1`, only makes the definition
total; using more is the outcome `fuel`. -/
def listCliques (pg : PyGraph) (k : Nat) : M (PyGraph × List (List Nat)) := do
  let E ← pg.allCliques k
  match pg.G with
  | none => .error .ub
  | some G => do
    let (pg, _, cs) ← pg.consume (G.nVert * 2 ^ G.maxDeg + 1) E
    .ok (pg, cs)

end PyGraph

/-- The objects a loader can return, with the number of vertices and the graph they stand
for.  The bounds on sizes keep the 32-bit vertex ids and 64-bit buffer indices of the
library (vertex.h, graph.h) from wrapping; `argLR` is the compiler's choice of argument
evaluation order and `cap` its allocator's choice of buffer capacity. -/
inductive Loaded : PyGraph → Nat → SimpleGraph Nat → Prop
  /-- `Graph.from_edgelist(rows, n)` -/
  | edgelist {argLR : Bool} {cap : Nat} {rows : List (Nat × Nat)} {n : Nat} {pg : PyGraph} :
      n < 2 ^ 31 → rows.length < 2 ^ 56 → PyGraph.fromEdgelist argLR cap rows n = .ok pg →
      Loaded pg n (ofPairs rows)
  /-- `Graph.from_matrix(A)` for an `n × n` array -/
  | matrix {argLR : Bool} {cap : Nat} {n : Nat} {A : Nat → Nat → Bool} {pg : PyGraph} :
      n < 2 ^ 28 → PyGraph.fromMatrix argLR cap n n A = .ok pg → Loaded pg n (ofMatrix n A)
  /-- `Graph.from_adjlist(n, m, sets)` -/
  | adjlist {argLR : Bool} {cap : Nat} {n m : Nat} {sets : List (List Nat)} {pg : PyGraph} :
      n < 2 ^ 31 → sets.length < 2 ^ 64 → (sets.map List.length).sum < 2 ^ 57 →
      PyGraph.fromAdjList argLR cap n m sets = .ok pg → Loaded pg n (ofSets sets)
  /-- any other loader: all of them pass an edge array to `pygraph::load_graph` on a new
  object (pygraph.cpp:23-30).  Model/Corr.lean and Model/File.lean have those loaders. -/
  | built {argLR : Bool} {cap : Nat} {n m : Nat} {edges : Edges} {pg : PyGraph}
      {S : SimpleGraph Nat} :
      n < 2 ^ 31 → edges.length < 2 ^ 58 → Describes edges n S →
      PyGraph.loadGraph argLR cap PyGraph.new n m edges = .ok pg → Loaded pg n S

/-- The constructor's final `resize` of the bit buffer did not move the buffer
(graph.cpp:131-138; when it does, the vertices keep pointers into the freed one). -/
def BufferKept (pg : PyGraph) : Prop := ∀ G, pg.G = some G → G.dangling = false

/-- A loaded object whose buffer stayed in place, for a graph with at least one edge. (What the
loaders of core/pygraph.cpp:113-233 return.) -/
structure Usable (pg : PyGraph) (n : Nat) (S : SimpleGraph Nat) : Prop where
  loaded : Loaded pg n S
  kept : BufferKept pg
  edge : ∃ u v, S.Adj u v

/-- A call that may change a graph object.  `search` carries the sorting function used by
the heuristic: `std::sort` with a comparator is only specified up to the order of
elements that compare equal (heuristic.cpp:78-79). -/
inductive Op where
  | search (srt : List Graph.VData → List Graph.VData) (a : PyGraph.Args)
  | reset
  | list (k : Nat)

namespace Op

/-- The state after the call. (core/pygraph.cpp:38-68, core/pyiterator.cpp:8-18.) -/
def run (pg : PyGraph) : Op → M PyGraph
  | search srt a => do
    let (pg, _) ← pg.getMaxClique srt a
    .ok pg
  | reset => pg.resetSearch
  | list k => do
    let (pg, _) ← pg.listCliques k
    .ok pg

/-- The sorting function sorts: its result is a permutation of its input. (The `std::sort` of
detail/graph/heuristic.cpp:78.) -/
def Legal : Op → Prop
  | search srt _ => ∀ l, (srt l).Perm l
  | _ => True

/-- The call is not a search with `lower_bound = 0`. (A condition on the arguments of
core/wrap_pygraph.cpp:27-30.) -/
def Positive : Op → Prop
  | search _ a => 1 ≤ a.lowerBound
  | _ => True

/-- The call is a search. (The call is core/wrap_pygraph.cpp:27-30.) -/
def IsSearch : Op → Prop
  | search _ _ => True
  | _ => False

/-- The call, if it is a search, cannot be cut short: it has no time limit or one that never
expires, and no clique of the graph is larger than its `upper_bound`. (A condition on the arguments
of core/wrap_pygraph.cpp:27-30.) -/
def Exact (S : SimpleGraph Nat) (n : Nat) : Op → Prop
  | search _ a => (a.timeLimit = none ∨ a.timeLimit = some none) ∧
      ∀ l, IsCliqueList S n l → l.length ≤ a.upperBound
  | _ => True

end Op

/-- The state after a sequence of calls. (A client of core/wrap_pygraph.cpp:27-40; models no line of
/repo.) -/
def runs (ops : List Op) (pg : PyGraph) : M PyGraph := ops.foldlM Op.run pg

end CM
