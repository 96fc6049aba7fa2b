import Verif.Props.Dispatch
import Verif.Props.WeightedArith
import Verif.Props.File

/-!
# The assertions of the repository's own tests, on the model

No property is proved here.  The tests of /repo (tests/graph_test.py, tests/nwgraph_test.py,
tests/test_iso.py) contain literal inputs and literal expected outputs, and the project's
build runs them; each `example` below puts one of their inputs through the model and finds the
output that the test expects of the code.  This is evidence, independent of the proofs, that
the model computes what the code computes.

The three checks written `#guard` (two files with long comments, and a matcher with 25 vertices)
are run by Lean's interpreter, since the kernel needs too much memory for them; they fail the
build if they are false.

One test disagrees: nwgraph_test.py:83 expects `NWGraph.from_adjlist` to load a graph, and
in the model that call reads past the end of the weights (`C34_refuted_adjlist`), which a test
run does not notice.

The tests of the matchers with arrays (test_a2a.py, test_align.py, ...) draw their points at
random, so they have no literals to check.
-/

namespace CM.RepoTests

open CM CM.Sample

/-! ## tests/graph_test.py -/

/-- graph_test.py:48-50 `elist`. -/
def elist : List (Nat × Nat) := [(1, 2), (1, 3), (1, 4), (1, 5), (2, 4), (3, 5)]

/-- graph_test.py:31-36 `adjmat`, whose rows and columns count from 0. -/
def adjmat : List (List Bool) :=
  [[false, true, true, true, true], [true, false, false, true, false],
   [true, false, false, false, true], [true, true, false, false, false],
   [true, false, true, false, false]]

/-- graph_test.py:65-72 `adjlist`. -/
def adjlist : List (List Nat) := [[], [2, 3, 4, 5], [1, 4], [1, 5], [1, 2], [1, 3]]

/-- The matrix as the function that the loader reads. -/
def entry (A : List (List Bool)) (i j : Nat) : Bool := (A.getD i []).getD j false

/-- graph_test.py:37-41: five vertices, six edges, and the same matrix back. -/
example : (PyGraph.fromMatrix true 1000 5 5 (entry adjmat) >>= fun g => g.toMatrix >>= fun A =>
    .ok (g.nvert, g.nedges, A)) = .ok (5, 6, adjmat) := by decide +kernel

/-- graph_test.py:43-45: a matrix of five rows and four columns is refused. -/
example : (PyGraph.fromMatrix true 1000 5 4 (fun _ _ => false) >>= fun g => .ok g.nvert) =
    .error .throw := by decide +kernel

/-- graph_test.py:51-54: the same edge list back. -/
example : (PyGraph.fromEdgelist true 1000 elist 5 >>= fun g => g.toEdgelist >>= fun es =>
    .ok (g.nvert, g.nedges, es)) = .ok (5, 6, elist.map some) := by decide +kernel

/-- graph_test.py:56-62: an endpoint 0, and three vertices instead of five, are refused. -/
example : (PyGraph.fromEdgelist true 1000 ((0, 2) :: elist.tail) 5 >>= fun g => .ok g.nvert) =
      .error .throw ∧
    (PyGraph.fromEdgelist true 1000 elist 3 >>= fun g => .ok g.nvert) = .error .throw := by
  decide +kernel

/-- graph_test.py:73-76: the same adjacency list back. -/
example : (PyGraph.fromAdjList true 1000 5 6 adjlist >>= fun g => g.toAdjList >>= fun l =>
    .ok (g.nvert, g.nedges, l)) = .ok (5, 6, adjlist) := by decide +kernel

/-- graph_test.py:78-88: wrong counts, a missing set for 0 and a loop are refused. -/
example : (PyGraph.fromAdjList true 1000 4 6 adjlist >>= fun g => .ok g.nvert) = .error .throw ∧
    (PyGraph.fromAdjList true 1000 5 7 adjlist >>= fun g => .ok g.nvert) = .error .throw ∧
    (PyGraph.fromAdjList true 1000 4 6 adjlist.tail >>= fun g => .ok g.nvert) = .error .throw ∧
    (PyGraph.fromAdjList true 1000 5 6 ([] :: [1, 2, 3, 4, 5] :: adjlist.drop 2) >>=
      fun g => .ok g.nvert) = .error .throw := by decide +kernel

/-- tests/sample_read1.mtx. -/
def sampleRead1 : String :=
"% sample created for cliquematch package
% similar to Matrix Market format for undirected unweighted graphs
%
% -------------------------------------
% Python sample
% 
% import cliquematch
% G = cliquematch.Graph.from_file(\"sample_read1.mtx\")
% print(repr(G))
%--------------------------------------
%
%
5 5 6
1 2
1 3
1 4
1 5
2 4
3 5
"

/-- tests/sample_read2.mtx, with a column of weights. -/
def sampleRead2 : String :=
"% sample created for cliquematch package
% similar to Matrix Market format for undirected weighted graphs
%
% NOTE: the weights are not stored in the graph.
% The weights are ignored while reading the file.
%
% -------------------------------------
% Python sample
% 
% import cliquematch
% G = cliquematch.Graph.from_file(\"sample_read2.mtx\")
% print(repr(G))
%--------------------------------------
%
%
5 5 6
1 2 0.271
1 3 0.314
1 4 0.42
1 5 0.999
2 4 0.151
3 5 0.001
"

-- graph_test.py:91-101: `from_file` of the first file.
#guard (PyGraph.fromFile true 1000 true sampleRead1.toList >>= fun g =>
    g.toAdjList >>= fun l => .ok (g.nvert, g.nedges, l)) = .ok (5, 6, adjlist)

-- graph_test.py:103-113: `from_file` of the second file.
#guard (PyGraph.fromFile true 1000 true sampleRead2.toList >>= fun g =>
    g.toAdjList >>= fun l => .ok (g.nvert, g.nedges, l)) = .ok (5, 6, adjlist)

/-- graph_test.py:116-134 `edges`, used by the remaining tests. -/
def edges8 : List (Nat × Nat) :=
  [(2, 3), (1, 3), (1, 4), (1, 5), (1, 6), (1, 7), (4, 5), (4, 6), (4, 7), (5, 6), (5, 7),
   (6, 7), (2, 8), (3, 8)]

/-- The graph with those edges. -/
def eight : PyGraph := get PyGraph.new (PyGraph.fromEdgelist true 1000 edges8 8)

/-- graph_test.py:176-177. -/
example : (eight.getMaxClique byDegree { useHeuristic := false, useDfs := true } >>=
    fun x => .ok x.2) = .ok (.ret [1, 4, 5, 6, 7]) := by decide +kernel

/-- graph_test.py:201-209: too high a lower bound raises, and after `reset_search` the same
object finds the clique. -/
example : (eight.getMaxClique byDegree
      { lowerBound := 6, upperBound := 32, useHeuristic := false, useDfs := true } >>= fun x =>
    x.1.resetSearch >>= fun g => g.getMaxClique byDegree
      { lowerBound := 1, upperBound := 32, useHeuristic := false, useDfs := true } >>= fun y =>
    .ok (x.2, y.2)) = .ok (.raise, .ret [1, 4, 5, 6, 7]) := by decide +kernel

/-- graph_test.py:233-243: after a search, eight cliques of one vertex, one of two vertices
for each edge, and five of four vertices, all inside the largest clique. -/
example : (eight.getMaxClique byDegree { useHeuristic := false, useDfs := true } >>= fun x =>
    x.1.listCliques 1 >>= fun c1 => c1.1.listCliques 2 >>= fun c2 =>
    c2.1.listCliques 4 >>= fun c4 =>
    .ok (c1.2.length == eight.nvert, c2.2.length == eight.nedges, c4.2.length,
      c4.2.all fun c => c.all fun v => [1, 4, 5, 6, 7].contains v)) =
    .ok (true, true, 5, true) := by decide +kernel

/-! ## tests/nwgraph_test.py -/

/-- `np.full((n,), q, dtype=np.float64)`. -/
def full (n : Nat) (q : Rat) : List Dbl := List.replicate n (Dbl.round q)

/-- nwgraph_test.py:39-50: the matrix back; the refusals. -/
example : (PyNW.fromMatrix true 1000 5 5 (entry adjmat) (full 5 1) >>= fun g =>
      g.toMatrix >>= fun A => .ok (g.nvert, g.nedges, A)) = .ok (5, 6, adjmat) ∧
    (PyNW.fromMatrix true 1000 5 4 (fun _ _ => false) (full 5 1) >>= fun g => .ok g.nvert) =
      .error .throw ∧
    (PyNW.fromMatrix true 1000 5 5 (entry adjmat) (full 4 1) >>= fun g => .ok g.nvert) =
      .error .throw := by decide +kernel

/-- nwgraph_test.py:57-71: the edge list back; the refusals. -/
example : (PyNW.fromEdgelist true 1000 elist 5 (full 5 1) >>= fun g =>
      g.toEdgelist >>= fun es => .ok (g.nvert, g.nedges, es)) = .ok (5, 6, elist.map some) ∧
    (PyNW.fromEdgelist true 1000 ((0, 2) :: elist.tail) 5 (full 5 1) >>=
      fun g => .ok g.nvert) = .error .throw ∧
    (PyNW.fromEdgelist true 1000 elist 3 (full 5 1) >>= fun g => .ok g.nvert) = .error .throw ∧
    (PyNW.fromEdgelist true 1000 elist 5 (full 4 1) >>= fun g => .ok g.nvert) =
      .error .throw := by decide +kernel

/-- nwgraph_test.py:88-102: the refusals. -/
example : (PyNW.fromAdjList true 1000 4 6 adjlist (full 5 (27 / 10)) >>= fun g => .ok g.nvert) =
      .error .throw ∧
    (PyNW.fromAdjList true 1000 5 7 adjlist (full 5 (27 / 10)) >>= fun g => .ok g.nvert) =
      .error .throw ∧
    (PyNW.fromAdjList true 1000 5 6 adjlist (full 4 (27 / 10)) >>= fun g => .ok g.nvert) =
      .error .throw ∧
    (PyNW.fromAdjList true 1000 4 6 adjlist.tail (full 5 (27 / 10)) >>= fun g => .ok g.nvert) =
      .error .throw ∧
    (PyNW.fromAdjList true 1000 5 6 ([] :: [1, 2, 3, 4, 5] :: adjlist.drop 2)
      (full 5 (27 / 10)) >>= fun g => .ok g.nvert) = .error .throw := by decide +kernel

/-- nwgraph_test.py:83: the call that should load is undefined behaviour. -/
example : (PyNW.fromAdjList true 1000 5 6 adjlist (full 5 (27 / 10)) >>= fun g => .ok g.nvert) =
    .error .ub := by decide +kernel

/-- The graph of eight vertices, each of weight `q`. -/
def heavy (q : Rat) : PyNW Dbl :=
  get PyNW.new (PyNW.fromEdgelist true 1000 edges8 8 (full 8 q))

/-- nwgraph_test.py:144 `_get_vertex_weights`. -/
example : ((heavy (31 / 10)).getAllWeights) = .ok (full 8 (31 / 10)) := by decide +kernel

/-- nwgraph_test.py:169-171: the heaviest clique, and its weight, five times 3.1 in double
arithmetic, which is the double of the literal 15.5. -/
example : ((heavy (31 / 10)).getMaxClique (fun l => l) (fun _ => Dbl.nan)
      { useHeuristic := false, useDfs := true } >>= fun x =>
    x.1.getCliqueWeight [1, 4, 5, 6, 7] >>= fun w => .ok (x.2, w)) =
    .ok (.ret [1, 4, 5, 6, 7], Dbl.round (155 / 10)) := by decide +kernel

/-- nwgraph_test.py:196-204. -/
example : ((heavy (11 / 10)).getMaxClique (fun l => l) (fun _ => Dbl.nan)
      { lowerBound := 6, upperBound := 32, useHeuristic := false, useDfs := true } >>= fun x =>
    x.1.resetSearch >>= fun g => g.getMaxClique (fun l => l) (fun _ => Dbl.nan)
      { lowerBound := 1, upperBound := 32, useHeuristic := false, useDfs := true } >>= fun y =>
    .ok (x.2, y.2)) = .ok (.raise, .ret [1, 4, 5, 6, 7]) := by decide +kernel

/-- nwgraph_test.py:229-238: the cliques of weight 0.2 and of weight 0.4 when every vertex
has weight 0.1. -/
example : ((heavy (1 / 10)).getMaxClique (fun l => l) (fun _ => Dbl.nan)
      { lowerBound := 0, useHeuristic := false, useDfs := true } >>= fun x =>
    x.1.listCliques (fun _ => Dbl.nan) (Dbl.round (2 / 10)) >>= fun c2 =>
    c2.1.listCliques (fun _ => Dbl.nan) (Dbl.round (4 / 10)) >>= fun c4 =>
    .ok (x.2, c2.2.length == (heavy (1 / 10)).nedges, c4.2.length,
      c4.2.all fun c => c.all fun v => [1, 4, 5, 6, 7].contains v)) =
    .ok (.ret [1, 4, 5, 6, 7], true, 5, true) := by decide +kernel

/-! ## tests/test_iso.py -/

/-- tests/sample_read1a.mtx, which is tests/sample_read1.mtx. -/
def isoA : PyGraph := get PyGraph.new (PyGraph.fromFile true 1000 true sampleRead1.toList)

/-- tests/sample_read1b.mtx without its comments. -/
def isoB : PyGraph :=
  get PyGraph.new (PyGraph.fromFile true 1000 true
    "5 5 5\n2 3\n2 5\n2 1\n3 5\n4 1\n".toList)

/-- `IsoGraph(S1, S2)` after `build_edges()`. -/
def isoG : PyGraph := get PyGraph.new (buildIso true 10000 PyGraph.new isoA isoB)

-- test_iso.py:42-44: the correspondence found with the default arguments.
#guard (isoCorrespondence byDegree isoG isoB {} >>= fun r => .ok r.2) =
    .ok (.ret ([1, 2, 3, 4, 5], [2, 1, 3, 4, 5]))

end CM.RepoTests
