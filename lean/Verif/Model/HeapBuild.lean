import Verif.Model.Heap
import Verif.Model.Corr

/-!
# Building a correspondence graph when memory runs out

`build_edges` computes the edges and then calls `load_graph`, which assigns `nvert` and `nedges` before it
makes the new graph (pygraph.cpp:23-30).  Requests for memory are made in both parts.
-/

namespace CM

variable {D : Type} [LinearOrder D] [Inhabited D]

/-- Which request for memory is refused: none, one while the edges are computed, or one while the graph
is made of them. (The vectors of templates/ext_template.hpp:20-243 and ext/Isograph.cpp:14;
`make_shared` in pygraph.cpp:28 with the vectors of detail/graph/graph.cpp:26-139.) -/
inductive BuildMem where
  | enough
  | noEdges
  | noGraph
  deriving DecidableEq, Repr

/-- pygraph.cpp:23-30 `load_graph`; `granted` is false if a request of the constructor is refused,
which then leaves no graph. -/
def PyGraph.loadGraphA (argLR : Bool) (cap : Nat) (granted : Bool) (pg : PyGraph) (n m : Nat)
    (edges : Edges) : M (PyGraph × HeapRes Unit) :=
  if granted then do
    let pg ← PyGraph.loadGraph argLR cap pg n m edges
    .ok (pg, .ret ())
  else .ok ({ pg with nvert := n, nedges := m }, .noMemory)

/-- The calls that build a correspondence graph, with their arguments: ext_template.hpp:165-185
`build_edges_metric_only`, 187-243 `build_edges_condition_only`, 245-271 `build_edges`, and
ext/Isograph.cpp:7-20 `build_edges_for_iso`. -/
inductive Build (D : Type) where
  | metric (srt1 srt2 : List (PairDist D) → List (PairDist D)) (M N : Nat) (w : Window D)
      (d1 : Nat → Nat → D) (sym1 : Bool) (d2 : Nat → Nat → D) (sym2 : Bool)
  | condition (M N : Nat) (c : Nat → Nat → Nat → Nat → Bool)
  | both (srt1 srt2 : List (PairDist D) → List (PairDist D)) (M N : Nat) (w : Window D)
      (c : Nat → Nat → Nat → Nat → Bool) (d1 : Nat → Nat → D) (sym1 : Bool) (d2 : Nat → Nat → D)
      (sym2 : Bool)
  | iso (pg1 pg2 : PyGraph)

/-- The same calls with enough memory, as in `Model/Corr`. (As above.) -/
def Build.plain (argLR : Bool) (cap : Nat) (pg : PyGraph) : Build D → M PyGraph
  | metric srt1 srt2 M N w d1 sym1 d2 sym2 =>
    buildMetric argLR cap pg srt1 srt2 M N w d1 sym1 d2 sym2
  | condition M N c => buildCondition argLR cap pg M N c
  | both srt1 srt2 M N w c d1 sym1 d2 sym2 =>
    buildBoth argLR cap pg srt1 srt2 M N w c d1 sym1 d2 sym2
  | iso pg1 pg2 => buildIso argLR cap pg pg1 pg2

/-- What is passed to `load_graph`: the number of vertices, the number of edges and the edges.
(ext_template.hpp:176-182, 198-241, 259-269, Isograph.cpp:10-17.) -/
def Build.edges : Build D → CM.M (Nat × Nat × Edges)
  | metric srt1 srt2 M N w d1 sym1 d2 sym2 => do
    let ps1 ← fillDists srt1 M sym1 d1
    let ps2 ← fillDists srt2 N sym2 d2
    edgesFromRelsets M N sym1 sym2 ps1 ps2 w
  | condition M N c => do
    let n := umul M N
    let (edges, m) ← forRange 0 M (fun i1 s =>
      forRange (i1 + 1) M (fun i2 s =>
        forRange 0 N (fun j1 s =>
          forRange (j1 + 1) N (fun j2 (s : Edges × Nat) =>
            if c i1 i2 j1 j2 then
              let es := link s.1 (pairVertex N i1 j1) (pairVertex N i2 j2)
              let es := link es (pairVertex N i2 j1) (pairVertex N i1 j2)
              .ok (es, s.2 + 2)
            else .ok s) s) s) s) (PyGraph.selfLoops n, 0)
    .ok (n, m, edges)
  | both srt1 srt2 M N w c d1 sym1 d2 sym2 => do
    let ps1 ← fillDists srt1 M sym1 d1
    let ps2 ← fillDists srt2 N sym2 d2
    efrCondition M N sym1 sym2 ps1 ps2 w c
  | iso pg1 pg2 =>
    if pg1.nvert = 0 ∨ pg2.nvert = 0 then .error .throw
    else
      match pg1.G, pg2.G with
      | some G1, some G2 => isoEdges G1 G2
      | _, _ => .error .ub

/-- The call with memory that may run out. (As above.)  A request refused while the edges are computed is
put before everything else the call does up to then, since nothing of it is in the object; so a call
that raises another exception counts as one that may also run out of memory. -/
def Build.run (argLR : Bool) (cap : Nat) (mem : BuildMem) (pg : PyGraph) (b : Build D) :
    M (PyGraph × HeapRes Unit) :=
  if mem = .noEdges then .ok (pg, .noMemory)
  else do
    let (n, m, edges) ← b.edges
    if edges.length = 0 then .error .throw
    else pg.loadGraphA argLR cap (mem = .enough) n m edges

end CM
