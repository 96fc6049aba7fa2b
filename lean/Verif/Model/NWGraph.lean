import Mathlib.Algebra.Order.Ring.Rat
import Verif.Model.Search

/-!
# `detail/nwgraph/{wvertex.h, nwgraph.h, nwgraph.cpp, nwclique.cpp}`: weighted graphs

The class `nwgraph` repeats the members and the code of `graph` for the edge list, the word
buffer and the vertex records, and adds weights.  The shared part is the component `g` of the
model.

Weights and sums of weights are `double` in the source.  The model takes them from a type `R`
with a zero, `+`, `-`, the conversion of integers, `<` and `≤`, about which it assumes no law.
Every operation and comparison is applied to the arguments, in the order and in the direction
of the source, so that `R` may be the floating-point numbers with their rounding, infinities
and NaN.  (`std::max`, `std::min` and C++'s `a > b` are `<` with the arguments in the order of
the source.)  Theorems which need the laws of addition and of the order take the rational
numbers for `R`; every finite `double` is rational, and only the rounding of sums is not
covered by these.
-/

namespace CM

/-- nwgraph.h:15-62.  `g` holds what `nwgraph` has in common with `graph`, with `g.maxDeg` for
`max_neighbors` and `g.limit` for `max_depth`; the members `mcs`, `curMax` and `curLoc` of `g`
have no counterpart and are not used.  `wt`, `deg`, `mcs` are the members `weight`, `degree`,
`mcs` of the vertices (wvertex.h:16-18); `limit`, `curMax`, `curLoc` are `CLIQUE_LIMIT`,
`CUR_MAX_CLIQUE_SIZE` and `CUR_MAX_CLIQUE_LOCATION`.  `max_degree` is never read and left
out. -/
structure NWG (R : Type) where
  g : Graph
  wt : List R
  deg : List R
  mcs : List R
  limit : R
  curMax : R
  curLoc : Nat
  deriving DecidableEq

namespace NWG

variable {R : Type} [Zero R] [Add R] [Sub R] [NatCast R] [LT R] [LE R] [DecidableLT R]
  [DecidableLE R]

/-- nwgraph.cpp:47-56: the weighted degree of vertex `i`, which includes its own weight. -/
def degOf (g : Graph) (wts : List R) (i : Nat) : M R := do
  let V ← g.vtx i
  forRange 0 V.N (fun j d => do
    let x ← g.nbr V j
    let w ← rd wts x
    .ok (d + w)) 0

/-- nwgraph.cpp:86-105: the bound `mcs` of one vertex (without `depth`, which is
`Graph.mcsOf`). -/
def mcsOf (H : NWG R) (cur : Nat) : M R := do
  let V ← H.g.vtx cur
  let m ← forRange 0 V.spos (fun j m => do
    let vert ← H.g.nbr V j
    let dv ← rd H.deg vert
    let d ← rd H.deg cur
    let w ← rd H.wt vert
    .ok (if dv > d then m + w else m)) 0
  forRange V.spos V.N (fun j m => do
    let vert ← H.g.nbr V j
    let dv ← rd H.deg vert
    let d ← rd H.deg cur
    let w ← rd H.wt vert
    .ok (if dv ≥ d then m + w else m)) m

/-- nwgraph.cpp:79-113: the loop of `set_bounds`, for the weighted bounds. -/
def boundsLoop (H : NWG R) : M (NWG R) :=
  forRange 0 H.g.vs.length (fun cur H => do
    let m ← H.mcsOf cur
    let mcs ← wr H.mcs cur m
    let H := { H with mcs := mcs }
    if m > H.limit then .ok { H with curLoc := cur, limit := m } else .ok H)
    { H with limit := 0 }

/-- nwgraph.cpp:28-140: the constructor and `set_bounds`.  The statements about edges, words
and `max_depth` (lines 33-68 and 79-139 without those about weights) are those of
graph.cpp:26-139 and are `Graph.ctor`; the statements about weights are run after them
instead of interleaved with them, which changes neither what is read nor what is computed. -/
def ctor (argLR : Bool) (cap nVert : Nat) (edges : Edges) (wts : List R) : M (NWG R) := do
  let g ← Graph.ctor argLR cap nVert edges
  let (wt, deg) ← forRange 0 (nVert + 1) (fun i (s : List R × List R) => do
    let d ← degOf g wts i
    let w ← rd wts i
    .ok (s.1 ++ [w], s.2 ++ [d])) ([], [])
  boundsLoop { g := g, wt := wt, deg := deg, mcs := wt, limit := 0, curMax := 0, curLoc := 0 }

/-- nwclique.cpp:21-24, wvertex.cpp:26-29 `get_max_clique(i)`. -/
def getClique (H : NWG R) (i : Nat) : M (NWG R × List Nat) := do
  let (g, ans) ← H.g.getClique i
  .ok ({ H with g := g }, ans)

/-- nwclique.cpp:25-33 `get_clique_weight`. -/
def cliqueWeight (H : NWG R) (clique : List Nat) : M R :=
  clique.foldlM (fun wt v =>
    if v < H.g.nVert then do
      let w ← rd H.wt v
      .ok (wt + w)
    else .ok wt) 0

/-- nwgraph.cpp:159-166 `vertex_data`. -/
def vertexData (H : NWG R) (i : Nat) : M (R × List Nat) := do
  let l ← H.g.vertexData i
  let w ← rd H.wt i
  .ok (w, l)

/-- nwgraph.cpp:168-174 `get_all_weights`. -/
def allWeights (H : NWG R) : M (List R) :=
  forRange 0 H.g.nVert (fun i acc => do
    let w ← rd H.wt i
    .ok (acc ++ [w])) []

end NWG

end CM
