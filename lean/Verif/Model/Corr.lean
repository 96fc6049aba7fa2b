import Mathlib.Order.Defs.LinearOrder
import Verif.Model.Api

/-!
# Correspondence graphs: `detail/graph/graph.cpp:iso_edges`, `templates/*.hpp`,
`ext/Isograph.cpp`, `core/pyiterator.cpp:CorrespondenceIterator`
-/

namespace CM

/-- The four `push_back` calls that add an edge in both directions
(graph.cpp:209-212, 217-220; ext_template.hpp:62-65, 73-76, 137-140, 153-156, 220-223,
228-231). -/
def link (es : Edges) (v1 v2 : Nat) : Edges := es ++ [(v1, v2), (v2, v1)]

/-- The vertex of the correspondence graph that stands for "element `i` of the first set
corresponds to element `j` of the second", where the second set has `N` elements
(ext_template.hpp:59-60, 70-71, 131-132, 146-147, 218-219, 226-227; graph.cpp:207-208,
215-216 with 1-based vertices shifted down by one). -/
def pairVertex (N i j : Nat) : Nat := uadd (uadd (umul i N) j) 1

/-- graph.cpp:167-227 `iso_edges`: `(num_vertices, num_edges, edges)`. -/
def isoEdges (G1 G2 : Graph) : M (Nat × Nat × Edges) := do
  let n := umul (usub G1.nVert 1) (usub G2.nVert 1)
  let N := usub G2.nVert 1
  let (es, m) ← forRange 1 G1.nVert (fun i1 s =>
    forRange (i1 + 1) G1.nVert (fun i2 s => do
      let (f1, _) ← G1.findIfNeighbors i1 i2
      forRange 1 G2.nVert (fun j1 s =>
        forRange (j1 + 1) G2.nVert (fun j2 (s : Edges × Nat) => do
          let (f2, _) ← G2.findIfNeighbors j1 j2
          if f1 = false ∧ f2 = true then .ok s
          else
            let es := link s.1 (pairVertex N (usub i1 1) (usub j1 1))
              (pairVertex N (usub i2 1) (usub j2 1))
            let es := link es (pairVertex N (usub i2 1) (usub j1 1))
              (pairVertex N (usub i1 1) (usub j2 1))
            .ok (es, s.2 + 2)) s) s) s) (PyGraph.selfLoops n, 0)
  .ok (n, m, es)

/-- ext/Isograph.cpp:7-20 `build_edges_for_iso` with pygraph.cpp:313-318. -/
def buildIso (argLR : Bool) (cap : Nat) (pg pg1 pg2 : PyGraph) : M PyGraph :=
  if pg1.nvert = 0 ∨ pg2.nvert = 0 then .error .throw
  else
    match pg1.G, pg2.G with
    | some G1, some G2 => do
      let (n, m, edges) ← isoEdges G1 G2
      if edges.length = 0 then .error .throw
      else PyGraph.loadGraph argLR cap pg n m edges
    | _, _ => .error .ub

/-- templates/pair_dist.hpp:12-28 `pair_dist`. -/
structure PairDist (D : Type) where
  first : Nat
  second : Nat
  dist : D
  deriving DecidableEq, Repr, Inhabited

/-- How the bounds of the distance window are computed from a distance of the first set
(ext_template.hpp:48-49, 120-121): `lo d` is `d - epsilon` and `hi d` is
`(d - epsilon) + 2 * epsilon`.  They are parameters because in floating point these
operations round. -/
structure Window (D : Type) where
  lo : D → D
  hi : D → D

variable {D : Type} [LinearOrder D] [Inhabited D]

omit [Inhabited D] in
/-- Nondecreasing distances. (What templates/relset.hpp:39 sorts by (pair_dist.hpp:18).) -/
def Ascending (a : List (PairDist D)) : Prop := a.Pairwise fun p q => p.dist ≤ q.dist

omit [Inhabited D] in
/-- What `std::sort` guarantees (relset.hpp:38-39, pair_dist.hpp:22-27): a permutation in
nondecreasing order of distance.  The order of entries at the same distance is not
specified. -/
def Sorts (srt : List (PairDist D) → List (PairDist D)) : Prop :=
  ∀ l, (srt l).Perm l ∧ Ascending (srt l)

omit [LinearOrder D] in
/-- templates/relset.hpp:13-40: constructor and `fill_dists` of `relset`.  `d i j` is
`delfunc(x, i, j)`, which may not raise; `srt` is `std::sort` by distance.  The values are
a linear order: `std::sort` needs one, which excludes NaN. -/
def fillDists (srt : List (PairDist D) → List (PairDist D)) (N : Nat) (sym : Bool)
    (d : Nat → Nat → D) : M (List (PairDist D)) := do
  let len := if sym then umul N (usub N 1) / 2 else umul N (usub N 1)
  let (buf, _) ← forRange 0 N (fun i s =>
    forRange (if sym then i + 1 else 0) N (fun j (s : List (PairDist D) × Nat) =>
      if j = i then .ok s
      else do
        let b ← wr s.1 s.2 { first := i, second := j, dist := d i j }
        .ok (b, s.2 + 1)) s) (List.replicate len default, 0)
  .ok (srt buf)

omit [Inhabited D] in
/-- templates/pair_dist.hpp:30-56 `binary_find2`: the result and `loc`, which is assigned
on every path. -/
def binaryFind2 (a : List (PairDist D)) (N : Nat) (val : D) : M (Int × Nat) := do
  let e := usub N 1
  let x ← rd a e
  if x.dist < val then .ok (-1, e)
  else do
    let y ← rd a 0
    if y.dist > val then .ok (0, 0)
    else
      loop (N + 1) (fun (s : Nat × Nat × Nat × Nat) => do
        let (beg, e, mid, loc) := s
        if beg ≤ e then do
          let z ← rd a mid
          if z.dist = val then .ok (.inr (1, mid))
          else
            let (beg, e) := if z.dist < val then (uadd mid 1, e) else (beg, usub mid 1)
            .ok (.inl (beg, e, uadd beg (usub e beg / 2), mid))
        else .ok (.inr (0, loc))) (0, e, uadd 0 (usub e 0 / 2), 0)

omit [Inhabited D] in
/-- templates/ext_template.hpp:13-82 `edges_from_relsets`: `(n_vert, n_edges, Edges)`. -/
def edgesFromRelsets (M N : Nat) (sym1 sym2 : Bool) (d1 d2 : List (PairDist D))
    (w : Window D) : CM.M (Nat × Nat × Edges) :=
  let n := umul M N
  if M = 0 ∨ N = 0 then .error .throw
  else do
    let len1 := if sym1 then umul M (usub M 1) / 2 else umul M (usub M 1)
    let len2 := if sym2 then umul N (usub N 1) / 2 else umul N (usub N 1)
    let (es, m) ← loop (len1 + 1) (fun (s : Nat × Edges × Nat) => do
      let (i, es, m) := s
      if i < len1 then do
        let x ← rd d1 i
        let (f1, lb) ← binaryFind2 d2 len2 (w.lo x.dist)
        if f1 = -1 then .ok (.inr (es, m))
        else do
          let (f2, ub) ← binaryFind2 d2 len2 (w.hi x.dist)
          let ub := if f2 = -1 then usub len2 1 else ub
          let (es, m) ← forRange lb (ub + 1) (fun j (s : Edges × Nat) => do
            let y ← rd d2 j
            let es := link s.1 (pairVertex N x.first y.first) (pairVertex N x.second y.second)
            let m := s.2 + 1
            if !sym1 && !sym2 then .ok (es, m)
            else
              let es := link es (pairVertex N x.second y.first) (pairVertex N x.first y.second)
              .ok (es, m + 1)) (es, m)
          .ok (.inl (i + 1, es, m))
      else .ok (.inr (es, m))) (0, PyGraph.selfLoops n, 0)
    .ok (n, m, es)

omit [Inhabited D] in
/-- templates/ext_template.hpp:84-163 `efr_condition`.  `c i1 i2 j1 j2` is the condition
function applied to the two sets and these indices; it may not raise. -/
def efrCondition (M N : Nat) (sym1 sym2 : Bool) (d1 d2 : List (PairDist D))
    (w : Window D) (c : Nat → Nat → Nat → Nat → Bool) : CM.M (Nat × Nat × Edges) :=
  let n := umul M N
  if M = 0 ∨ N = 0 then .error .throw
  else do
    let len1 := if sym1 then umul M (usub M 1) / 2 else umul M (usub M 1)
    let len2 := if sym2 then umul N (usub N 1) / 2 else umul N (usub N 1)
    let (es, m) ← loop (len1 + 1) (fun (s : Nat × Edges × Nat) => do
      let (i, es, m) := s
      if i < len1 then do
        let x ← rd d1 i
        let (f1, lb) ← binaryFind2 d2 len2 (w.lo x.dist)
        if f1 = -1 then .ok (.inr (es, m))
        else do
          let (f2, ub) ← binaryFind2 d2 len2 (w.hi x.dist)
          let ub := if f2 = -1 then usub len2 1 else ub
          let (es, m) ← forRange lb (ub + 1) (fun j (s : Edges × Nat) => do
            let y ← rd d2 j
            let s := if c x.first x.second y.first y.second then
                (link s.1 (pairVertex N x.first y.first) (pairVertex N x.second y.second), s.2 + 1)
              else s
            if !sym1 && !sym2 then .ok s
            else if c x.first x.second y.second y.first then
              .ok (link s.1 (pairVertex N x.second y.first) (pairVertex N x.first y.second), s.2 + 1)
            else .ok s) (es, m)
          .ok (.inl (i + 1, es, m))
      else .ok (.inr (es, m))) (0, PyGraph.selfLoops n, 0)
    .ok (n, m, es)

/-- templates/ext_template.hpp:165-185 `build_edges_metric_only`.  `srt1`, `srt2` are
`std::sort` on the two distance lists. -/
def buildMetric (argLR : Bool) (cap : Nat) (pg : PyGraph)
    (srt1 srt2 : List (PairDist D) → List (PairDist D)) (M N : Nat) (w : Window D)
    (d1 : Nat → Nat → D) (sym1 : Bool) (d2 : Nat → Nat → D) (sym2 : Bool) :
    CM.M PyGraph := do
  let ps1 ← fillDists srt1 M sym1 d1
  let ps2 ← fillDists srt2 N sym2 d2
  let (n, m, edges) ← edgesFromRelsets M N sym1 sym2 ps1 ps2 w
  if edges.length = 0 then .error .throw
  else PyGraph.loadGraph argLR cap pg n m edges

/-- templates/ext_template.hpp:187-243 `build_edges_condition_only`. -/
def buildCondition (argLR : Bool) (cap : Nat) (pg : PyGraph) (M N : Nat)
    (c : Nat → Nat → Nat → Nat → Bool) : CM.M PyGraph := do
  let n := umul M N
  let (edges, m) ← forRange 0 M (fun i1 s =>
    forRange (i1 + 1) M (fun i2 s =>
      forRange 0 N (fun j1 s =>
        forRange (j1 + 1) N (fun j2 (s : Edges × Nat) =>
          if c i1 i2 j1 j2 then
            let es := link s.1 (pairVertex N i1 j1) (pairVertex N i2 j2)
            let es := link es (pairVertex N i2 j1) (pairVertex N i1 j2)
            .ok (es, s.2 + 2)
          else .ok s) s) s) s) (PyGraph.selfLoops n, 0)
  if edges.length = 0 then .error .throw
  else PyGraph.loadGraph argLR cap pg n m edges

/-- templates/ext_template.hpp:245-271 `build_edges` (also reached from
ext/Aligngraph.cpp:54-77, whose rule is one such condition). -/
def buildBoth (argLR : Bool) (cap : Nat) (pg : PyGraph)
    (srt1 srt2 : List (PairDist D) → List (PairDist D)) (M N : Nat) (w : Window D)
    (c : Nat → Nat → Nat → Nat → Bool)
    (d1 : Nat → Nat → D) (sym1 : Bool) (d2 : Nat → Nat → D) (sym2 : Bool) :
    CM.M PyGraph := do
  let ps1 ← fillDists srt1 M sym1 d1
  let ps2 ← fillDists srt2 N sym2 d2
  let (n, m, edges) ← efrCondition M N sym1 sym2 ps1 ps2 w c
  if edges.length = 0 then .error .throw
  else PyGraph.loadGraph argLR cap pg n m edges

namespace PyGraph

/-- pyiterator.cpp:20-30 `CorrespondenceIterator::next_clique`; `ret none` is
`StopIteration`. -/
def nextCorrespondence (len2 : Nat) (pg : PyGraph) (E : Enum) :
    CM.M (PyGraph × Enum × PyRes (Option (List Nat × List Nat))) :=
  match pg.G with
  | none => .error .ub
  | some G => do
    let (G, E, v) ← G.enumGraph E
    if v > pg.nvert then .ok ({ pg with G := some G }, E, .ret none)
    else do
      let (G, ans) ← G.getClique v
      match ← getCorrespondence2 len2 ans with
      | .raise => .ok ({ pg with G := some G }, E, .raise)
      | .ret c => .ok ({ pg with G := some G }, E, .ret (some c))

/-- `list(G.all_correspondences(k))`: the loop over `nextCorrespondence` (see `consume`).
(core/pyiterator.cpp:20-30, 66-67.) -/
def consumeCorr (len2 : Nat) : Nat → PyGraph → Enum →
    CM.M (PyGraph × Enum × List (PyRes (List Nat × List Nat)))
  | 0, _, _ => .error .fuel
  | fuel + 1, pg, E => do
    match ← pg.nextCorrespondence len2 E with
    | (pg, E, .ret none) => .ok (pg, E, [])
    | (pg, E, .raise) => .ok (pg, E, [.raise])
    | (pg, E, .ret (some c)) => do
      let (pg, E, cs) ← consumeCorr len2 fuel pg E
      .ok (pg, E, .ret c :: cs)

end PyGraph

end CM
