import Verif.SpecWeighted
import Verif.Model.NWApi

/-!
# Uses of an `NWGraph` object: how it is created, and what is called on it
-/

namespace CM

open Spec

variable {R : Type} [Zero R] [Add R] [Sub R] [NatCast R] [LT R] [LE R] [DecidableLT R]
  [DecidableLE R]

namespace PyNW

/-- `list(G.all_cliques(weight))`. The number of `__next__` calls allowed to the loop only makes the
definition total; using more is the outcome `fuel`. (core/wrap_pygraph.cpp:96-100,
core/pyiterator.cpp:32-42.) -/
def listCliques (junk : Nat → R) (pg : PyNW R) (weight : R) : M (PyNW R × List (List Nat)) := do
  let E ← pg.allCliques junk weight
  match pg.G with
  | none => .error .ub
  | some H => do
    let (pg, _, cs) ← pg.consume (H.g.nVert * 2 ^ H.g.maxDeg + 1) E
    .ok (pg, cs)

/-- `list(G._all_correspondences(len1, len2, weight))` (pyiterator.h:66-83, pyiterator.cpp:44-55);
the fuel is that of `listCliques`. -/
def listCorrespondences (junk : Nat → R) (pg : PyNW R) (len2 : Nat) (weight : R) :
    M (PyNW R × List (PyRes (List Nat × List Nat))) := do
  let E ← pg.allCliques junk weight
  match pg.G with
  | none => .error .ub
  | some H => do
    let (pg, _, cs) ← pg.consumeCorr len2 (H.g.nVert * 2 ^ H.g.maxDeg + 1) E
    .ok (pg, cs)

end PyNW

/-- The objects a loader of weighted graphs can return, with the number of vertices, the graph and
the weights they stand for (sizes, `argLR` and `cap` as in `Loaded`). (core/pynwgraph.cpp:106-235.)
-/
inductive WLoaded : PyNW R → Nat → SimpleGraph Nat → (Nat → R) → Prop
  /-- `NWGraph.from_edgelist(rows, n, wts)` -/
  | edgelist {argLR : Bool} {cap : Nat} {rows : List (Nat × Nat)} {n : Nat} {wts : List R}
      {pg : PyNW R} :
      n < 2 ^ 31 → rows.length < 2 ^ 56 → PyNW.fromEdgelist argLR cap rows n wts = .ok pg →
      WLoaded pg n (ofPairs rows) (nth wts)
  /-- `NWGraph.from_matrix(A, wts)` for an `n × n` array -/
  | matrix {argLR : Bool} {cap : Nat} {n : Nat} {A : Nat → Nat → Bool} {wts : List R}
      {pg : PyNW R} :
      n < 2 ^ 28 → PyNW.fromMatrix argLR cap n n A wts = .ok pg →
      WLoaded pg n (ofMatrix n A) (nth wts)
  /-- `NWGraph.from_adjlist(n, m, sets, wts)` -/
  | adjlist {argLR : Bool} {cap : Nat} {n m : Nat} {sets : List (List Nat)} {wts : List R}
      {pg : PyNW R} :
      n < 2 ^ 31 → (sets.map List.length).sum < 2 ^ 57 →
      PyNW.fromAdjList argLR cap n m sets wts = .ok pg → WLoaded pg n (ofSets sets) (nth wts)

/-- A loaded object whose buffer stayed in place (see `BufferKept`), for a graph with at least one
edge. (What the loaders of core/pynwgraph.cpp:106-235 return.) -/
structure WUsable (pg : PyNW R) (n : Nat) (S : SimpleGraph Nat) (ω : Nat → R) : Prop where
  loaded : WLoaded pg n S ω
  kept : ∀ H, pg.G = some H → H.g.dangling = false
  edge : ∃ u v, S.Adj u v

/-- A call that may change a weighted graph object.  `search` carries the sorting function used
by the heuristic (nw_heuristic.cpp:94-95) and the content of uninitialised storage; `list` is
`list(G.all_cliques(weight))`. -/
inductive WOp (R : Type) where
  | search (srt : List (NWG.WData R) → List (NWG.WData R)) (junk : Nat → R) (a : PyNW.Args R)
  | list (junk : Nat → R) (weight : R)
  | reset

namespace WOp

/-- The state after the call. (core/pynwgraph.cpp:37-63, core/pyiterator.cpp:32-42.) -/
def run (pg : PyNW R) : WOp R → M (PyNW R)
  | search srt junk a => do
    let (pg, _) ← pg.getMaxClique srt junk a
    .ok pg
  | list junk weight => do
    let (pg, _) ← pg.listCliques junk weight
    .ok pg
  | reset => pg.resetSearch

/-- The sorting function sorts: its result is a permutation of its input. (The `std::sort` of
detail/nwgraph/nw_heuristic.cpp:71.) -/
def Legal : WOp R → Prop
  | search srt _ _ => ∀ l, (srt l).Perm l
  | _ => True

/-- No clique of the graph is heavier than the call's `upper_bound`. (A condition on the arguments
of core/wrap_pygraph.cpp:81-84.) -/
def Exact (S : SimpleGraph Nat) (n : Nat) (ω : Nat → R) : WOp R → Prop
  | search _ _ a => ∀ l, IsCliqueList S n l → weight ω l ≤ a.upperBound
  | _ => True

end WOp

/-- The state after a sequence of calls. (A client of core/wrap_pygraph.cpp:81-100; models no line
of /repo.) -/
def wruns (ops : List (WOp R)) (pg : PyNW R) : M (PyNW R) := ops.foldlM WOp.run pg

end CM
