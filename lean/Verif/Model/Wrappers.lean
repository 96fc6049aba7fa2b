import Verif.Model.Align
import Verif.Model.Matcher

/-!
# The Python classes of `wrappers/`

What the Python code adds to the compiled module: which distance functions reach the
builders, and how the indices of a correspondence are turned into elements, vertices or
dictionaries.
-/

namespace CM

variable {D : Type}

/-- The attributes of a `GenGraph` (wrappers/_gen_graph.py:26-36): the object of the base
class, the lengths of the sets, the distance functions, their symmetry flags and the
tolerance. -/
structure GenObj (D : Type) where
  pg : PyGraph
  n1 : Nat
  n2 : Nat
  d1 : Option (Nat → Nat → M D)
  d2 : Option (Nat → Nat → M D)
  sym1 : Bool
  sym2 : Bool
  w : Window D

namespace GenObj

/-- `A2AGraph.__init__`, `A2LGraph.__init__`, `L2AGraph.__init__` and `L2LGraph.__init__`
(wrappers/a2agraph.py:23-38, a2lgraph.py:25-50, l2agraph.py:25-47, l2lgraph.py:23-46, with
_gen_graph.py:26-36): the second function is looked at only if there is a first one. -/
def init (n1 n2 : Nat) (d1 d2 : Option (Nat → Nat → M D)) (sym1 sym2 : Bool) (w : Window D) :
    GenObj D :=
  match d1 with
  | some f => { pg := PyGraph.new, n1, n2, d1 := some f, d2, sym1, sym2, w }
  | none => { pg := PyGraph.new, n1, n2, d1 := none, d2 := none, sym1, sym2, w }

variable [LinearOrder D] [Inhabited D]

/-- `GenGraph.build_edges` (_gen_graph.py:38-54) with the overloads of
`_build_edges_metric_only` (templates/wrap_template.hpp:16-43) it can reach and their default
arguments (templates/ext_template.h:76-88).  `e1`, `e2` are the default functions of the two
kinds of sets: the Euclidean distance of the rows of an array (A2Agraph.cpp:7-12), or a
function that throws (ext_template.h:15-20). -/
def buildEdges (argLR : Bool) (cap : Nat) (srt1 srt2 : List (PairDist D) → List (PairDist D))
    (e1 e2 : Nat → Nat → M D) (o : GenObj D) : M (GenObj D) := do
  let pg ← match o.d1, o.d2 with
    | some f, some g => buildMetricM argLR cap o.pg srt1 srt2 o.n1 o.n2 o.w f o.sym1 g o.sym2
    | some f, none => buildMetricM argLR cap o.pg srt1 srt2 o.n1 o.n2 o.w f o.sym1 e2 true
    | none, _ => buildMetricM argLR cap o.pg srt1 srt2 o.n1 o.n2 o.w e1 true e2 true
  .ok { o with pg := pg }

/-- `GenGraph.build_edges_with_condition` (_gen_graph.py:56-88). -/
def buildEdgesWithCondition (argLR : Bool) (cap : Nat)
    (srt1 srt2 : List (PairDist D) → List (PairDist D)) (e1 e2 : Nat → Nat → M D)
    (c : Nat → Nat → Nat → Nat → M Bool) (only : Bool) (o : GenObj D) : M (GenObj D) := do
  let pg ← if only then buildConditionM argLR cap o.pg o.n1 o.n2 c
    else match o.d1, o.d2 with
    | some f, some g => buildBothM argLR cap o.pg srt1 srt2 o.n1 o.n2 o.w c f o.sym1 g o.sym2
    | some f, none => buildBothM argLR cap o.pg srt1 srt2 o.n1 o.n2 o.w c f o.sym1 e2 true
    | none, _ => buildBothM argLR cap o.pg srt1 srt2 o.n1 o.n2 o.w c e1 true e2 true
  .ok { o with pg := pg }

end GenObj

/-- `[xs[i] for i in indices]` (wrappers/l2lgraph.py:48-49) or numpy's `xs[indices]`
(wrappers/a2agraph.py:40-41): an index that is too large raises. -/
def pickAll {α : Type} (xs : List α) (indices : List Nat) : Option (List α) :=
  indices.mapM fun i => xs[i]?

/-- `get_correspondence(..., return_indices=False)` (_gen_graph.py:93-144 with
`_format_correspondence` of the four classes); the sets are the lists of their elements. -/
def getElements {α β : Type} (srt : List Graph.VData → List Graph.VData) (pg : PyGraph)
    (xs : List α) (ys : List β) (a : PyGraph.Args) : M (PyGraph × PyRes (List α × List β)) := do
  let (pg, r) ← pg.getCorrespondence srt ys.length a
  match r with
  | .raise => .ok (pg, .raise)
  | .ret (f, s) =>
    match pickAll xs f, pickAll ys s with
    | some us, some vs => .ok (pg, .ret (us, vs))
    | _, _ => .ok (pg, .raise)

/-- The loop over `next(it)` for `it = all_correspondences(size, return_indices=False)`
(`WrappedIterator`, _gen_graph.py:10-22, with `_format_correspondence` of the four classes): the
wrapped iterator is advanced and its answer is converted; an `IndexError` ends the loop. -/
def consumeElements {α β : Type} (xs : List α) (ys : List β) : Nat → PyGraph → Enum →
    M (PyGraph × Enum × List (PyRes (List α × List β)))
  | 0, _, _ => .error .fuel
  | fuel + 1, pg, E => do
    match ← pg.nextCorrespondence ys.length E with
    | (pg, E, .ret none) => .ok (pg, E, [])
    | (pg, E, .raise) => .ok (pg, E, [.raise])
    | (pg, E, .ret (some (f, s))) =>
      match pickAll xs f, pickAll ys s with
      | some us, some vs => do
        let (pg, E, cs) ← consumeElements xs ys fuel pg E
        .ok (pg, E, .ret (us, vs) :: cs)
      | _, _ => .ok (pg, E, [.raise])

/-- `list(all_correspondences(size, return_indices=False))` (_gen_graph.py:146-169); the fuel is
that of `listCorrespondences`. -/
def listElements {α β : Type} (pg : PyGraph) (xs : List α) (ys : List β) (k : Nat) :
    M (PyGraph × List (PyRes (List α × List β))) := do
  let E ← pg.allCliques k
  match pg.G with
  | none => .error .ub
  | some G => do
    let (pg, _, cs) ← consumeElements xs ys (G.nVert * 2 ^ G.maxDeg + 1) pg E
    .ok (pg, cs)

/-- `IsoGraph.get_correspondence(..., return_indices=True)` (wrappers/isograph.py:77-90). -/
def isoCorrespondence (srt : List Graph.VData → List Graph.VData) (pg pg2 : PyGraph)
    (a : PyGraph.Args) : M (PyGraph × PyRes (List Nat × List Nat)) := do
  let (pg, r) ← pg.getCorrespondence srt pg2.nvert a
  match r with
  | .raise => .ok (pg, .raise)
  | .ret (f, s) => .ok (pg, .ret (f.map (· + 1), s.map (· + 1)))

/-- A Python `dict`, as the list of its items in order of insertion. (The dictionaries of
wrappers/isograph.py:28-31.) -/
abbrev Dict (κ ν : Type) := List (κ × ν)

/-- `d[k] = v`. (wrappers/isograph.py:34-35, 37-38.) -/
def Dict.set {κ ν : Type} [DecidableEq κ] : Dict κ ν → κ → ν → Dict κ ν
  | [], k, v => [(k, v)]
  | (k', v') :: d, k, v => if k' = k then (k', v) :: d else (k', v') :: Dict.set d k v

/-- `d[k]`; `none` is `KeyError`. (wrappers/isograph.py:32.) -/
def Dict.get {κ ν : Type} [DecidableEq κ] (d : Dict κ ν) (k : κ) : Option ν :=
  (d.find? fun p => p.1 = k).map Prod.snd

/-- What `IsoGraph.get_correspondence(..., return_indices=False)` returns: a dictionary of
neighbourhoods for either subgraph, and the mapping. Python sets are lists of elements.
(wrappers/isograph.py:39.) -/
abbrev IsoDicts := Dict Nat (List Nat) × Dict Nat (List Nat) × Dict Nat Nat

/-- One round of the loop of `IsoGraph._format_correspondence` (wrappers/isograph.py:34-37);
`raise` is the `KeyError` of `inv_map[x]`. -/
def isoFormatStep (pg2 : PyGraph) (v2 : List Nat) (inv : Dict Nat Nat)
    (r : PyRes (Dict Nat (List Nat) × Dict Nat (List Nat))) (p : Nat × Nat) :
    M (PyRes (Dict Nat (List Nat) × Dict Nat (List Nat))) :=
  match r with
  | .raise => .ok .raise
  | .ret (g1, g2) => do
    let nb ← pg2.getVertexData p.2
    let common := nb.filter (· ∈ v2)
    match common.mapM fun x => inv.get x with
    | none => .ok .raise
    | some back => .ok (.ret (g1.set p.1 back, g2.set p.2 common))

/-- `IsoGraph._format_correspondence` (wrappers/isograph.py:25-39).  Both `v1` and `v2` are
the vertices of the first list. -/
def isoFormat (pg2 : PyGraph) (f s : List Nat) : M (PyRes IsoDicts) := do
  let v2 := f
  let mapping := (f.zip s).foldl (fun (d : Dict Nat Nat) p => d.set p.1 p.2) []
  let inv := (f.zip s).foldl (fun (d : Dict Nat Nat) p => d.set p.2 p.1) []
  let r ← (f.zip s).foldlM (isoFormatStep pg2 v2 inv) (.ret ([], []))
  match r with
  | .raise => .ok .raise
  | .ret (g1, g2) => .ok (.ret (g1, g2, mapping))

/-- `IsoGraph.get_correspondence(..., return_indices=False)` (wrappers/isograph.py:77-92). -/
def isoDicts (srt : List Graph.VData → List Graph.VData) (pg pg2 : PyGraph)
    (a : PyGraph.Args) : M (PyGraph × PyRes IsoDicts) := do
  let (pg, r) ← isoCorrespondence srt pg pg2 a
  match r with
  | .raise => .ok (pg, .raise)
  | .ret (f, s) => do
    let r ← isoFormat pg2 f s
    .ok (pg, r)

end CM
