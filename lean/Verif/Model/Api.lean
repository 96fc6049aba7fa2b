import Verif.Model.Enum

/-!
# `core/pygraph.cpp`, `core/pyiterator.cpp`: the Python-visible `Graph` class
-/

namespace CM

/-- Result of a Python method call that returned to the interpreter: a value or a raised exception.
(Memory errors and divergence are faults of the monad `M`.) (core/core.h:15-17: the exceptions that
are raised are those of `CM_ERROR`.) -/
inductive PyRes (α : Type) where
  | ret (a : α)
  | raise
  deriving DecidableEq, Repr

/-- pygraph.h:14-22. -/
structure PyGraph where
  G : Option Graph
  finishedAll : Bool
  nvert : Nat
  nedges : Nat
  currentVertex : Nat
  deriving DecidableEq, Repr

namespace PyGraph

/-- pygraph.cpp:16-22. -/
def new : PyGraph :=
  { G := none, finishedAll := false, nvert := 0, nedges := 0, currentVertex := 0 }

/-- pygraph.cpp:23-30 `load_graph`. -/
def loadGraph (argLR : Bool) (cap : Nat) (pg : PyGraph) (n m : Nat) (edges : Edges) :
    M PyGraph := do
  let G ← Graph.ctor argLR cap n edges
  .ok { pg with nvert := n, nedges := m, G := some G }

/-- pygraph.cpp:31-35 `check_loaded`: `some` the graph, or `none` if it throws. -/
def checkLoaded (pg : PyGraph) : Option Graph :=
  if pg.nvert = 0 then none else pg.G

/-- pygraph.cpp:38-43 `reset_search` (dereferences a null pointer if nothing is loaded). -/
def resetSearch (pg : PyGraph) : M PyGraph :=
  match pg.G with
  | none => .error .ub
  | some G => .ok { pg with
      G := some { G with curMax := 1 }, finishedAll := false, currentVertex := 0 }

/-- The arguments of `get_max_clique` (wrap_pygraph.cpp:27-30 for the defaults). -/
structure Args where
  lowerBound : Nat := 1
  upperBound : Nat := 0xFFFF
  timeLimit : Graph.TimeLimit := none
  useHeuristic : Bool := true
  useDfs : Bool := true
  continueSearch : Bool := false

/-- pygraph.cpp:45-68 `get_max_clique`. -/
def getMaxClique (srt : List Graph.VData → List Graph.VData) (pg : PyGraph) (a : Args) :
    M (PyGraph × PyRes (List Nat)) :=
  let cv := if a.continueSearch then pg.currentVertex else 0
  let heur := if a.continueSearch ∧ pg.currentVertex ≠ 0 then false else a.useHeuristic
  let pg := { pg with currentVertex := cv }
  match pg.checkLoaded with
  | none => .ok (pg, .raise)
  | some G => do
    let G := { G with
      curMax := if a.lowerBound > G.curMax then a.lowerBound else G.curMax
      limit := if a.upperBound < G.limit then a.upperBound else G.limit }
    let (G, cv) ← G.findMaxCliques srt cv heur a.useDfs a.timeLimit
    let fin := decide (cv ≥ pg.nvert)
    let (G, ans) ← G.getClique G.curLoc
    let pg := { pg with G := some G, currentVertex := cv, finishedAll := fin }
    if a.lowerBound > ans.length then .ok (pg, .raise) else .ok (pg, .ret ans)

/-- pygraph.cpp:70-89 `get_correspondence2` (`none` = the sentinel error is thrown). -/
def getCorrespondence2 (len2 : Nat) : List Nat → M (PyRes (List Nat × List Nat))
  | [] => .ok (.ret ([], []))
  | c :: cs =>
    if c = 0 then .ok .raise
    else if len2 = 0 then .error .ub
    else do
      match ← getCorrespondence2 len2 cs with
      | .raise => .ok .raise
      | .ret (f, s) => .ok (.ret ((c - 1) / len2 :: f, (c - 1) % len2 :: s))

/-- pygraph.cpp:91-99 `get_correspondence`. -/
def getCorrespondence (srt : List Graph.VData → List Graph.VData) (pg : PyGraph)
    (len2 : Nat) (a : Args) : M (PyGraph × PyRes (List Nat × List Nat)) := do
  let (pg, r) ← pg.getMaxClique srt a
  match r with
  | .raise => .ok (pg, .raise)
  | .ret c => do
    let r ← getCorrespondence2 len2 c
    .ok (pg, r)

/-- pygraph.cpp:102-111 `showdata`: the value printed after `search_done=`. -/
def shownSearchDone (pg : PyGraph) : Bool := decide (pg.currentVertex < pg.nvert)

/-- pygraph.cpp:306-310 `get_vertex_data`. -/
def getVertexData (pg : PyGraph) (i : Nat) : M (List Nat) :=
  if i > pg.nvert then .error .throw
  else match pg.G with
    | none => .error .ub
    | some G => G.vertexData i

/-- pygraph.cpp:235-251 `to_edgelist`: the array has `nedges` rows which are written
in order; a cell that is never written stays uninitialised (`none`). -/
def toEdgelist (pg : PyGraph) : M (List (Option (Nat × Nat))) :=
  match pg.checkLoaded with
  | none => .error .throw
  | some G => do
    let es ← G.sendData
    let (rows, _) ← es.foldlM (fun (s : List (Option (Nat × Nat)) × Nat) e => do
      let rows ← wr s.1 s.2 (some e)
      .ok (rows, s.2 + 1)) (List.replicate pg.nedges none, 0)
    .ok rows

/-- Write to a two-dimensional array (pygraph.cpp:287-288). Indices are `u64`. -/
def wr2 (m : List (List Bool)) (i j : Nat) (b : Bool) : M (List (List Bool)) := do
  let row ← rd m i
  let row ← wr row j b
  wr m i row

/-- pygraph.cpp:271-291 `to_adj_matrix`. -/
def toMatrix (pg : PyGraph) : M (List (List Bool)) :=
  match pg.checkLoaded with
  | none => .error .throw
  | some G => do
    let es ← G.sendData
    es.foldlM (fun m (e : Nat × Nat) => do
      let m ← wr2 m (usub e.1 1) (usub e.2 1) true
      wr2 m (usub e.2 1) (usub e.1 1) true)
      (List.replicate pg.nvert (List.replicate pg.nvert false))

/-- `std::set::insert` on the sorted element list of a set. (core/pygraph.cpp:300-301.) -/
def setInsert (x : Nat) : List Nat → List Nat
  | [] => [x]
  | y :: ys => if x < y then x :: y :: ys else if x = y then y :: ys else y :: setInsert x ys

/-- pygraph.cpp:293-304 `to_adj_list`. -/
def toAdjList (pg : PyGraph) : M (List (List Nat)) :=
  match pg.checkLoaded with
  | none => .error .throw
  | some G => do
    let es ← G.sendData
    es.foldlM (fun l (e : Nat × Nat) => do
      let s ← rd l e.1
      let l ← wr l e.1 (setInsert e.2 s)
      let s ← rd l e.2
      wr l e.2 (setInsert e.1 s))
      (List.replicate (pg.nvert + 1) [])

/-- The self loops `(i, i)`, `i = 0 .. n`, every loader starts with
(pygraph.cpp:133-141, mmio.cpp:46-50, graph.cpp:176-187, ext_template.hpp:28-35). -/
def selfLoops (n : Nat) : Edges := (List.range (n + 1)).map fun i => (i, i)

/-- pygraph.cpp:126-165 `from_edgelist`; the rows of the array are a list of pairs. -/
def fromEdgelist (argLR : Bool) (cap : Nat) (rows : List (Nat × Nat)) (n : Nat) :
    M PyGraph := do
  let (edges, m) ← rows.foldlM (fun (s : Edges × Nat) (r : Nat × Nat) =>
    if r.1 > n ∨ r.2 > n then .error .throw
    else if r.1 = 0 ∨ r.2 = 0 then .error .throw
    else .ok (s.1 ++ [(r.1, r.2), (r.2, r.1)], s.2 + 1)) (selfLoops n, 0)
  if edges.length = 0 then .error .throw
  else loadGraph argLR cap new n m edges

/-- pygraph.cpp:167-204 `from_adj_matrix`; the array has `r` rows and `c` columns
and entries `A i j`. -/
def fromMatrix (argLR : Bool) (cap : Nat) (r c : Nat) (A : Nat → Nat → Bool) :
    M PyGraph :=
  if r ≠ c then .error .throw
  else do
    let (edges, m) ← forRange 0 r (fun i s =>
      forRange 0 r (fun j (s : Edges × Nat) =>
        if A i j = true ∨ i = j then
          .ok (s.1 ++ [(i + 1, j + 1), (j + 1, i + 1)], s.2 + if i ≠ j then 1 else 0)
        else .ok s) s) ([(0, 0)], 0)
    if edges.length = 0 then .error .throw
    else loadGraph argLR cap new r (m / 2) edges

/-- pygraph.cpp:205-233 `from_adj_list`; each `std::set` is the list of its elements. -/
def fromAdjList (argLR : Bool) (cap : Nat) (n m : Nat) (sets : List (List Nat)) :
    M PyGraph := do
  if sets.length > 0 ∧ sets.headD [] ≠ [] then .error .throw
  else if n ≠ usub sets.length 1 then .error .throw
  else do
    let (edges, e) ← forRange 0 sets.length (fun i (s : Edges × Nat) => do
      let si ← rd sets i
      si.foldlM (fun (s : Edges × Nat) j =>
        if j = 0 ∨ j > n ∨ j = i then .error .throw
        else do
          let sj ← rd sets j
          if i ∈ sj then .ok (s.1 ++ [(i, j)], s.2 + 1)
          else .error .throw) (s.1 ++ [(i, i)], s.2)) ([], 0)
    if e / 2 ≠ m then .error .throw
    else loadGraph argLR cap new n m edges

/-- pyiterator.h:21-27 / pyiterator.cpp:8-18: `all_cliques(size)` then `__next__`.
`ret none` is `StopIteration`. -/
def nextClique (pg : PyGraph) (E : Enum) : M (PyGraph × Enum × Option (List Nat)) :=
  match pg.G with
  | none => .error .ub
  | some G => do
    let (G, E, v) ← G.enumGraph E
    if v > pg.nvert then .ok ({ pg with G := some G }, E, none)
    else do
      let (G, ans) ← G.getClique v
      .ok ({ pg with G := some G }, E, some ans)

/-- pyiterator.h:21-27: constructing an iterator on an unloaded graph throws. -/
def allCliques (pg : PyGraph) (size : Nat) : M Enum :=
  match pg.checkLoaded with
  | none => .error .throw
  | some _ => .ok (Enum.new size)

/-- `list(G.all_cliques(size))`: call `__next__` until `StopIteration`. (core/pyiterator.cpp:8-18,
63-64: `CliqueIterator::next_clique` as `__next__`.) -/
def consume : Nat → PyGraph → Enum → M (PyGraph × Enum × List (List Nat))
  | 0, _, _ => .error .fuel
  | fuel + 1, pg, E => do
    match ← pg.nextClique E with
    | (pg, E, none) => .ok (pg, E, [])
    | (pg, E, some c) => do
      let (pg, E, cs) ← consume fuel pg E
      .ok (pg, E, c :: cs)

/-- `m` calls of `__next__` on one iterator with nothing in between, whatever they answer
(pyiterator.cpp:8-18); the list records the answers. -/
def nexts : Nat → PyGraph → Enum → M (PyGraph × Enum × List (Option (List Nat)))
  | 0, pg, E => .ok (pg, E, [])
  | m + 1, pg, E => do
    let (pg, E, c) ← pg.nextClique E
    let (pg, E, cs) ← nexts m pg E
    .ok (pg, E, c :: cs)

end PyGraph

end CM
