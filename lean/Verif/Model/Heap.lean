import Verif.Model.History

/-!
# The searches when memory runs out

The searches of `detail/graph` keep their bit sets in memory of the graph object, but three vectors on
the heap: `neighbors` of the heuristic, and `states` and `to_remove` of `StackDFS` and
`CliqueEnumerator`.  Here every request for such memory may be refused, i.e. throw
`std::bad_alloc`, which pybind11 makes a `MemoryError`.  Nothing in the library catches it, so what
was written to the graph object and to the iterator before stays.  `RecursionDFS` requests nothing
(dfs_recurse.cpp:7-10).  Everything else is as in `Model/Search`, `Model/Enum` and `Model/Api`.
-/

namespace CM

/-- What the heap answers during one call: the number of requests granted before one is refused;
`none`: all are granted.  (`operator new` behind detail/graph/heuristic.cpp:25,
dfs_stack.cpp:28-29, enumerate.cpp:102-103; models no line of /repo.) -/
abbrev Heap := Option Nat

/-- One request: `none` is `std::bad_alloc`. (As above.) -/
def Heap.request : Heap → Option Heap
  | none => some none
  | some 0 => none
  | some (n + 1) => some (some n)

/-- The capacities of the vectors `states` and `to_remove` (detail/graph/clique.h:22-29,
dfs.h:58-74) and the heap. -/
structure Vecs where
  states : Nat
  toRemove : Nat
  heap : Heap
  deriving DecidableEq, Repr

namespace Vecs

/-- dfs_stack.cpp:28-29, enumerate.cpp:102-103: `states.reserve(n); to_remove.reserve(n)`. The first
component is what the vectors have, the second is false if a request was refused. -/
def reserve (q : Vecs) (n : Nat) : Vecs × Bool :=
  match (if n ≤ q.states then some q else q.heap.request.map fun h => ⟨n, q.toRemove, h⟩) with
  | none => (q, false)
  | some q =>
    match (if n ≤ q.toRemove then some q else q.heap.request.map fun h => ⟨q.states, n, h⟩) with
    | none => (q, false)
    | some q => (q, true)

/-- `states.push_back(..)` (dfs_stack.cpp:81, 168, enumerate.cpp:80, 197) for a vector with `size` elements.
`grow size` is the capacity a full vector gets, which the standard leaves open. -/
def pushState (grow : Nat → Nat) (q : Vecs) (size : Nat) : Option Vecs :=
  if size < q.states then some q else q.heap.request.map fun h => ⟨grow size, q.toRemove, h⟩

/-- `to_remove.push_back(k)` (dfs_stack.cpp:125, enumerate.cpp:154). -/
def pushRemove (grow : Nat → Nat) (q : Vecs) (size : Nat) : Option Vecs :=
  if size < q.toRemove then some q else q.heap.request.map fun h => ⟨q.states, grow size, h⟩

end Vecs

namespace Graph

/-- dfs_stack.cpp:118-130, `stackScan`; `none` if `to_remove.push_back` throws. -/
def stackScanA (grow : Nat → Nat) (G : Graph) (V U : Vtx) (cand : GBits) (eb : Mem)
    (left cs k0 pot0 : Nat) (q : Vecs) : M (Option (List Nat × Nat × Vecs)) :=
  loop (V.N + 2) (fun (s : (Nat × Nat × List Nat × Nat) × Vecs) =>
    let ((k, start, rm, pot), q) := s
    if k < V.N ∧ pot > G.curMax then do
      let val ← G.nbr V k
      let (f, ans) ← binaryFind G.el (uadd U.elo start) (usub U.N start) val
      match (if f then some q else q.pushRemove grow rm.length) with
      | none => .ok (.inr none)
      | some q => do
        let rm := if f then rm else rm ++ [k]
        let start := uadd start ans
        let pot := usub left rm.length + cs + 1
        let k ← cand.next eb (k + 1)
        .ok (.inl ((k, start, rm, pot), q))
    else .ok (.inr (some (rm, pot, q)))) ((k0, U.spos, [], pot0), q)

/-- How the inner `for` of `StackDFS::process_vertex` ends (dfs_stack.cpp:105-180). -/
inductive ForExitA where
  /-- `break` after pushing a state -/
  | pushed (G : Graph) (top new : SState) (q : Vecs)
  /-- loop condition false at this `j` -/
  | done (G : Graph) (top : SState) (j : Nat) (q : Vecs)
  /-- `std::bad_alloc` -/
  | oom (G : Graph)

/-- dfs_stack.cpp:107-179, `stackFor`; `size` is the size of `states`. -/
def stackForA (grow : Nat → Nat) (cur : Nat) (V : Vtx) (req cs size : Nat)
    (s : (Graph × SState × Nat) × Vecs) : M (((Graph × SState × Nat) × Vecs) ⊕ ForExitA) := do
  let ((G, top, left), q) := s
  let j := top.startAt
  if j < V.N then do
    let eb ← top.cand.reset G.eb j
    let sa ← top.cand.next eb (j + 1)
    let G := { G with eb := eb }
    let top := { top with startAt := sa }
    let left := usub left 1
    let pot := left + 1 + cs
    let vert ← G.nbr V j
    let U ← G.vtx vert
    match ← G.stackScanA grow V U top.cand eb left cs sa pot q with
    | none => .ok (.inr (.oom G))
    | some (rm, pot, q) =>
      if pot > G.curMax then
        if left = 0 then do
          let eb ← top.res.set G.eb j
          let G ← { G with eb := eb }.saveClique cur V top.res pot
          let eb ← top.res.reset G.eb j
          .ok (.inl (({ G with eb := eb }, top, left), q))
        else do
          let (G, ptr) := G.loadMemory req
          let (cand, eb) ← GBits.copyFrom top.cand ptr G.eb
          let eb ← top.res.set eb j
          let eb ← rm.foldlM (fun eb k => cand.reset eb k) eb
          match q.pushState grow size with
          | none => .ok (.inr (.oom { G with eb := eb }))
          | some q => .ok (.inr (.pushed { G with eb := eb } top
              { id := j, startAt := j, res := top.res, cand := cand } q))
      else .ok (.inl ((G, top, left), q))
  else .ok (.inr (.done G top j q))

/-- dfs_stack.cpp:86-194, `stackBody`; at the end `none` if memory ran out. -/
def stackBodyA (grow : Nat → Nat) (cur : Nat) (V : Vtx) (req : Nat)
    (s : (Graph × List SState × Nat) × Vecs) :
    M (((Graph × List SState × Nat) × Vecs) ⊕ (Graph × Option (List SState × Vecs))) :=
  let ((G, states, cs), q) := s
  match states with
  | [] => .ok (.inr (G, some ([], q)))
  | top :: rest =>
    if G.curMax ≥ G.limit then .ok (.inr (G, some (top :: rest, q)))
    else do
      let (eb, left) ← top.cand.count G.eb
      let sa ← top.cand.next eb top.startAt
      let r ← loop (V.N + 2) (stackForA grow cur V req cs (rest.length + 1))
        (({ G with eb := eb }, { top with startAt := sa }, left), q)
      match r with
      | .oom G => .ok (.inr (G, none))
      | .pushed G top new q => .ok (.inl ((G, new :: top :: rest, cs + 1), q))
      | .done G top j q =>
        if j = V.N then do
          let G ← G.clearMemory req
          let eb ← top.res.reset G.eb top.id
          .ok (.inl (({ G with eb := eb }, rest, usub cs 1), q))
        else .ok (.inl ((G, top :: rest, cs), q))

/-- dfs_stack.cpp:42-206 `StackDFS::process_vertex`; `none` if memory ran out. -/
def stackVertexA (grow : Nat → Nat) (G : Graph) (cur : Nat) (q : Vecs) :
    M (Graph × Option Vecs) := do
  let V ← G.vtx cur
  let req := dlen V.N
  let (G, x) ← G.rootState V req
  let (eb, pot) ← G.fillCand V x.cand G.eb
  let G := { G with eb := eb }
  if pot ≤ G.curMax then do
    let G ← G.clearMemory (2 * req)
    .ok (G, some q)
  else
    match q.pushState grow 0 with
    | none => .ok (G, none)
    | some q => do
      match ← loop (2 ^ (V.N + 1)) (stackBodyA grow cur V req) ((G, [x], 1), q) with
      | (G, none) => .ok (G, none)
      | (G, some (states, q)) => do
        let G ← if states.isEmpty then .ok G else G.clearMemory (req * states.length)
        let G ← G.clearMemory req
        .ok (G, some q)

/-- dfs_stack.cpp:31-37: one vertex of the loop over all of them; after `std::bad_alloc`, nothing. -/
def stackStepA (grow : Nat → Nat) (i : Nat) : Graph × Option Vecs → M (Graph × Option Vecs)
  | (G, none) => .ok (G, none)
  | (G, some q) => do
    let V ← G.vtx i
    if V.mcs ≤ G.curMax ∨ G.curMax ≥ G.limit then .ok (G, some q)
    else G.stackVertexA grow i q

/-- dfs_stack.cpp:25-40 `StackDFS::process_graph` with a new `StackDFS`; `none` if memory ran
out. -/
def stackGraphA (grow : Nat → Nat) (G : Graph) (h : Heap) : M (Graph × Option (Nat × Heap)) :=
  match Vecs.reserve ⟨0, 0, h⟩ G.limit with
  | (_, false) => .ok (G, none)
  | (q, true) => do
    let s ← G.stackVertexA grow G.curLoc q
    let s ← forRange 0 s.1.nVert (stackStepA grow) s
    match s with
    | (G, none) => .ok (G, none)
    | (G, some q) => .ok (G, some (G.nVert, q.heap))

/-- heuristic.cpp:22-40 `DegreeHeuristic::process_graph` with a new `DegreeHeuristic`: `neighbors.resize(max_degree)`,
then as in `heurGraph`. -/
def heurGraphA (srt : List VData → List VData) (G : Graph) (h : Heap) :
    M (Graph × Option Heap) :=
  match (if G.maxDeg = 0 then some h else h.request) with
  | none => .ok (G, none)
  | some h => do
    let G ← G.heurGraph srt
    .ok (G, some h)

/-- clique.cpp:15-34 `find_max_cliques`; `none` if memory ran out. -/
def findMaxCliquesA (grow : Nat → Nat) (srt : List VData → List VData) (G : Graph)
    (startVert : Nat) (useHeur useDfs : Bool) (tl : TimeLimit) (h : Heap) :
    M (Graph × Option (Nat × Heap)) := do
  match ← (if useHeur then G.heurGraphA srt h else .ok (G, some h)) with
  | (G, none) => .ok (G, none)
  | (G, some h) =>
    if useDfs then
      match tl with
      | none => G.stackGraphA grow h
      | some t => do
        let (G, sv) ← G.recGraph t startVert
        .ok (G, some (sv, h))
    else .ok (G, some (startVert, h))

/-- enumerate.cpp:39-84 `load_vertex`; `none` if `states.push_back` throws. -/
def enumLoadA (grow : Nat → Nat) (G : Graph) (E : Enum) (q : Vecs) :
    M (Graph × Enum × Vecs × Option Bool) := do
  let V ← G.vtx E.cur
  let req := dlen V.N
  let (G, x) ← G.rootState V req
  let (eb, pot) ← G.fillCand V x.cand G.eb
  let G := { G with eb := eb }
  if pot < E.required then do
    let G ← G.clearMemory (2 * req)
    .ok (G, { E with req := req }, q, some false)
  else
    match q.pushState grow E.states.length with
    | none => .ok (G, { E with req := req }, q, none)
    | some q => .ok (G, { E with req := req, states := x :: E.states, cliqueSize := 1 }, q, some true)

/-- enumerate.cpp:27-36 `process_vertex`; false if memory ran out. -/
def enumVertexA (grow : Nat → Nat) (G : Graph) (E : Enum) (q : Vecs) :
    M (Graph × Enum × Vecs × Bool) :=
  loop (G.vs.length + 1) (fun (s : (Graph × Enum) × Vecs) => do
    let ((G, E), q) := s
    if E.cur < G.vs.length then do
      let V ← G.vtx E.cur
      if V.mcs < E.required then .ok (.inl ((G, { E with cur := E.cur + 1 }), q))
      else do
        match ← G.enumLoadA grow E q with
        | (G, E, q, none) => .ok (.inr (G, E, q, false))
        | (G, E, q, some true) => .ok (.inr (G, E, q, true))
        | (G, E, q, some false) => .ok (.inl ((G, { E with cur := E.cur + 1 }), q))
    else .ok (.inr (G, E, q, true))) ((G, { E with cur := E.cur + 1 }), q)

/-- enumerate.cpp:146-159, `enumScan`; `none` if `to_remove.push_back` throws. -/
def enumScanA (grow : Nat → Nat) (G : Graph) (V U : Vtx) (cand : GBits) (eb : Mem)
    (left cs required k0 pot0 : Nat) (q : Vecs) : M (Option (List Nat × Nat × Vecs)) :=
  loop (V.N + 2) (fun (s : (Nat × Nat × List Nat × Nat) × Vecs) => do
    let ((k, start, rm, pot), q) := s
    if k < V.N ∧ pot ≥ required then
      if ← cand.test eb k then do
        let val ← G.nbr V k
        let (f, ans) ← binaryFind G.el (uadd U.elo start) (usub U.N start) val
        match (if f then some q else q.pushRemove grow rm.length) with
        | none => .ok (.inr none)
        | some q =>
          let rm := if f then rm else rm ++ [k]
          let pot := usub left rm.length + cs + 1
          .ok (.inl ((k + 1, uadd start ans, rm, pot), q))
      else .ok (.inl ((k + 1, start, rm, pot), q))
    else .ok (.inr (some (rm, pot, q)))) ((k0, U.spos + 1, [], pot0), q)

/-- How the inner `for` of `CliqueEnumerator::process_graph` ends (enumerate.cpp:132-209). -/
inductive EnumExitA where
  /-- `return cur` -/
  | found (G : Graph) (top : SState) (q : Vecs)
  /-- `break` after a push -/
  | pushed (G : Graph) (top new : SState) (q : Vecs)
  /-- loop condition false -/
  | done (G : Graph) (top : SState) (q : Vecs)
  /-- `std::bad_alloc` -/
  | oom (G : Graph) (top : SState)

/-- enumerate.cpp:132-208, `enumFor`; `size` is the size of `states`. -/
def enumForA (grow : Nat → Nat) (V : Vtx) (req cs required size : Nat)
    (s : (Graph × SState × Nat × Nat) × Vecs) :
    M (((Graph × SState × Nat × Nat) × Vecs) ⊕ EnumExitA) := do
  let ((G, top, left, j), q) := s
  if j < V.N then do
    if ← top.cand.test G.eb j then do
      let eb ← top.cand.reset G.eb j
      let G := { G with eb := eb }
      let top := { top with startAt := j + 1 }
      let left := usub left 1
      let pot := left + 1 + cs
      let vert ← G.nbr V j
      let U ← G.vtx vert
      match ← G.enumScanA grow V U top.cand eb left cs required (j + 1) pot q with
      | none => .ok (.inr (.oom G top))
      | some (rm, pot, q) =>
        if pot ≥ required then
          if cs + 1 ≥ required then do
            let eb ← top.res.set G.eb j
            let vb ← G.vbits V
            let eb ← vb.copyData top.res.off eb
            let eb ← top.res.reset eb j
            .ok (.inr (.found { G with eb := eb } top q))
          else do
            let (G, ptr) := G.loadMemory req
            let (cand, eb) ← GBits.copyFrom top.cand ptr G.eb
            let eb ← top.res.set eb j
            let eb ← rm.foldlM (fun eb k => cand.reset eb k) eb
            match q.pushState grow size with
            | none => .ok (.inr (.oom { G with eb := eb } top))
            | some q => .ok (.inr (.pushed { G with eb := eb } top
                { id := j, startAt := j, res := top.res, cand := cand } q))
        else .ok (.inl ((G, top, left, j + 1), q))
    else .ok (.inl ((G, top, left, j + 1), q))
  else .ok (.inr (.done G top q))

/-- enumerate.cpp:106-223, `enumBody`; at the end the vertex, or `none` if memory ran out. -/
def enumBodyA (grow : Nat → Nat) (s : (Graph × Enum) × Vecs) :
    M (((Graph × Enum) × Vecs) ⊕ (Graph × Enum × Vecs × Option Nat)) :=
  let ((G, E), q) := s
  if E.cur < G.nVert then
    match E.states with
    | [] => do
      let G ← G.clearMemory E.req
      match ← G.enumVertexA grow E q with
      | (G, E, q, false) => .ok (.inr (G, E, q, none))
      | (G, E, q, true) => .ok (.inl ((G, E), q))
    | top :: rest => do
      let V ← G.vtx E.cur
      let (eb, left) ← top.cand.count G.eb
      let r ← loop (V.N + 2) (enumForA grow V E.req E.cliqueSize E.required (rest.length + 1))
        (({ G with eb := eb }, top, left, top.startAt), q)
      match r with
      | .oom G top => .ok (.inr (G, { E with states := top :: rest }, q, none))
      | .found G top q => .ok (.inr (G, { E with states := top :: rest }, q, some E.cur))
      | .pushed G top new q =>
        .ok (.inl ((G, { E with states := new :: top :: rest, cliqueSize := E.cliqueSize + 1 }), q))
      | .done G top q => do
        let G ← G.clearMemory E.req
        let eb ← top.res.reset G.eb top.id
        .ok (.inl (({ G with eb := eb },
          { E with states := rest, cliqueSize := usub E.cliqueSize 1 }), q))
  else .ok (.inr (G, E, q, some E.cur))

/-- enumerate.cpp:88-229 `process_graph`; the vertex, or `none` if memory ran out. -/
def enumGraphA (grow : Nat → Nat) (G : Graph) (E : Enum) (q : Vecs) :
    M (Graph × Enum × Vecs × Option Nat) :=
  if E.required = 0 then .ok (G, { E with cur := G.nVert }, q, some G.nVert)
  else if E.required = 1 ∧ E.cur < G.nVert then do
    let V ← G.vtx E.cur
    let b ← G.vbits V
    let eb ← b.clear G.eb 0
    let eb ← b.set eb V.spos
    .ok ({ G with eb := eb }, { E with cur := E.cur + 1 }, q, some E.cur)
  else
    match q.reserve G.limit with
    | (q, false) => .ok (G, E, q, none)
    | (q, true) =>
      loop ((G.nVert + 2) * 2 ^ (G.maxDeg + 2)) (enumBodyA grow) ((G, E), q)

end Graph

/-- What a call of the Python API does. (The exceptions are those of core/pygraph.cpp:45-68 and
core/pyiterator.cpp:8-18.) -/
inductive HeapRes (α : Type) where
  | ret (a : α)
  /-- `RuntimeError` -/
  | raise
  /-- `MemoryError` -/
  | noMemory
  deriving DecidableEq, Repr

namespace PyGraph

/-- pygraph.cpp:45-68 `get_max_clique`, wrap_pygraph.cpp:27-30.  The vector that is returned, the
list made of it and the message of an exception are requested in parts; here each is one request,
since nothing is written between the parts. -/
def getMaxCliqueA (grow : Nat → Nat) (srt : List Graph.VData → List Graph.VData) (h : Heap)
    (pg : PyGraph) (a : Args) : M (PyGraph × HeapRes (List Nat)) :=
  let cv := if a.continueSearch then pg.currentVertex else 0
  let heur := if a.continueSearch ∧ pg.currentVertex ≠ 0 then false else a.useHeuristic
  let pg := { pg with currentVertex := cv }
  match pg.checkLoaded with
  | none =>
    match h.request with
    | none => .ok (pg, .noMemory)
    | some _ => .ok (pg, .raise)
  | some G => do
    let G := { G with
      curMax := if a.lowerBound > G.curMax then a.lowerBound else G.curMax
      limit := if a.upperBound < G.limit then a.upperBound else G.limit }
    match ← G.findMaxCliquesA grow srt cv heur a.useDfs a.timeLimit h with
    | (G, none) => .ok ({ pg with G := some G }, .noMemory)
    | (G, some (cv, h)) => do
      let fin := decide (cv ≥ pg.nvert)
      let (G, ans) ← G.getClique G.curLoc
      let pg := { pg with G := some G, currentVertex := cv, finishedAll := fin }
      match h.request with
      | none => .ok (pg, .noMemory)
      | some h =>
        match h.request with
        | none => .ok (pg, .noMemory)
        | some _ => if a.lowerBound > ans.length then .ok (pg, .raise) else .ok (pg, .ret ans)

/-- pyiterator.cpp:8-18 `__next__` of an iterator that is `E` and has vectors with the capacities of
`q`; `ret none` is `StopIteration`.  The clique is in a vector and then in a list. -/
def nextCliqueA (grow : Nat → Nat) (pg : PyGraph) (E : Enum) (q : Vecs) :
    M (PyGraph × Enum × Vecs × HeapRes (Option (List Nat))) :=
  match pg.G with
  | none => .error .ub
  | some G => do
    match ← G.enumGraphA grow E q with
    | (G, E, q, none) => .ok ({ pg with G := some G }, E, q, .noMemory)
    | (G, E, q, some v) =>
      if v > pg.nvert then .ok ({ pg with G := some G }, E, q, .ret none)
      else do
        let (G, ans) ← G.getClique v
        match q.heap.request with
        | none => .ok ({ pg with G := some G }, E, q, .noMemory)
        | some h =>
          match h.request with
          | none => .ok ({ pg with G := some G }, E, q, .noMemory)
          | some h => .ok ({ pg with G := some G }, E, { q with heap := h }, .ret (some ans))

/-- Calls of `__next__` on one iterator, the `i`-th with the `i`-th heap, whatever they answer
(pyiterator.cpp:8-18); the list records the answers. -/
def nextsA (grow : Nat → Nat) : List Heap → PyGraph → Enum → Vecs →
    M (PyGraph × Enum × Vecs × List (HeapRes (Option (List Nat))))
  | [], pg, E, q => .ok (pg, E, q, [])
  | h :: hs, pg, E, q => do
    let (pg, E, q, c) ← pg.nextCliqueA grow E { q with heap := h }
    let (pg, E, q, cs) ← nextsA grow hs pg E q
    .ok (pg, E, q, c :: cs)

end PyGraph

/-- The state after a call with a heap.  Of the calls other than searches only those with enough
memory are here. (core/pygraph.cpp:38-68.) -/
def Op.runA (grow : Nat → Nat) (h : Heap) (pg : PyGraph) : Op → M PyGraph
  | .search srt a => do
    let (pg, _) ← pg.getMaxCliqueA grow srt h a
    .ok pg
  | .reset => pg.resetSearch
  | .list k => do
    let (pg, _) ← pg.listCliques k
    .ok pg

/-- The state after a sequence of calls, each with its own heap. (A client of
core/wrap_pygraph.cpp:27-40; models no line of /repo.) -/
def runsA (grow : Nat → Nat) (steps : List (Op × Heap)) (pg : PyGraph) : M PyGraph :=
  steps.foldlM (fun pg s => s.1.runA grow s.2 pg) pg

end CM
