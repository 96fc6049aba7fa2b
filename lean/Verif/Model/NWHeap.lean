import Verif.Model.Heap
import Verif.Model.NWHistory

/-!
# The weighted searches when memory runs out

As `Model/Heap`, for `NWGraph`: every request for memory made by the heuristic and the search of
`detail/nwgraph` may be refused.  The vectors `states` and `to_remove` are reserved with `max_depth`
entries, which counts neighbours by their unweighted degrees (`g.limit`), although the candidates of
a root are chosen by their weighted degrees; a third vector, `weights`, is reserved with
`max_neighbors` entries and never grows.
-/

namespace CM

namespace NWG

variable {R : Type} [Zero R] [Add R] [Sub R] [NatCast R] [LT R] [LE R] [DecidableLT R]
  [DecidableLE R]

/-- nw_dfs.cpp:98-114, `stackScan`; `none` if `to_remove.push_back` throws. -/
def stackScanA (grow : Nat → Nat) (H : NWG R) (V U : Vtx) (cand : GBits) (eb : Mem) (ws : List R)
    (left k0 : Nat) (q : Vecs) : M (Option (List Nat × Nat × R × Vecs)) :=
  loop (V.N + 2) (fun (s : (Nat × List Nat × Nat × R) × Vecs) =>
    let ((k, rm, left, pot), q) := s
    if k < V.N ∧ left ≠ 0 then do
      let val ← H.g.nbr V k
      let (f, _) ← binaryFind H.g.el (uadd U.elo U.spos) (usub U.N U.spos) val
      if f then do
        let w ← rd ws k
        let k' ← cand.next eb (k + 1)
        .ok (.inl ((k', rm, left, pot + w), q))
      else
        match q.pushRemove grow rm.length with
        | none => .ok (.inr none)
        | some q => do
          let k' ← cand.next eb (k + 1)
          .ok (.inl ((k', rm ++ [k], usub left 1, pot), q))
    else .ok (.inr (some (rm, left, pot, q)))) ((k0, [], left, 0), q)

/-- How the inner `for` of `NWStackDFS::process_vertex` ends (nw_dfs.cpp:88-170). -/
inductive ForExitA (R : Type) where
  /-- `break` after pushing a state -/
  | pushed (H : NWG R) (top new : WState R) (cw : R) (q : Vecs)
  /-- loop condition false at this `j` -/
  | done (H : NWG R) (top : WState R) (j : Nat) (q : Vecs)
  /-- `std::bad_alloc` -/
  | oom (H : NWG R)

/-- nw_dfs.cpp:88-166, `stackFor`; `size` is the size of `states`. -/
def stackForA (grow : Nat → Nat) (cur : Nat) (V : Vtx) (req : Nat) (ws : List R) (cw : R)
    (size : Nat) (s : (NWG R × WState R) × Vecs) :
    M (((NWG R × WState R) × Vecs) ⊕ ForExitA R) := do
  let ((H, top), q) := s
  let j := top.startAt
  if j < V.N then do
    let eb ← top.cand.reset H.g.eb j
    let sa ← top.cand.next eb (j + 1)
    let wj ← rd ws j
    let (eb, left) ← top.cand.count eb
    let H := { H with g := { H.g with eb := eb } }
    let top := { top with startAt := sa, pot := top.pot - wj }
    let vert ← H.g.nbr V j
    let U ← H.g.vtx vert
    match ← H.stackScanA grow V U top.cand eb ws left sa q with
    | none => .ok (.inr (.oom H))
    | some (rm, left, cp, q) =>
      let pot := cp + cw + wj
      if pot > H.curMax then
        if left = 0 then do
          let eb ← top.res.set H.g.eb j
          let H ← { H with g := { H.g with eb := eb } }.saveClique cur V top.res pot
          let eb ← top.res.reset H.g.eb j
          .ok (.inl (({ H with g := { H.g with eb := eb } }, top), q))
        else do
          let (g, ptr) := H.g.loadMemory req
          let (cand, eb) ← GBits.copyFrom top.cand ptr g.eb
          let eb ← top.res.set eb j
          let eb ← rm.foldlM (fun eb k => cand.reset eb k) eb
          match q.pushState grow size with
          | none => .ok (.inr (.oom { H with g := { g with eb := eb } }))
          | some q => .ok (.inr (.pushed { H with g := { g with eb := eb } } top
              { id := j, startAt := j, pot := cp, res := top.res, cand := cand } (cw + wj) q))
      else .ok (.inl ((H, top), q))
  else .ok (.inr (.done H top j q))

/-- nw_dfs.cpp:74-181, `stackBody`; at the end `none` if memory ran out. -/
def stackBodyA (grow : Nat → Nat) (cur : Nat) (V : Vtx) (req : Nat) (ws : List R)
    (s : (NWG R × List (WState R) × R) × Vecs) :
    M (((NWG R × List (WState R) × R) × Vecs) ⊕ (NWG R × Option (List (WState R) × Vecs))) :=
  let ((H, states, cw), q) := s
  match states with
  | [] => .ok (.inr (H, some ([], q)))
  | top :: rest =>
    if H.curMax ≥ H.limit then .ok (.inr (H, some (top :: rest, q)))
    else do
      let (eb, _) ← top.cand.count H.g.eb
      let sa ← top.cand.next eb top.startAt
      let r ← loop (V.N + 2) (stackForA grow cur V req ws cw (rest.length + 1))
        (({ H with g := { H.g with eb := eb } }, { top with startAt := sa }), q)
      match r with
      | .oom H => .ok (.inr (H, none))
      | .pushed H top new cw q => .ok (.inl ((H, new :: top :: rest, cw), q))
      | .done H top j q =>
        if j = V.N then do
          let g ← H.g.clearMemory req
          let eb ← top.res.reset g.eb top.id
          let wid ← rd ws top.id
          .ok (.inl (({ H with g := { g with eb := eb } }, rest, cw - wid), q))
        else .ok (.inl ((H, top :: rest, cw), q))

/-- nw_dfs.cpp:25-193 `NWStackDFS::process_vertex`; `none` if memory ran out. -/
def stackVertexA (grow : Nat → Nat) (s : NWG R × List R) (cur : Nat) (q : Vecs) :
    M (NWG R × Option (List R × Vecs)) := do
  let (H, ws) := s
  let V ← H.g.vtx cur
  let req := dlen V.N
  let (g, x) ← H.g.rootState V req
  let (eb, ws, pot) ← { H with g := g }.fillCand cur V x.cand g.eb ws
  let H := { H with g := { g with eb := eb } }
  let wc ← rd H.wt cur
  if pot + wc ≤ H.curMax then do
    let g ← H.g.clearMemory (2 * req)
    .ok ({ H with g := g }, some (ws, q))
  else
    match q.pushState grow 0 with
    | none => .ok (H, none)
    | some q => do
      match ← loop (2 ^ (V.N + 1)) (stackBodyA grow cur V req ws)
        ((H, [{ id := x.id, startAt := x.startAt, pot := pot, res := x.res, cand := x.cand }], wc),
          q) with
      | (H, none) => .ok (H, none)
      | (H, some (states, q)) => do
        let g ← if states.isEmpty then .ok H.g else H.g.clearMemory (req * states.length)
        let g ← g.clearMemory req
        .ok ({ H with g := g }, some (ws, q))

/-- nw_dfs.cpp:10-12: the three vectors of a new `NWStackDFS`; `none` if a request was refused. -/
def stackReserve (H : NWG R) (h : Heap) : Option Vecs :=
  match Vecs.reserve ⟨0, 0, h⟩ H.g.limit with
  | (_, false) => none
  | (q, true) =>
    (if H.g.maxDeg = 0 then some q.heap else q.heap.request).map fun h => { q with heap := h }

/-- nw_dfs.cpp:14-20: one vertex of the loop over all of them; after `std::bad_alloc`, nothing. -/
def stackStepA (grow : Nat → Nat) (i : Nat) :
    NWG R × Option (List R × Vecs) → M (NWG R × Option (List R × Vecs))
  | (H, none) => .ok (H, none)
  | (H, some (ws, q)) => do
    let m ← rd H.mcs i
    if m ≤ H.curMax ∨ H.curMax ≥ H.limit then .ok (H, some (ws, q))
    else stackVertexA grow (H, ws) i q

/-- nw_dfs.cpp:7-23 `NWStackDFS::process_graph` with a new `NWStackDFS`; `none` if memory ran
out. -/
def stackGraphA (grow : Nat → Nat) (junk : Nat → R) (H : NWG R) (h : Heap) :
    M (NWG R × Option (Nat × Heap)) :=
  match H.stackReserve h with
  | none => .ok (H, none)
  | some q => do
    let s ← stackVertexA grow (H, (List.range H.g.maxDeg).map junk) H.curLoc q
    let s ← forRange 0 s.1.g.nVert (stackStepA grow) s
    match s with
    | (H, none) => .ok (H, none)
    | (H, some (_, q)) => .ok (H, some (H.g.nVert, q.heap))

/-- nw_heuristic.cpp:9-28 `NWHeuristic::process_graph` with a new `NWHeuristic`:
`neighbors.resize(max_neighbors)`, then as in `heurGraph`. -/
def heurGraphA (srt : List (WData R) → List (WData R)) (H : NWG R) (h : Heap) :
    M (NWG R × Option Heap) :=
  match (if H.g.maxDeg = 0 then some h else h.request) with
  | none => .ok (H, none)
  | some h => do
    let H ← H.heurGraph srt
    .ok (H, some h)

/-- nwclique.cpp:8-15 `find_max_cliques`; `none` if memory ran out. -/
def findMaxCliquesA (grow : Nat → Nat) (srt : List (WData R) → List (WData R)) (junk : Nat → R)
    (H : NWG R) (startVert : Nat) (useHeur useDfs : Bool) (h : Heap) :
    M (NWG R × Option (Nat × Heap)) := do
  match ← (if useHeur then H.heurGraphA srt h else .ok (H, some h)) with
  | (H, none) => .ok (H, none)
  | (H, some h) => if useDfs then H.stackGraphA grow junk h else .ok (H, some (startVert, h))

end NWG

namespace PyNW

variable {R : Type} [Zero R] [Add R] [Sub R] [NatCast R] [LT R] [LE R] [DecidableLT R]
  [DecidableLE R]

/-- pynwgraph.cpp:44-64 `get_max_clique`, wrap_pygraph.cpp:81-84.  The vector that is returned, the
list made of it and the message of an exception are each one request, as in
`PyGraph.getMaxCliqueA`. -/
def getMaxCliqueA (grow : Nat → Nat) (srt : List (NWG.WData R) → List (NWG.WData R))
    (junk : Nat → R) (h : Heap) (pg : PyNW R) (a : Args R) : M (PyNW R × HeapRes (List Nat)) :=
  let pg := { pg with currentVertex := 0 }
  match pg.checkLoaded with
  | none =>
    match h.request with
    | none => .ok (pg, .noMemory)
    | some _ => .ok (pg, .raise)
  | some H => do
    let H := { H with
      curMax := if a.lowerBound > H.curMax then a.lowerBound else H.curMax
      limit := if a.upperBound < H.limit then a.upperBound else H.limit }
    match ← H.findMaxCliquesA grow srt junk 0 a.useHeuristic a.useDfs h with
    | (H, none) => .ok ({ pg with G := some H }, .noMemory)
    | (H, some (cv, h)) => do
      let fin := decide (cv ≥ pg.nvert)
      let (H, ans) ← H.getClique H.curLoc
      let pg := { pg with G := some H, currentVertex := cv, finishedAll := fin }
      match h.request with
      | none => .ok (pg, .noMemory)
      | some h => do
        let w ← H.cliqueWeight ans
        match h.request with
        | none => .ok (pg, .noMemory)
        | some _ => if a.lowerBound > w then .ok (pg, .raise) else .ok (pg, .ret ans)

end PyNW

/-- The state after a call with a heap.  Of the calls other than searches only those with enough
memory are here. (core/pynwgraph.cpp:37-64.) -/
def WOp.runA {R : Type} [Zero R] [Add R] [Sub R] [NatCast R] [LT R] [LE R] [DecidableLT R]
    [DecidableLE R] (grow : Nat → Nat) (h : Heap) (pg : PyNW R) : WOp R → M (PyNW R)
  | .search srt junk a => do
    let (pg, _) ← pg.getMaxCliqueA grow srt junk h a
    .ok pg
  | .list junk weight => do
    let (pg, _) ← pg.listCliques junk weight
    .ok pg
  | .reset => pg.resetSearch

/-- The state after a sequence of calls, each with its own heap. (A client of
core/wrap_pygraph.cpp:81-100; models no line of /repo.) -/
def wrunsA {R : Type} [Zero R] [Add R] [Sub R] [NatCast R] [LT R] [LE R] [DecidableLT R]
    [DecidableLE R] (grow : Nat → Nat) (steps : List (WOp R × Heap)) (pg : PyNW R) : M (PyNW R) :=
  steps.foldlM (fun pg s => s.1.runA grow s.2 pg) pg

end CM
