import Verif.Model.NWHistory

/-!
# The searches as the C++ standard reads them: nothing is used after `pop_back`

`dfs_stack.cpp`, `enumerate.cpp`, `nw_dfs.cpp` and `nw_enumerate.cpp` hold a reference
`cur_state` to the last element of `states`, call `states.pop_back()`, which destroys that element,
and then read `cur_state.id` and `cur_state.res`.  `Model/Search` and the others let this read find
the old value, as compilers do today.  Here the read is what the standard says: undefined
behaviour.  Everything else is as there, and what does not change is taken from there.
-/

namespace CM

namespace Graph

/-- dfs_stack.cpp:86-194: `stackBody` with the use of `cur_state` on line 191, after the
`pop_back` of line 186, undefined. -/
def stackBodyStd (cur : Nat) (V : Vtx) (req : Nat) (s : Graph × List SState × Nat) :
    M ((Graph × List SState × Nat) ⊕ (Graph × List SState)) :=
  let (G, states, cs) := s
  match states with
  | [] => .ok (.inr (G, []))
  | top :: rest =>
    if G.curMax ≥ G.limit then .ok (.inr (G, top :: rest))
    else do
      let (eb, left) ← top.cand.count G.eb
      let sa ← top.cand.next eb top.startAt
      let r ← loop (V.N + 2) (stackFor cur V req cs)
        ({ G with eb := eb }, { top with startAt := sa }, left)
      match r with
      | .pushed G top new => .ok (.inl (G, new :: top :: rest, cs + 1))
      | .done G top j =>
        if j = V.N then do
          let _ ← G.clearMemory req
          .error .ub
        else .ok (.inl (G, top :: rest, cs))

/-- dfs_stack.cpp:42-206 `StackDFS::process_vertex`. -/
def stackVertexStd (G : Graph) (cur : Nat) : M Graph := do
  let V ← G.vtx cur
  let req := dlen V.N
  let (G, x) ← G.rootState V req
  let (eb, pot) ← G.fillCand V x.cand G.eb
  let G := { G with eb := eb }
  if pot ≤ G.curMax then G.clearMemory (2 * req)
  else do
    let (G, states) ← loop (2 ^ (V.N + 1)) (stackBodyStd cur V req) (G, [x], 1)
    let G ← if states.isEmpty then .ok G else G.clearMemory (req * states.length)
    G.clearMemory req

/-- dfs_stack.cpp:25-40 `StackDFS::process_graph`. -/
def stackGraphStd (G : Graph) : M (Graph × Nat) := do
  let G ← G.stackVertexStd G.curLoc
  let G ← forRange 0 G.nVert (fun i G => do
    let V ← G.vtx i
    if V.mcs ≤ G.curMax ∨ G.curMax ≥ G.limit then .ok G
    else G.stackVertexStd i) G
  .ok (G, G.nVert)

/-- clique.cpp:15-34 `find_max_cliques`.  (`RecursionDFS` and `Heuristic` pop nothing.) -/
def findMaxCliquesStd (srt : List VData → List VData) (G : Graph) (startVert : Nat)
    (useHeur useDfs : Bool) (tl : TimeLimit) : M (Graph × Nat) := do
  let G ← if useHeur then G.heurGraph srt else .ok G
  if useDfs then
    match tl with
    | none => G.stackGraphStd
    | some t => G.recGraph t startVert
  else .ok (G, startVert)

/-- enumerate.cpp:106-223: `enumBody` with the use of `cur_state` on line 220, after the
`pop_back` of line 215, undefined. -/
def enumBodyStd (s : Graph × Enum) : M ((Graph × Enum) ⊕ (Graph × Enum × Nat)) :=
  let (G, E) := s
  if E.cur < G.nVert then
    match E.states with
    | [] => do
      let G ← G.clearMemory E.req
      let (G, E) ← G.enumVertex E
      .ok (.inl (G, E))
    | top :: rest => do
      let V ← G.vtx E.cur
      let (eb, left) ← top.cand.count G.eb
      let r ← loop (V.N + 2) (enumFor V E.req E.cliqueSize E.required)
        ({ G with eb := eb }, top, left, top.startAt)
      match r with
      | .found G top => .ok (.inr (G, { E with states := top :: rest }, E.cur))
      | .pushed G top new =>
        .ok (.inl (G, { E with states := new :: top :: rest, cliqueSize := E.cliqueSize + 1 }))
      | .done G _ => do
        let _ ← G.clearMemory E.req
        .error .ub
  else .ok (.inr (G, E, E.cur))

/-- enumerate.cpp:88-229 `process_graph`. -/
def enumGraphStd (G : Graph) (E : Enum) : M (Graph × Enum × Nat) :=
  if E.required = 0 then .ok (G, { E with cur := G.nVert }, G.nVert)
  else if E.required = 1 ∧ E.cur < G.nVert then do
    let V ← G.vtx E.cur
    let b ← G.vbits V
    let eb ← b.clear G.eb 0
    let eb ← b.set eb V.spos
    .ok ({ G with eb := eb }, { E with cur := E.cur + 1 }, E.cur)
  else
    loop ((G.nVert + 2) * 2 ^ (G.maxDeg + 2)) enumBodyStd (G, E)

end Graph

namespace PyGraph

/-- pygraph.cpp:45-68 `get_max_clique`. -/
def getMaxCliqueStd (srt : List Graph.VData → List Graph.VData) (pg : PyGraph) (a : Args) :
    M (PyGraph × PyRes (List Nat)) :=
  let cv := if a.continueSearch then pg.currentVertex else 0
  let heur := if a.continueSearch ∧ pg.currentVertex ≠ 0 then false else a.useHeuristic
  let pg := { pg with currentVertex := cv }
  match pg.checkLoaded with
  | none => .ok (pg, .raise)
  | some G => do
    let G := { G with
      curMax := if a.lowerBound > G.curMax then a.lowerBound else G.curMax
      limit := if a.upperBound < G.limit then a.upperBound else G.limit }
    let (G, cv) ← G.findMaxCliquesStd srt cv heur a.useDfs a.timeLimit
    let fin := decide (cv ≥ pg.nvert)
    let (G, ans) ← G.getClique G.curLoc
    let pg := { pg with G := some G, currentVertex := cv, finishedAll := fin }
    if a.lowerBound > ans.length then .ok (pg, .raise) else .ok (pg, .ret ans)

/-- pyiterator.cpp:8-18 `__next__`. -/
def nextCliqueStd (pg : PyGraph) (E : Enum) : M (PyGraph × Enum × Option (List Nat)) :=
  match pg.G with
  | none => .error .ub
  | some G => do
    let (G, E, v) ← G.enumGraphStd E
    if v > pg.nvert then .ok ({ pg with G := some G }, E, none)
    else do
      let (G, ans) ← G.getClique v
      .ok ({ pg with G := some G }, E, some ans)

/-- Calls of `__next__` until `StopIteration` (pyiterator.cpp:8-18). -/
def consumeStd : Nat → PyGraph → Enum → M (PyGraph × Enum × List (List Nat))
  | 0, _, _ => .error .fuel
  | fuel + 1, pg, E => do
    match ← pg.nextCliqueStd E with
    | (pg, E, none) => .ok (pg, E, [])
    | (pg, E, some c) => do
      let (pg, E, cs) ← consumeStd fuel pg E
      .ok (pg, E, c :: cs)

/-- `list(G.all_cliques(k))` (core/pyiterator.h:21-27, pyiterator.cpp:8-18). -/
def listCliquesStd (pg : PyGraph) (k : Nat) : M (PyGraph × List (List Nat)) := do
  let E ← pg.allCliques k
  match pg.G with
  | none => .error .ub
  | some G => do
    let (pg, _, cs) ← pg.consumeStd (G.nVert * 2 ^ G.maxDeg + 1) E
    .ok (pg, cs)

end PyGraph

namespace NWG

variable {R : Type} [Zero R] [Add R] [Sub R] [LT R] [LE R] [DecidableLT R] [DecidableLE R]

/-- nw_dfs.cpp:74-181: `stackBody` with the uses of `cur_state` on lines 178 and 179, after the
`pop_back` of line 173, undefined. -/
def stackBodyStd (cur : Nat) (V : Vtx) (req : Nat) (ws : List R)
    (s : NWG R × List (WState R) × R) :
    M ((NWG R × List (WState R) × R) ⊕ (NWG R × List (WState R))) :=
  let (H, states, cw) := s
  match states with
  | [] => .ok (.inr (H, []))
  | top :: rest =>
    if H.curMax ≥ H.limit then .ok (.inr (H, top :: rest))
    else do
      let (eb, _) ← top.cand.count H.g.eb
      let sa ← top.cand.next eb top.startAt
      let r ← loop (V.N + 2) (stackFor cur V req ws cw)
        ({ H with g := { H.g with eb := eb } }, { top with startAt := sa })
      match r with
      | .pushed H top new cw => .ok (.inl (H, new :: top :: rest, cw))
      | .done H top j =>
        if j = V.N then do
          let _ ← H.g.clearMemory req
          .error .ub
        else .ok (.inl (H, top :: rest, cw))

/-- nw_dfs.cpp:25-193 `NWStackDFS::process_vertex`. -/
def stackVertexStd (s : NWG R × List R) (cur : Nat) : M (NWG R × List R) := do
  let (H, ws) := s
  let V ← H.g.vtx cur
  let req := dlen V.N
  let (g, x) ← H.g.rootState V req
  let (eb, ws, pot) ← { H with g := g }.fillCand cur V x.cand g.eb ws
  let H := { H with g := { g with eb := eb } }
  let wc ← rd H.wt cur
  if pot + wc ≤ H.curMax then do
    let g ← H.g.clearMemory (2 * req)
    .ok ({ H with g := g }, ws)
  else do
    let (H, states) ← loop (2 ^ (V.N + 1)) (stackBodyStd cur V req ws)
      (H, [{ id := x.id, startAt := x.startAt, pot := pot, res := x.res, cand := x.cand }], wc)
    let g ← if states.isEmpty then .ok H.g else H.g.clearMemory (req * states.length)
    let g ← g.clearMemory req
    .ok ({ H with g := g }, ws)

/-- nw_dfs.cpp:7-23 `NWStackDFS::process_graph`. -/
def stackGraphStd (junk : Nat → R) (H : NWG R) : M (NWG R × Nat) := do
  let s ← stackVertexStd (H, (List.range H.g.maxDeg).map junk) H.curLoc
  let s ← forRange 0 s.1.g.nVert (fun i (s : NWG R × List R) => do
    let m ← rd s.1.mcs i
    if m ≤ s.1.curMax ∨ s.1.curMax ≥ s.1.limit then .ok s
    else stackVertexStd s i) s
  .ok (s.1, s.1.g.nVert)

/-- nwclique.cpp:8-15 `find_max_cliques`. -/
def findMaxCliquesStd [NatCast R] (srt : List (WData R) → List (WData R)) (junk : Nat → R)
    (H : NWG R) (startVert : Nat) (useHeur useDfs : Bool) : M (NWG R × Nat) := do
  let H ← if useHeur then H.heurGraph srt else .ok H
  if useDfs then H.stackGraphStd junk else .ok (H, startVert)

/-- nw_enumerate.cpp:82-204: `enumBody` with the uses of `cur_state` on lines 201 and 202, after the
`pop_back` of line 196, undefined. -/
def enumBodyStd (s : NWG R × WEnum R) : M ((NWG R × WEnum R) ⊕ (NWG R × WEnum R × Nat)) :=
  let (H, E) := s
  if E.cur < H.g.nVert then
    match E.states with
    | [] => do
      let g ← H.g.clearMemory E.req
      let (H, E) ← { H with g := g }.enumVertex E
      .ok (.inl (H, E))
    | top :: rest => do
      let V ← H.g.vtx E.cur
      let (eb, _) ← top.cand.count H.g.eb
      let r ← loop (V.N + 2) (enumFor V E.req E.ws E.cliqueWeight E.required)
        ({ H with g := { H.g with eb := eb } }, top, top.startAt)
      match r with
      | .found H top => .ok (.inr (H, { E with states := top :: rest }, E.cur))
      | .pushed H top new cw =>
        .ok (.inl (H, { E with states := new :: top :: rest, cliqueWeight := cw }))
      | .done H _ => do
        let _ ← H.g.clearMemory E.req
        .error .ub
  else .ok (.inr (H, E, E.cur))

/-- nw_enumerate.cpp:75-210 `process_graph`. -/
def enumGraphStd (H : NWG R) (E : WEnum R) : M (NWG R × WEnum R × Nat) :=
  loop ((H.g.nVert + 2) * 2 ^ (H.g.maxDeg + 2)) enumBodyStd (H, E)

end NWG

namespace PyNW

variable {R : Type} [Zero R] [Add R] [Sub R] [NatCast R] [LT R] [LE R] [DecidableLT R]
  [DecidableLE R]

/-- pynwgraph.cpp:44-64 `get_max_clique`. -/
def getMaxCliqueStd (srt : List (NWG.WData R) → List (NWG.WData R)) (junk : Nat → R) (pg : PyNW R)
    (a : Args R) : M (PyNW R × PyRes (List Nat)) :=
  let pg := { pg with currentVertex := 0 }
  match pg.checkLoaded with
  | none => .ok (pg, .raise)
  | some H => do
    let H := { H with
      curMax := if a.lowerBound > H.curMax then a.lowerBound else H.curMax
      limit := if a.upperBound < H.limit then a.upperBound else H.limit }
    let (H, cv) ← H.findMaxCliquesStd srt junk 0 a.useHeuristic a.useDfs
    let fin := decide (cv ≥ pg.nvert)
    let (H, ans) ← H.getClique H.curLoc
    let pg := { pg with G := some H, currentVertex := cv, finishedAll := fin }
    let w ← H.cliqueWeight ans
    if a.lowerBound > w then .ok (pg, .raise) else .ok (pg, .ret ans)

/-- pyiterator.cpp:32-42 `NWCliqueIterator::next_clique`. -/
def nextCliqueStd (pg : PyNW R) (E : WEnum R) : M (PyNW R × WEnum R × Option (List Nat)) :=
  match pg.G with
  | none => .error .ub
  | some H => do
    let (H, E, v) ← H.enumGraphStd E
    if v > pg.nvert then .ok ({ pg with G := some H }, E, none)
    else do
      let (H, ans) ← H.getClique v
      .ok ({ pg with G := some H }, E, some ans)

/-- Calls of `__next__` until `StopIteration` (core/pyiterator.cpp:32-42, 69-70). -/
def consumeStd : Nat → PyNW R → WEnum R → M (PyNW R × WEnum R × List (List Nat))
  | 0, _, _ => .error .fuel
  | fuel + 1, pg, E => do
    match ← pg.nextCliqueStd E with
    | (pg, E, none) => .ok (pg, E, [])
    | (pg, E, some c) => do
      let (pg, E, cs) ← consumeStd fuel pg E
      .ok (pg, E, c :: cs)

/-- `list(G.all_cliques(weight))` (core/wrap_pygraph.cpp:96-100, core/pyiterator.cpp:32-42). -/
def listCliquesStd (junk : Nat → R) (pg : PyNW R) (weight : R) : M (PyNW R × List (List Nat)) := do
  let E ← pg.allCliques junk weight
  match pg.G with
  | none => .error .ub
  | some H => do
    let (pg, _, cs) ← pg.consumeStd (H.g.nVert * 2 ^ H.g.maxDeg + 1) E
    .ok (pg, cs)

end PyNW

end CM
