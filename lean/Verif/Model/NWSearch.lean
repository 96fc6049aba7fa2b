import Verif.Model.NWGraph

/-!
# Weighted clique search: `detail/nwgraph/{nw_heuristic.cpp, nw_dfs.cpp}`
-/

namespace CM

/-- nwclique.h:20-50 `NWSearchState`. -/
structure WState (R : Type) where
  id : Nat
  startAt : Nat
  pot : R
  res : GBits
  cand : GBits
  deriving DecidableEq

namespace NWG

variable {R : Type} [Zero R] [Add R] [Sub R] [NatCast R] [LT R] [LE R] [DecidableLT R]
  [DecidableLE R]

/-- The two loops that fill the root candidate set and the array `weights` (nw_dfs.cpp:41-60,
nw_enumerate.cpp:37-56): neighbours with a smaller id need a strictly larger weighted degree,
neighbours with a larger id one at least as large.  The vector `weights` is only reserved, never
resized, and the source writes and reads it through `operator[]` beyond its size; the model
takes its storage (`max_neighbors` entries) as an array with unspecified contents.
Result: the buffer, `weights`, and the sum of the candidates' weights. -/
def fillCand (H : NWG R) (cur : Nat) (V : Vtx) (cand : GBits) (eb : Mem) (ws : List R) :
    M (Mem × List R × R) := do
  let s ← forRange 0 V.spos (fun j (s : Mem × List R × R) => do
    let vert ← H.g.nbr V j
    let dv ← rd H.deg vert
    let d ← rd H.deg cur
    if dv ≤ d then .ok s
    else do
      let eb ← cand.set s.1 j
      let w ← rd H.wt vert
      let ws ← wr s.2.1 j w
      .ok (eb, ws, s.2.2 + w)) (eb, ws, 0)
  forRange (V.spos + 1) V.N (fun j (s : Mem × List R × R) => do
    let vert ← H.g.nbr V j
    let dv ← rd H.deg vert
    let d ← rd H.deg cur
    if dv < d then .ok s
    else do
      let eb ← cand.set s.1 j
      let w ← rd H.wt vert
      let ws ← wr s.2.1 j w
      .ok (eb, ws, s.2.2 + w)) s

/-- nw_dfs.cpp:127-131: record the clique in `res` as the best one. -/
def saveClique (H : NWG R) (cur : Nat) (V : Vtx) (res : GBits) (size : R) : M (NWG R) := do
  let vb ← H.g.vbits V
  let eb ← vb.copyData res.off H.g.eb
  let mcs ← wr H.mcs cur size
  .ok { H with g := { H.g with eb := eb }, mcs := mcs, curMax := size, curLoc := cur }

/-- nw_dfs.cpp:99-114: compare the remaining candidates of `cur` with the neighbours of `vert`
(record `U`).  Result: `(to_remove, candidates_left, cand_potential)`. -/
def stackScan (H : NWG R) (V U : Vtx) (cand : GBits) (eb : Mem) (ws : List R)
    (left k0 : Nat) : M (List Nat × Nat × R) :=
  loop (V.N + 2) (fun (s : Nat × List Nat × Nat × R) =>
    let (k, rm, left, pot) := s
    if k < V.N ∧ left ≠ 0 then do
      let val ← H.g.nbr V k
      let (f, _) ← binaryFind H.g.el (uadd U.elo U.spos) (usub U.N U.spos) val
      if f then do
        let w ← rd ws k
        let k' ← cand.next eb (k + 1)
        .ok (.inl (k', rm, left, pot + w))
      else do
        let k' ← cand.next eb (k + 1)
        .ok (.inl (k', rm ++ [k], usub left 1, pot))
    else .ok (.inr (rm, left, pot))) (k0, [], left, 0)

/-- How the inner `for` of `NWStackDFS::process_vertex` ends. (detail/nwgraph/nw_dfs.cpp:88-170.) -/
inductive ForExit (R : Type) where
  /-- `break` after pushing a state (nw_dfs.cpp:156-160); the last component is
  `clique_weight` -/
  | pushed (H : NWG R) (top new : WState R) (cw : R)
  /-- loop condition false at this `j` (nw_dfs.cpp:88) -/
  | done (H : NWG R) (top : WState R) (j : Nat)

/-- nw_dfs.cpp:88-166: one iteration of the inner `for` (state: graph, top of stack); `cw` is
`clique_weight`. -/
def stackFor (cur : Nat) (V : Vtx) (req : Nat) (ws : List R) (cw : R) (s : NWG R × WState R) :
    M ((NWG R × WState R) ⊕ ForExit R) := do
  let (H, top) := s
  let j := top.startAt
  if j < V.N then do
    let eb ← top.cand.reset H.g.eb j
    let sa ← top.cand.next eb (j + 1)
    let wj ← rd ws j
    let (eb, left) ← top.cand.count eb
    let H := { H with g := { H.g with eb := eb } }
    let top := { top with startAt := sa, pot := top.pot - wj }
    let vert ← H.g.nbr V j
    let U ← H.g.vtx vert
    let (rm, left, cp) ← H.stackScan V U top.cand eb ws left sa
    let pot := cp + cw + wj
    if pot > H.curMax then
      if left = 0 then do
        let eb ← top.res.set H.g.eb j
        let H ← { H with g := { H.g with eb := eb } }.saveClique cur V top.res pot
        let eb ← top.res.reset H.g.eb j
        .ok (.inl ({ H with g := { H.g with eb := eb } }, top))
      else do
        let (g, ptr) := H.g.loadMemory req
        let (cand, eb) ← GBits.copyFrom top.cand ptr g.eb
        let eb ← top.res.set eb j
        let eb ← rm.foldlM (fun eb k => cand.reset eb k) eb
        .ok (.inr (.pushed { H with g := { g with eb := eb } } top
          { id := j, startAt := j, pot := cp, res := top.res, cand := cand } (cw + wj)))
    else .ok (.inl (H, top))
  else .ok (.inr (.done H top j))

/-- nw_dfs.cpp:74-181: one iteration of the `while`. State: graph, stack (top first),
`clique_weight`.  (After `pop_back` the source reads `cur_state.id` and `cur_state.res` through
a reference to the removed element, whose storage is still there.) -/
def stackBody (cur : Nat) (V : Vtx) (req : Nat) (ws : List R) (s : NWG R × List (WState R) × R) :
    M ((NWG R × List (WState R) × R) ⊕ (NWG R × List (WState R))) :=
  let (H, states, cw) := s
  match states with
  | [] => .ok (.inr (H, []))
  | top :: rest =>
    if H.curMax ≥ H.limit then .ok (.inr (H, top :: rest))
    else do
      let (eb, _) ← top.cand.count H.g.eb
      let sa ← top.cand.next eb top.startAt
      let r ← loop (V.N + 2) (stackFor cur V req ws cw)
        ({ H with g := { H.g with eb := eb } }, { top with startAt := sa })
      match r with
      | .pushed H top new cw => .ok (.inl (H, new :: top :: rest, cw))
      | .done H top j =>
        if j = V.N then do
          let g ← H.g.clearMemory req
          let eb ← top.res.reset g.eb top.id
          let wid ← rd ws top.id
          .ok (.inl ({ H with g := { g with eb := eb } }, rest, cw - wid))
        else .ok (.inl (H, top :: rest, cw))

/-- nw_dfs.cpp:25-193 `NWStackDFS::process_vertex`; the second component of the result is the
array `weights`, which lives as long as the search object. -/
def stackVertex (s : NWG R × List R) (cur : Nat) : M (NWG R × List R) := do
  let (H, ws) := s
  let V ← H.g.vtx cur
  let req := dlen V.N
  let (g, x) ← H.g.rootState V req
  let (eb, ws, pot) ← { H with g := g }.fillCand cur V x.cand g.eb ws
  let H := { H with g := { g with eb := eb } }
  let wc ← rd H.wt cur
  if pot + wc ≤ H.curMax then do
    let g ← H.g.clearMemory (2 * req)
    .ok ({ H with g := g }, ws)
  else do
    let (H, states) ← loop (2 ^ (V.N + 1)) (stackBody cur V req ws)
      (H, [{ id := x.id, startAt := x.startAt, pot := pot, res := x.res, cand := x.cand }], wc)
    let g ← if states.isEmpty then .ok H.g else H.g.clearMemory (req * states.length)
    let g ← g.clearMemory req
    .ok ({ H with g := g }, ws)

/-- nw_dfs.cpp:7-23 `NWStackDFS::process_graph`; `junk` is what the memory reserved for
`weights` contains at the start. -/
def stackGraph (junk : Nat → R) (H : NWG R) : M (NWG R × Nat) := do
  let s ← stackVertex (H, (List.range H.g.maxDeg).map junk) H.curLoc
  let s ← forRange 0 s.1.g.nVert (fun i (s : NWG R × List R) => do
    let m ← rd s.1.mcs i
    if m ≤ s.1.curMax ∨ s.1.curMax ≥ s.1.limit then .ok s
    else stackVertex s i) s
  .ok (s.1, s.1.g.nVert)

/-- nwclique.h:93-112 `NWHeuristic::vdata`. -/
structure WData (R : Type) where
  id : Nat
  N : Nat
  pos : Nat
  degree : R
  deriving DecidableEq

/-- nw_heuristic.cpp:50-57 (and 61-68): load slot `j` of `neighbors` with neighbour `i`; if it
qualifies (`ok`), make it a candidate.  The weight added to `cand_potential` is that of the
vertex named by the *next* slot, because `j` has been incremented before.
State: `(edge_bits, neighbors, j, candidates_left, cand_potential)`. -/
def heurLoad (H : NWG R) (V : Vtx) (cand : GBits) (ok : R → Bool) (i : Nat)
    (s : Mem × List (WData R) × Nat × Nat × R) : M (Mem × List (WData R) × Nat × Nat × R) := do
  let (eb, nb, j, left, cp) := s
  let id ← H.g.nbr V i
  let nb ← wr nb j { id := id, N := 0, pos := i, degree := 0 }
  let d ← rd H.deg id
  if ok d then do
    let U ← H.g.vtx id
    let nb ← wr nb j { id := id, N := U.N, pos := i, degree := d }
    let eb ← cand.set eb i
    let y ← rd nb (j + 1)
    let w ← rd H.wt y.id
    .ok (eb, nb, j + 1, left + 1, cp + w)
  else .ok (eb, nb, j, left, cp)

/-- nw_heuristic.cpp:47-69: collect the candidates.  `neighbors` has `max_neighbors` slots and
keeps its contents between calls. -/
def heurCollect (H : NWG R) (cur : Nat) (V : Vtx) (cand : GBits) (eb : Mem) (nb : List (WData R)) :
    M (Mem × List (WData R) × Nat × Nat × R) := do
  let d ← rd H.deg cur
  let s ← forRange 0 V.spos (H.heurLoad V cand (fun dv => !decide (dv ≤ d))) (eb, nb, 0, 0, 0)
  forRange (V.spos + 1) V.N (H.heurLoad V cand (fun dv => !decide (dv < d))) s

/-- nw_heuristic.cpp:90-101: drop the candidates not adjacent to `neighbors[i]`. -/
def heurScan (H : NWG R) (nb : List (WData R)) (candMax i : Nat) (x : WData R) (cand : GBits)
    (s : Mem × Nat × R) : M (Mem × Nat × R) :=
  forRange (i + 1) candMax (fun j (s : Mem × Nat × R) => do
    let y ← rd nb j
    if ← cand.test s.1 y.pos then do
      let (f, _) ← H.g.findIfNeighbors y.id x.id
      if f then .ok s
      else do
        let eb ← cand.reset s.1 y.pos
        let w ← rd H.wt y.id
        .ok (eb, usub s.2.1 1, s.2.2 - w)
    else .ok s) s

/-- nw_heuristic.cpp:76-125: greedy growth.  State: `(H, i, cur_clique_weight,
candidates_left, cand_potential)`. -/
def heurGrow (cur : Nat) (V : Vtx) (nb : List (WData R)) (candMax : Nat) (res cand : GBits)
    (s : NWG R × Nat × R × Nat × R) : M ((NWG R × Nat × R × Nat × R) ⊕ NWG R) := do
  let (H, i, cw, left, cp) := s
  if i < candMax then do
    let x ← rd nb i
    if ← cand.test H.g.eb x.pos then do
      let eb ← res.set H.g.eb x.pos
      let w ← rd H.wt x.id
      let cw := cw + w
      let eb ← cand.reset eb x.pos
      let left := usub left 1
      let (eb, left, cp) ← H.heurScan nb candMax i x cand (eb, left, cp - w)
      let H := { H with g := { H.g with eb := eb } }
      if cw + cp ≤ H.curMax then .ok (.inr H)
      else if left = 0 then do
        let vb ← H.g.vbits V
        let eb ← vb.copyData res.off H.g.eb
        .ok (.inr { H with g := { H.g with eb := eb }, curMax := cw, curLoc := cur })
      else .ok (.inl (H, i + 1, cw, left, cp))
    else .ok (.inl (H, i + 1, cw, left, cp))
  else .ok (.inr H)

/-- nw_heuristic.cpp:30-126 `NWHeuristic::process_vertex`. `srt` is `std::sort` by decreasing
degree (a parameter, as in `Graph.heurVertex`); it is applied to the first `candidates_left`
slots of `neighbors`. -/
def heurVertex (srt : List (WData R) → List (WData R)) (s : NWG R × List (WData R)) (cur : Nat)
    (res cand : GBits) : M (NWG R × List (WData R)) := do
  let (H, nb) := s
  let V ← H.g.vtx cur
  let eb ← res.clear H.g.eb V.N
  let eb ← cand.clear eb V.N
  let eb ← res.set eb V.spos
  let cw ← rd H.wt cur
  let (eb, nb, _, left, cp) ← H.heurCollect cur V cand eb nb
  let H := { H with g := { H.g with eb := eb } }
  if (left : R) ≤ H.curMax then .ok (H, nb)
  else do
    let nb := srt (nb.take left) ++ nb.drop left
    let H ← loop (left + 1) (heurGrow cur V nb left res cand) (H, 0, cw, left, cp)
    .ok (H, nb)

/-- nw_heuristic.cpp:9-28 `NWHeuristic::process_graph`; line 12 fills `neighbors` with
zeros. -/
def heurGraph (srt : List (WData R) → List (WData R)) (H : NWG R) : M (NWG R) := do
  let req := dlen H.g.maxDeg
  let (g, rp) := H.g.loadMemory req
  let (g, cp) := g.loadMemory req
  let res : GBits := ⟨rp, g.maxDeg⟩
  let cand : GBits := ⟨cp, g.maxDeg⟩
  let s ← heurVertex srt ({ H with g := g },
    List.replicate g.maxDeg { id := 0, N := 0, pos := 0, degree := 0 }) H.curLoc res cand
  let H ← loop (s.1.g.nVert + 1) (fun (s : (NWG R × List (WData R)) × Nat) => do
    let ((H, nb), i) := s
    if i < H.g.nVert ∧ H.curMax < H.limit then do
      let m ← rd H.mcs i
      if m ≤ H.curMax then .ok (.inl ((H, nb), i + 1))
      else do
        let s ← heurVertex srt (H, nb) i res cand
        .ok (.inl (s, i + 1))
    else .ok (.inr H)) (s, 0)
  let g ← H.g.clearMemory (2 * req)
  .ok { H with g := g }

/-- nwclique.cpp:8-15 `find_max_cliques`; returns the new `start_vert`. -/
def findMaxCliques (srt : List (WData R) → List (WData R)) (junk : Nat → R) (H : NWG R)
    (startVert : Nat) (useHeur useDfs : Bool) : M (NWG R × Nat) := do
  let H ← if useHeur then H.heurGraph srt else .ok H
  if useDfs then H.stackGraph junk else .ok (H, startVert)

end NWG

end CM
