import Verif.Model.Graph

/-!
# Clique search: `detail/graph/{heuristic.cpp, dfs_stack.cpp, dfs_recurse.cpp}`
-/

namespace CM

/-- searchstate.h:23-50 `SearchState`. -/
structure SState where
  id : Nat
  startAt : Nat
  res : GBits
  cand : GBits
  deriving DecidableEq, Repr

namespace Graph

/-- The two loops that fill the root candidate set (dfs_stack.cpp:56-73,
dfs_recurse.cpp:53-70, enumerate.cpp:54-71): neighbours with a smaller id need a
strictly larger degree, neighbours with a larger id a degree at least as large.
Result: the buffer and `clique_potential`. -/
def fillCand (G : Graph) (V : Vtx) (cand : GBits) (eb : Mem) : M (Mem × Nat) := do
  let s ← forRange 0 V.spos (fun j (s : Mem × Nat) => do
    let vert ← G.nbr V j
    let U ← G.vtx vert
    if U.N ≤ V.N then .ok s
    else do
      let eb ← cand.set s.1 j
      .ok (eb, s.2 + 1)) (eb, 1)
  forRange (V.spos + 1) V.N (fun j (s : Mem × Nat) => do
    let vert ← G.nbr V j
    let U ← G.vtx vert
    if U.N < V.N then .ok s
    else do
      let eb ← cand.set s.1 j
      .ok (eb, s.2 + 1)) s

/-- dfs_stack.cpp:47-48, enumerate.cpp:45-46: `SearchState x(vertices[cur],
load_memory(req), load_memory(req))` with searchstate.h:31-35. -/
def rootState (G : Graph) (V : Vtx) (req : Nat) : M (Graph × SState) := do
  let (G, p1) := G.loadMemory req
  let (G, p2) := G.loadMemory req
  let (rp, cp) := if G.argLR then (p1, p2) else (p2, p1)
  let res : GBits := ⟨rp, V.N⟩
  let eb ← res.set G.eb V.spos
  .ok ({ G with eb := eb }, { id := V.spos, startAt := 0, res := res, cand := ⟨cp, V.N⟩ })

/-- Record the clique in `res` as the best one (dfs_stack.cpp:143-146,
dfs_recurse.cpp:96-99). -/
def saveClique (G : Graph) (cur : Nat) (V : Vtx) (res : GBits) (size : Nat) : M Graph := do
  let vb ← G.vbits V
  let eb ← vb.copyData res.off G.eb
  let G ← { G with eb := eb }.setMcs cur size
  .ok { G with curMax := size, curLoc := cur }

/-- dfs_stack.cpp:118-130: compare the remaining candidates of `cur` with the
neighbours of `vert` (record `U`).  Result: `(to_remove, clique_potential)`. -/
def stackScan (G : Graph) (V U : Vtx) (cand : GBits) (eb : Mem)
    (left cs k0 pot0 : Nat) : M (List Nat × Nat) :=
  loop (V.N + 2) (fun (s : Nat × Nat × List Nat × Nat) =>
    let (k, start, rm, pot) := s
    if k < V.N ∧ pot > G.curMax then do
      let val ← G.nbr V k
      let (f, ans) ← binaryFind G.el (uadd U.elo start) (usub U.N start) val
      let rm := if f then rm else rm ++ [k]
      let start := uadd start ans
      let pot := usub left rm.length + cs + 1
      let k ← cand.next eb (k + 1)
      .ok (.inl (k, start, rm, pot))
    else .ok (.inr (rm, pot))) (k0, U.spos, [], pot0)

/-- How the inner `for` of `StackDFS::process_vertex` ends. (detail/graph/dfs_stack.cpp:105-180.) -/
inductive ForExit where
  /-- `break` after pushing a state (dfs_stack.cpp:167-173) -/
  | pushed (G : Graph) (top new : SState)
  /-- loop condition false at this `j` (dfs_stack.cpp:105) -/
  | done (G : Graph) (top : SState) (j : Nat)

/-- dfs_stack.cpp:107-179: one iteration of the inner `for` (state: graph, top of
stack, `candidates_left`). -/
def stackFor (cur : Nat) (V : Vtx) (req cs : Nat) (s : Graph × SState × Nat) :
    M ((Graph × SState × Nat) ⊕ ForExit) := do
  let (G, top, left) := s
  let j := top.startAt
  if j < V.N then do
    let eb ← top.cand.reset G.eb j
    let sa ← top.cand.next eb (j + 1)
    let G := { G with eb := eb }
    let top := { top with startAt := sa }
    let left := usub left 1
    let pot := left + 1 + cs
    let vert ← G.nbr V j
    let U ← G.vtx vert
    let (rm, pot) ← G.stackScan V U top.cand eb left cs sa pot
    if pot > G.curMax then
      if left = 0 then do
        let eb ← top.res.set G.eb j
        let G ← { G with eb := eb }.saveClique cur V top.res pot
        let eb ← top.res.reset G.eb j
        .ok (.inl ({ G with eb := eb }, top, left))
      else do
        let (G, ptr) := G.loadMemory req
        let (cand, eb) ← GBits.copyFrom top.cand ptr G.eb
        let eb ← top.res.set eb j
        let eb ← rm.foldlM (fun eb k => cand.reset eb k) eb
        .ok (.inr (.pushed { G with eb := eb } top
          { id := j, startAt := j, res := top.res, cand := cand }))
    else .ok (.inl (G, top, left))
  else .ok (.inr (.done G top j))

/-- dfs_stack.cpp:86-194: one iteration of the `while`. State: graph, stack (top
first), `clique_size`. -/
def stackBody (cur : Nat) (V : Vtx) (req : Nat) (s : Graph × List SState × Nat) :
    M ((Graph × List SState × Nat) ⊕ (Graph × List SState)) :=
  let (G, states, cs) := s
  match states with
  | [] => .ok (.inr (G, []))
  | top :: rest =>
    if G.curMax ≥ G.limit then .ok (.inr (G, top :: rest))
    else do
      let (eb, left) ← top.cand.count G.eb
      let sa ← top.cand.next eb top.startAt
      let r ← loop (V.N + 2) (stackFor cur V req cs)
        ({ G with eb := eb }, { top with startAt := sa }, left)
      match r with
      | .pushed G top new => .ok (.inl (G, new :: top :: rest, cs + 1))
      | .done G top j =>
        if j = V.N then do
          let G ← G.clearMemory req
          let eb ← top.res.reset G.eb top.id
          .ok (.inl ({ G with eb := eb }, rest, usub cs 1))
        else .ok (.inl (G, top :: rest, cs))

/-- dfs_stack.cpp:42-206 `StackDFS::process_vertex`. The number of iterations of the
`while` is at most the number of nodes of the search tree, hence the fuel. -/
def stackVertex (G : Graph) (cur : Nat) : M Graph := do
  let V ← G.vtx cur
  let req := dlen V.N
  let (G, x) ← G.rootState V req
  let (eb, pot) ← G.fillCand V x.cand G.eb
  let G := { G with eb := eb }
  if pot ≤ G.curMax then G.clearMemory (2 * req)
  else do
    let (G, states) ← loop (2 ^ (V.N + 1)) (stackBody cur V req) (G, [x], 1)
    let G ← if states.isEmpty then .ok G else G.clearMemory (req * states.length)
    G.clearMemory req

/-- dfs_stack.cpp:25-40 `StackDFS::process_graph`; returns `i`. -/
def stackGraph (G : Graph) : M (Graph × Nat) := do
  let G ← G.stackVertex G.curLoc
  let G ← forRange 0 G.nVert (fun i G => do
    let V ← G.vtx i
    if V.mcs ≤ G.curMax ∨ G.curMax ≥ G.limit then .ok G
    else G.stackVertex i) G
  .ok (G, G.nVert)

/-- The clock as seen by a timed search: the number of further queries of `elapsed_time() >
TIME_LIMIT` that answer "no"; from then on the answer is "yes", because `steady_clock` is monotone.
`none` means it never expires. (detail/graph/graph.h:77-85, dfs_recurse.cpp:30, 84.) -/
abbrev Clock := Option Nat

/-- graph.h:80-85 `elapsed_time() > TIME_LIMIT`. -/
def tick : Clock → Bool × Clock
  | none => (false, none)
  | some 0 => (true, some 0)
  | some (n + 1) => (false, some n)

/-- dfs_recurse.cpp:130-140: drop from `future_cand` what is not adjacent to `vert`. -/
def recScan (G : Graph) (V U : Vtx) (fut : GBits) (eb : Mem) (j : Nat) : M Mem := do
  let (eb, _) ← forRange (j + 1) V.N (fun k (s : Mem × Nat) => do
    let (eb, start) := s
    if ← fut.test eb k then do
      let val ← G.nbr V k
      let (f, ans) ← binaryFind G.el (uadd U.elo start) (usub U.N start) val
      let eb ← if f then .ok eb else fut.reset eb k
      .ok (eb, uadd start ans)
    else .ok s) (eb, U.spos + 1)
  .ok eb

/-- dfs_recurse.cpp:77-152 `RecursionDFS::search_vertex`; the first argument bounds
the recursion depth. -/
def recSearch (cur : Nat) (V : Vtx) (req : Nat) :
    Nat → Graph × Clock → GBits → GBits → M (Graph × Clock)
  | 0, _, _, _ => .error .fuel
  | fuel + 1, (G, t), prev, res => do
    let (eb, left) ← prev.count G.eb
    let (eb, rc) ← res.count eb
    let G := { G with eb := eb }
    let pot := left + rc
    let (expired, t) := tick t
    if expired then .ok (G, t)
    else if G.curMax ≥ G.limit then .ok (G, t)
    else if pot ≤ G.curMax then .ok (G, t)
    else if left = 0 then do
      let G ← G.saveClique cur V res pot
      .ok (G, t)
    else do
      let (G, p) := G.loadMemory req
      let (cand, eb) ← GBits.copyFrom prev p G.eb
      let (G, q) := { G with eb := eb }.loadMemory req
      let (fut, eb) ← GBits.copyFrom prev q G.eb
      let (G, t) ← forRange 0 V.N (fun j (s : Graph × Clock) => do
        let (G, t) := s
        if ← cand.test G.eb j then do
          let vert ← G.nbr V j
          let eb ← res.set G.eb j
          let eb ← cand.reset eb j
          let eb ← fut.copyData cand.off eb
          let U ← G.vtx vert
          let eb ← G.recScan V U fut eb j
          let (G, t) ← recSearch cur V req fuel ({ G with eb := eb }, t) fut res
          let eb ← res.reset G.eb j
          .ok ({ G with eb := eb }, t)
        else .ok s) ({ G with eb := eb }, t)
      let G ← G.clearMemory (2 * req)
      .ok (G, t)

/-- dfs_recurse.cpp:37-75 `RecursionDFS::process_vertex`. -/
def recVertex (s : Graph × Clock) (cur : Nat) : M (Graph × Clock) := do
  let (G, t) := s
  let V ← G.vtx cur
  let req := dlen V.N
  let (G, rp) := G.loadMemory req
  let (G, cp) := G.loadMemory req
  let res : GBits := ⟨rp, V.N⟩
  let cand : GBits := ⟨cp, V.N⟩
  let eb ← res.set G.eb V.spos
  let (eb, pot) ← G.fillCand V cand eb
  let G := { G with eb := eb }
  let (G, t) ← if pot > G.curMax then recSearch cur V req (V.N + 1) (G, t) cand res
    else .ok (G, t)
  let G ← G.clearMemory (2 * req)
  .ok (G, t)

/-- dfs_recurse.cpp:21-35 `RecursionDFS::process_graph`; returns the index at which
the loop stopped. -/
def recGraph (G : Graph) (t : Clock) (startVertex : Nat) : M (Graph × Nat) := do
  let (G, t) ← recVertex (G, t) G.curLoc
  loop (G.nVert - startVertex + 1) (fun (s : Graph × Clock × Nat) => do
    let (G, t, i) := s
    if i < G.nVert then do
      let V ← G.vtx i
      if V.mcs ≤ G.curMax ∨ G.curMax ≥ G.limit then .ok (.inl (G, t, i + 1))
      else
        let (expired, t) := tick t
        if expired then .ok (.inr (G, i))
        else do
          let (G, t) ← recVertex (G, t) i
          .ok (.inl (G, t, i + 1))
    else .ok (.inr (G, i))) (G, t, startVertex)

/-- heuristic.h:13-24 `vdata`. -/
structure VData where
  id : Nat
  N : Nat
  pos : Nat
  deriving DecidableEq, Repr

/-- heuristic.cpp:59-76: collect the candidates.  The C++ overwrites slots of the
vector `neighbors` (`max_degree` slots) from the front; the model keeps the used
prefix.  Result: `(edge_bits, neighbors, candidates_left)`. -/
def heurCollect (G : Graph) (V : Vtx) (cand : GBits) (eb : Mem) :
    M (Mem × List VData × Nat) := do
  let s ← forRange 0 V.spos (fun i (s : Mem × List VData × Nat) => do
    let id ← G.nbr V i
    let U ← G.vtx id
    if U.N ≤ V.N then .ok s
    else do
      let eb ← cand.set s.1 i
      .ok (eb, s.2.1 ++ [{ id := id, N := U.N, pos := i }], s.2.2 + 1)) (eb, [], 0)
  forRange (V.spos + 1) V.N (fun i (s : Mem × List VData × Nat) => do
    let id ← G.nbr V i
    let U ← G.vtx id
    if U.N < V.N then .ok s
    else do
      let eb ← cand.set s.1 i
      .ok (eb, s.2.1 ++ [{ id := id, N := U.N, pos := i }], s.2.2 + 1)) s

/-- heuristic.cpp:96-106: drop the candidates not adjacent to `neighbors[i]`. -/
def heurScan (G : Graph) (nb : List VData) (i : Nat) (x : VData) (cand : GBits)
    (s : Mem × Nat) : M (Mem × Nat) :=
  forRange (i + 1) nb.length (fun j (s : Mem × Nat) => do
    let y ← rd nb j
    if ← cand.test s.1 y.pos then do
      let (f, _) ← G.findIfNeighbors y.id x.id
      if f then .ok s
      else do
        let eb ← cand.reset s.1 y.pos
        .ok (eb, usub s.2 1)
    else .ok s) s

/-- heuristic.cpp:83-130: greedy growth.  State: `(G, i, cur_clique_size,
candidates_left)`. -/
def heurGrow (cur : Nat) (V : Vtx) (nb : List VData) (res cand : GBits)
    (s : Graph × Nat × Nat × Nat) : M ((Graph × Nat × Nat × Nat) ⊕ Graph) := do
  let (G, i, cs, left) := s
  if i < nb.length then do
    let x ← rd nb i
    if ← cand.test G.eb x.pos then do
      let eb ← res.set G.eb x.pos
      let cs := cs + 1
      let eb ← cand.reset eb x.pos
      let left := usub left 1
      let (eb, left) ← G.heurScan nb i x cand (eb, left)
      let G := { G with eb := eb }
      let pot := cs + left
      if pot ≤ G.curMax then .ok (.inr G)
      else if left = 0 then do
        let vb ← G.vbits V
        let eb ← vb.copyData res.off G.eb
        .ok (.inr { G with eb := eb, curMax := cs, curLoc := cur })
      else .ok (.inl (G, i + 1, cs, left))
    else .ok (.inl (G, i + 1, cs, left))
  else .ok (.inr G)

/-- heuristic.cpp:42-131 `DegreeHeuristic::process_vertex`. `srt` is `std::sort` by
decreasing degree (its order among equal degrees is unspecified, so it is a
parameter; theorems assume only that it permutes). -/
def heurVertex (srt : List VData → List VData) (G : Graph) (cur : Nat)
    (res cand : GBits) : M Graph := do
  let V ← G.vtx cur
  let eb ← res.clear G.eb V.N
  let eb ← cand.clear eb V.N
  let eb ← res.set eb V.spos
  let (eb, nb, left) ← G.heurCollect V cand eb
  let G := { G with eb := eb }
  if left ≤ G.curMax then .ok G
  else
    let nb := srt nb
    loop (nb.length + 1) (heurGrow cur V nb res cand) (G, 0, 1, left)

/-- heuristic.cpp:22-40 `DegreeHeuristic::process_graph`. -/
def heurGraph (srt : List VData → List VData) (G : Graph) : M Graph := do
  let req := dlen G.maxDeg
  let (G, rp) := G.loadMemory req
  let (G, cp) := G.loadMemory req
  let res : GBits := ⟨rp, G.maxDeg⟩
  let cand : GBits := ⟨cp, G.maxDeg⟩
  let G ← G.heurVertex srt G.curLoc res cand
  let G ← loop (G.nVert + 1) (fun (s : Graph × Nat) => do
    let (G, i) := s
    if i < G.nVert ∧ G.curMax < G.limit then do
      let V ← G.vtx i
      if V.mcs ≤ G.curMax then .ok (.inl (G, i + 1))
      else do
        let G ← G.heurVertex srt i res cand
        .ok (.inl (G, i + 1))
    else .ok (.inr G)) (G, 0)
  G.clearMemory (2 * req)

/-- The `time_limit` argument: `none` if it is `≤ 0`, otherwise the behaviour of the clock during
this call. (detail/graph/clique.cpp:22-32.) -/
abbrev TimeLimit := Option Clock

/-- clique.cpp:15-34 `find_max_cliques`; returns the new `start_vert`. -/
def findMaxCliques (srt : List VData → List VData) (G : Graph) (startVert : Nat)
    (useHeur useDfs : Bool) (tl : TimeLimit) : M (Graph × Nat) := do
  let G ← if useHeur then G.heurGraph srt else .ok G
  if useDfs then
    match tl with
    | none => G.stackGraph
    | some t => G.recGraph t startVert
  else .ok (G, startVert)

end Graph

end CM
