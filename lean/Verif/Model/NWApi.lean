import Verif.Model.NWEnum
import Verif.Model.Api

/-!
# `core/pynwgraph.cpp`, `core/pyiterator.cpp`: the Python-visible `NWGraph` class
-/

namespace CM

/-- pynwgraph.h:14-22. -/
structure PyNW (R : Type) where
  G : Option (NWG R)
  finishedAll : Bool
  nvert : Nat
  nedges : Nat
  currentVertex : Nat
  deriving DecidableEq

namespace PyNW

variable {R : Type} [Zero R] [Add R] [Sub R] [NatCast R] [LT R] [LE R] [DecidableLT R]
  [DecidableLE R]

/-- pynwgraph.cpp:14-20. -/
def new : PyNW R :=
  { G := none, finishedAll := false, nvert := 0, nedges := 0, currentVertex := 0 }

/-- pynwgraph.cpp:21-29 `load_graph`. -/
def loadGraph (argLR : Bool) (cap : Nat) (pg : PyNW R) (n m : Nat) (edges : Edges)
    (wts : List R) : M (PyNW R) := do
  let G ← NWG.ctor argLR cap n edges wts
  .ok { pg with nvert := n, nedges := m, G := some G }

/-- pynwgraph.cpp:30-34 `check_loaded`: `some` the graph, or `none` if it throws. -/
def checkLoaded (pg : PyNW R) : Option (NWG R) :=
  if pg.nvert = 0 then none else pg.G

/-- pynwgraph.cpp:37-42 `reset_search` (dereferences a null pointer if nothing is loaded). -/
def resetSearch (pg : PyNW R) : M (PyNW R) :=
  match pg.G with
  | none => .error .ub
  | some H => .ok { pg with
      G := some { H with curMax := 0 }, finishedAll := false, currentVertex := 0 }

/-- The arguments of `get_max_clique` (wrap_pygraph.cpp:81-84 for the defaults). -/
structure Args (R : Type) where
  lowerBound : R := by exact 1
  upperBound : R := by exact 65535
  useHeuristic : Bool := true
  useDfs : Bool := true

/-- pynwgraph.cpp:44-64 `get_max_clique`. -/
def getMaxClique (srt : List (NWG.WData R) → List (NWG.WData R)) (junk : Nat → R) (pg : PyNW R)
    (a : Args R) : M (PyNW R × PyRes (List Nat)) :=
  let pg := { pg with currentVertex := 0 }
  match pg.checkLoaded with
  | none => .ok (pg, .raise)
  | some H => do
    let H := { H with
      curMax := if a.lowerBound > H.curMax then a.lowerBound else H.curMax
      limit := if a.upperBound < H.limit then a.upperBound else H.limit }
    let (H, cv) ← H.findMaxCliques srt junk 0 a.useHeuristic a.useDfs
    let fin := decide (cv ≥ pg.nvert)
    let (H, ans) ← H.getClique H.curLoc
    let pg := { pg with G := some H, currentVertex := cv, finishedAll := fin }
    let w ← H.cliqueWeight ans
    if a.lowerBound > w then .ok (pg, .raise) else .ok (pg, .ret ans)

/-- pynwgraph.cpp:87-94 `get_correspondence` (`get_correspondence2`, lines 66-85, is the code
of pygraph.cpp:70-89). -/
def getCorrespondence (srt : List (NWG.WData R) → List (NWG.WData R)) (junk : Nat → R) (pg : PyNW R)
    (len2 : Nat) (a : Args R) : M (PyNW R × PyRes (List Nat × List Nat)) := do
  let (pg, r) ← pg.getMaxClique srt junk a
  match r with
  | .raise => .ok (pg, .raise)
  | .ret c => do
    let r ← PyGraph.getCorrespondence2 len2 c
    .ok (pg, r)

/-- pynwgraph.cpp:106-157 `nw_from_edgelist`; the rows of the array are a list of pairs. -/
def fromEdgelist (argLR : Bool) (cap : Nat) (rows : List (Nat × Nat)) (n : Nat)
    (wts : List R) : M (PyNW R) :=
  if wts.length ≠ n then .error .throw
  else do
    let (edges, m) ← rows.foldlM (fun (s : Edges × Nat) (r : Nat × Nat) =>
      if r.1 > n ∨ r.2 > n then .error .throw
      else if r.1 = 0 ∨ r.2 = 0 then .error .throw
      else .ok (s.1 ++ [(r.1, r.2), (r.2, r.1)], s.2 + 1)) (PyGraph.selfLoops n, 0)
    if edges.length = 0 then .error .throw
    else loadGraph argLR cap new n m edges (0 :: wts)

/-- pynwgraph.cpp:159-204 `nw_from_adj_matrix`; the array has `r` rows and `c` columns and
entries `A i j`. -/
def fromMatrix (argLR : Bool) (cap : Nat) (r c : Nat) (A : Nat → Nat → Bool)
    (wts : List R) : M (PyNW R) :=
  if r ≠ c then .error .throw
  else if wts.length ≠ r then .error .throw
  else do
    let (edges, m) ← forRange 0 r (fun i s =>
      forRange 0 r (fun j (s : Edges × Nat) =>
        if A i j = true ∨ i = j then
          .ok (s.1 ++ [(i + 1, j + 1), (j + 1, i + 1)], s.2 + if i ≠ j then 1 else 0)
        else .ok s) s) ([(0, 0)], 0)
    if edges.length = 0 then .error .throw
    else loadGraph argLR cap new r (m / 2) edges (0 :: wts)

/-- pynwgraph.cpp:205-235 `nw_from_adj_list`; each `std::set` is the list of its elements.
The weights are passed on as they are, without an entry for the sentinel vertex 0. -/
def fromAdjList (argLR : Bool) (cap : Nat) (n m : Nat) (sets : List (List Nat))
    (wts : List R) : M (PyNW R) := do
  if sets.length > 0 ∧ sets.headD [] ≠ [] then .error .throw
  else if uadd n 1 ≠ sets.length ∨ n ≠ wts.length then .error .throw
  else do
    let (edges, e) ← forRange 0 sets.length (fun i (s : Edges × Nat) => do
      let si ← rd sets i
      si.foldlM (fun (s : Edges × Nat) j =>
        if j = 0 ∨ j > n ∨ j = i then .error .throw
        else do
          let sj ← rd sets j
          if i ∈ sj then .ok (s.1 ++ [(i, j)], s.2 + 1)
          else .error .throw) (s.1 ++ [(i, i)], s.2)) ([], 0)
    if e / 2 ≠ m then .error .throw
    else loadGraph argLR cap new n m edges wts

/-- pynwgraph.cpp:237-253 `to_edgelist`: as `PyGraph.toEdgelist`. -/
def toEdgelist (pg : PyNW R) : M (List (Option (Nat × Nat))) :=
  match pg.checkLoaded with
  | none => .error .throw
  | some H => do
    let es ← H.g.sendData
    let (rows, _) ← es.foldlM (fun (s : List (Option (Nat × Nat)) × Nat) e => do
      let rows ← wr s.1 s.2 (some e)
      .ok (rows, s.2 + 1)) (List.replicate pg.nedges none, 0)
    .ok rows

/-- pynwgraph.cpp:255-275 `to_adj_matrix`. -/
def toMatrix (pg : PyNW R) : M (List (List Bool)) :=
  match pg.checkLoaded with
  | none => .error .throw
  | some H => do
    let es ← H.g.sendData
    es.foldlM (fun m (e : Nat × Nat) => do
      let m ← PyGraph.wr2 m (usub e.1 1) (usub e.2 1) true
      PyGraph.wr2 m (usub e.2 1) (usub e.1 1) true)
      (List.replicate pg.nvert (List.replicate pg.nvert false))

/-- pynwgraph.cpp:277-288 `to_adj_list`. -/
def toAdjList (pg : PyNW R) : M (List (List Nat)) :=
  match pg.checkLoaded with
  | none => .error .throw
  | some H => do
    let es ← H.g.sendData
    es.foldlM (fun l (e : Nat × Nat) => do
      let s ← rd l e.1
      let l ← wr l e.1 (PyGraph.setInsert e.2 s)
      let s ← rd l e.2
      wr l e.2 (PyGraph.setInsert e.1 s))
      (List.replicate (pg.nvert + 1) [])

/-- pynwgraph.cpp:290-294 `get_vertex_data`. -/
def getVertexData (pg : PyNW R) (i : Nat) : M (R × List Nat) :=
  if i > pg.nvert then .error .throw
  else match pg.G with
    | none => .error .ub
    | some H => H.vertexData i

/-- pynwgraph.cpp:296-302 `get_all_weights`: the sentinel's entry is erased. -/
def getAllWeights (pg : PyNW R) : M (List R) :=
  match pg.checkLoaded with
  | none => .error .throw
  | some H => do
    let ws ← H.allWeights
    .ok (ws.drop 1)

/-- pynwgraph.cpp:304-308 `get_clique_weight`. -/
def getCliqueWeight (pg : PyNW R) (clique : List Nat) : M R :=
  match pg.checkLoaded with
  | none => .error .throw
  | some H => H.cliqueWeight clique

/-- pyiterator.h `NWCliqueIterator`: constructing an iterator on an unloaded graph throws;
`junk` is the content of the storage its first `process_graph` reserves for `weights`. -/
def allCliques (junk : Nat → R) (pg : PyNW R) (weight : R) : M (WEnum R) :=
  match pg.checkLoaded with
  | none => .error .throw
  | some H => .ok (WEnum.new ((List.range H.g.maxDeg).map junk) weight)

/-- pyiterator.cpp:32-42 `NWCliqueIterator::next_clique`; `none` is `StopIteration`. -/
def nextClique (pg : PyNW R) (E : WEnum R) : M (PyNW R × WEnum R × Option (List Nat)) :=
  match pg.G with
  | none => .error .ub
  | some H => do
    let (H, E, v) ← H.enumGraph E
    if v > pg.nvert then .ok ({ pg with G := some H }, E, none)
    else do
      let (H, ans) ← H.getClique v
      .ok ({ pg with G := some H }, E, some ans)

/-- `list(G.all_cliques(weight))`: call `__next__` until `StopIteration`.
(core/pyiterator.cpp:32-42, 69-70.) -/
def consume : Nat → PyNW R → WEnum R → M (PyNW R × WEnum R × List (List Nat))
  | 0, _, _ => .error .fuel
  | fuel + 1, pg, E => do
    match ← pg.nextClique E with
    | (pg, E, none) => .ok (pg, E, [])
    | (pg, E, some c) => do
      let (pg, E, cs) ← consume fuel pg E
      .ok (pg, E, c :: cs)

/-- `m` calls of `__next__` on one iterator; `none` is `StopIteration`. (core/pyiterator.cpp:32-42,
69-70.) -/
def nexts : Nat → PyNW R → WEnum R → M (PyNW R × WEnum R × List (Option (List Nat)))
  | 0, pg, E => .ok (pg, E, [])
  | m + 1, pg, E => do
    let (pg, E, c) ← pg.nextClique E
    let (pg, E, cs) ← nexts m pg E
    .ok (pg, E, c :: cs)

/-- pyiterator.cpp:44-55 `NWCorrespondenceIterator::next_clique`; `ret none` is
`StopIteration`. -/
def nextCorrespondence (len2 : Nat) (pg : PyNW R) (E : WEnum R) :
    M (PyNW R × WEnum R × PyRes (Option (List Nat × List Nat))) :=
  match pg.G with
  | none => .error .ub
  | some H => do
    let (H, E, v) ← H.enumGraph E
    if v > pg.nvert then .ok ({ pg with G := some H }, E, .ret none)
    else do
      let (H, ans) ← H.getClique v
      match ← PyGraph.getCorrespondence2 len2 ans with
      | .raise => .ok ({ pg with G := some H }, E, .raise)
      | .ret c => .ok ({ pg with G := some H }, E, .ret (some c))

/-- `list(G._all_correspondences(len1, len2, weight))`: the loop over `nextCorrespondence` (see
`consume`). (core/pyiterator.cpp:44-55, 72-73.) -/
def consumeCorr (len2 : Nat) : Nat → PyNW R → WEnum R →
    M (PyNW R × WEnum R × List (PyRes (List Nat × List Nat)))
  | 0, _, _ => .error .fuel
  | fuel + 1, pg, E => do
    match ← pg.nextCorrespondence len2 E with
    | (pg, E, .ret none) => .ok (pg, E, [])
    | (pg, E, .raise) => .ok (pg, E, [.raise])
    | (pg, E, .ret (some c)) => do
      let (pg, E, cs) ← consumeCorr len2 fuel pg E
      .ok (pg, E, .ret c :: cs)

end PyNW

end CM
