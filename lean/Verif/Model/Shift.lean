import Verif.Model.NWApi

/-!
# Loading with the C++ rule for shifts

gbits.h:98 `pad_cover = ALL_ONES << (64 - (n_bits & 63))` shifts by 64 if `n_bits` is a multiple of
64, which is undefined in C++.  `padCover` (`Model/Bits`) has the result of x86-64 and AArch64
there.  Here is the loading of graphs with the rule of the language.  The bit sets made later are
as long as those made here: dfs_stack.cpp, dfs_recurse.cpp, enumerate.cpp and nw_*.cpp take the
length `N` of a vertex, heuristic.cpp and nw_heuristic.cpp `max_degree`, the largest of them.
-/

namespace CM

namespace Graph

/-- graph.cpp:53-67 and vertex.h:48-63 like `ctorStep`; `bits.refer_from(.., N)` is undefined if
`N` is a multiple of 64. -/
def ctorStepStrict (i : Nat) (G : Graph) : M Graph := do
  let (eb, j, spos) ← ctorScan G.el G.elSize i G.eb
  let V : Vtx := { N := j, spos := spos, elo := G.elSize, ebo := G.ebSize, mcs := 1 }
  if V.N % 64 = 0 then .error .ub
  else do
    let eb ← GBits.set ⟨V.ebo, V.N⟩ eb spos
    .ok { G with
      eb := eb
      vs := G.vs ++ [V]
      elSize := G.elSize + j
      ebSize := G.ebSize + dlen j
      maxDeg := if j > G.maxDeg then j else G.maxDeg }

/-- graph.cpp:26-74 the constructor, like `ctor`. -/
def ctorStrict (argLR : Bool) (cap nVert : Nat) (edges : Edges) : M Graph := do
  let edges ← cleanEdges (nVert + 1) edges
  let G : Graph := { Graph.empty argLR with
    el := edges.map Prod.snd
    eb := edges.map (fun e => BitVec.ofNat 64 e.1)
    nVert := nVert + 1 }
  let G ← forRange 0 (nVert + 1) ctorStepStrict G
  let G := { G with
    searchStart := 1 + G.ebSize
    searchCur := 1 + G.ebSize
    searchEnd := G.eb.length }
  G.setBounds cap

end Graph

namespace PyGraph

/-- pygraph.cpp:23-30 `load_graph`. -/
def loadGraphStrict (argLR : Bool) (cap : Nat) (pg : PyGraph) (n m : Nat) (edges : Edges) :
    M PyGraph := do
  let G ← Graph.ctorStrict argLR cap n edges
  .ok { pg with nvert := n, nedges := m, G := some G }

/-- pygraph.cpp:126-165 `from_edgelist`. -/
def fromEdgelistStrict (argLR : Bool) (cap : Nat) (rows : List (Nat × Nat)) (n : Nat) :
    M PyGraph := do
  let (edges, m) ← rows.foldlM (fun (s : Edges × Nat) (r : Nat × Nat) =>
    if r.1 > n ∨ r.2 > n then .error .throw
    else if r.1 = 0 ∨ r.2 = 0 then .error .throw
    else .ok (s.1 ++ [(r.1, r.2), (r.2, r.1)], s.2 + 1)) (selfLoops n, 0)
  if edges.length = 0 then .error .throw
  else loadGraphStrict argLR cap new n m edges

/-- pygraph.cpp:167-204 `from_adj_matrix`. -/
def fromMatrixStrict (argLR : Bool) (cap : Nat) (r c : Nat) (A : Nat → Nat → Bool) :
    M PyGraph :=
  if r ≠ c then .error .throw
  else do
    let (edges, m) ← forRange 0 r (fun i s =>
      forRange 0 r (fun j (s : Edges × Nat) =>
        if A i j = true ∨ i = j then
          .ok (s.1 ++ [(i + 1, j + 1), (j + 1, i + 1)], s.2 + if i ≠ j then 1 else 0)
        else .ok s) s) ([(0, 0)], 0)
    if edges.length = 0 then .error .throw
    else loadGraphStrict argLR cap new r (m / 2) edges

/-- pygraph.cpp:205-233 `from_adj_list`. -/
def fromAdjListStrict (argLR : Bool) (cap : Nat) (n m : Nat) (sets : List (List Nat)) :
    M PyGraph := do
  if sets.length > 0 ∧ sets.headD [] ≠ [] then .error .throw
  else if n ≠ usub sets.length 1 then .error .throw
  else do
    let (edges, e) ← forRange 0 sets.length (fun i (s : Edges × Nat) => do
      let si ← rd sets i
      si.foldlM (fun (s : Edges × Nat) j =>
        if j = 0 ∨ j > n ∨ j = i then .error .throw
        else do
          let sj ← rd sets j
          if i ∈ sj then .ok (s.1 ++ [(i, j)], s.2 + 1)
          else .error .throw) (s.1 ++ [(i, i)], s.2)) ([], 0)
    if e / 2 ≠ m then .error .throw
    else loadGraphStrict argLR cap new n m edges

end PyGraph

variable {R : Type} [Zero R] [Add R] [Sub R] [NatCast R] [LT R] [LE R] [DecidableLT R]
  [DecidableLE R]

/-- nwgraph.cpp:28-140 the constructor, like `NWG.ctor` (wvertex.h:22-34). -/
def NWG.ctorStrict (argLR : Bool) (cap nVert : Nat) (edges : Edges) (wts : List R) :
    M (NWG R) := do
  let g ← Graph.ctorStrict argLR cap nVert edges
  let (wt, deg) ← forRange 0 (nVert + 1) (fun i (s : List R × List R) => do
    let d ← NWG.degOf g wts i
    let w ← rd wts i
    .ok (s.1 ++ [w], s.2 ++ [d])) ([], [])
  NWG.boundsLoop { g := g, wt := wt, deg := deg, mcs := wt, limit := 0, curMax := 0, curLoc := 0 }

namespace PyNW

/-- pynwgraph.cpp:21-29 `load_graph`. -/
def loadGraphStrict (argLR : Bool) (cap : Nat) (pg : PyNW R) (n m : Nat) (edges : Edges)
    (wts : List R) : M (PyNW R) := do
  let G ← NWG.ctorStrict argLR cap n edges wts
  .ok { pg with nvert := n, nedges := m, G := some G }

/-- pynwgraph.cpp:106-157 `nw_from_edgelist`. -/
def fromEdgelistStrict (argLR : Bool) (cap : Nat) (rows : List (Nat × Nat)) (n : Nat)
    (wts : List R) : M (PyNW R) :=
  if wts.length ≠ n then .error .throw
  else do
    let (edges, m) ← rows.foldlM (fun (s : Edges × Nat) (r : Nat × Nat) =>
      if r.1 > n ∨ r.2 > n then .error .throw
      else if r.1 = 0 ∨ r.2 = 0 then .error .throw
      else .ok (s.1 ++ [(r.1, r.2), (r.2, r.1)], s.2 + 1)) (PyGraph.selfLoops n, 0)
    if edges.length = 0 then .error .throw
    else loadGraphStrict argLR cap new n m edges (0 :: wts)

/-- pynwgraph.cpp:159-204 `nw_from_adj_matrix`. -/
def fromMatrixStrict (argLR : Bool) (cap : Nat) (r c : Nat) (A : Nat → Nat → Bool)
    (wts : List R) : M (PyNW R) :=
  if r ≠ c then .error .throw
  else if wts.length ≠ r then .error .throw
  else do
    let (edges, m) ← forRange 0 r (fun i s =>
      forRange 0 r (fun j (s : Edges × Nat) =>
        if A i j = true ∨ i = j then
          .ok (s.1 ++ [(i + 1, j + 1), (j + 1, i + 1)], s.2 + if i ≠ j then 1 else 0)
        else .ok s) s) ([(0, 0)], 0)
    if edges.length = 0 then .error .throw
    else loadGraphStrict argLR cap new r (m / 2) edges (0 :: wts)

end PyNW

end CM
