import Verif.Model.Bits
import Verif.Model.Utils

/-!
# `detail/graph/{vertex.h, graph.h, graph.cpp, clique.cpp}`: the graph class

Vertex 0 is the sentinel; the user's vertices are `1 .. n`.
-/

namespace CM

/-- vertex.h:29-35. The member `bits` is the bit set `⟨ebo, N⟩` (vertex.h:61). -/
structure Vtx where
  N : Nat
  spos : Nat
  elo : Nat
  ebo : Nat
  mcs : Nat
  deriving DecidableEq, Repr

/-- graph.h:45-106.  `dangling` records that the constructor's `edge_bits.resize`
moved the buffer after the vertices had stored raw pointers into it (graph.cpp:52,61,
136).  `argLR` is the unspecified order in which the compiler evaluates the two
`load_memory` arguments of `SearchState x(…)` (dfs_stack.cpp:47-48,
enumerate.cpp:45-46): `true` if the first argument (`res`) is evaluated first. -/
structure Graph where
  el : List Nat
  eb : Mem
  vs : List Vtx
  elSize : Nat
  ebSize : Nat
  searchStart : Nat
  searchCur : Nat
  searchEnd : Nat
  nVert : Nat
  maxDeg : Nat
  limit : Nat
  curMax : Nat
  curLoc : Nat
  dangling : Bool
  argLR : Bool
  deriving DecidableEq, Repr

namespace Graph

/-- `vertices[v]`. (For example detail/graph/dfs_stack.cpp:33.) -/
def vtx (G : Graph) (v : Nat) : M Vtx := rd G.vs v

/-- `edge_list[vertices[v].elo + j]`, with the vertex record already read. (For example
detail/graph/dfs_stack.cpp:58, 115.) -/
def nbr (G : Graph) (V : Vtx) (j : Nat) : M Nat := rd G.el (V.elo + j)

/-- `vertices[v].bits`: usable only if the buffer was not moved. (For example
detail/graph/dfs_stack.cpp:143.) -/
def vbits (G : Graph) (V : Vtx) : M GBits :=
  if G.dangling then .error .ub else .ok ⟨V.ebo, V.N⟩

/-- `vertices[v].mcs = x`. (detail/graph/dfs_stack.cpp:144, dfs_recurse.cpp:97, graph.cpp:106.) -/
def setMcs (G : Graph) (v x : Nat) : M Graph := do
  let V ← rd G.vs v
  let vs ← wr G.vs v { V with mcs := x }
  .ok { G with vs := vs }

/-- graph.h:56-70 `load_memory`: the offset handed out and the new stack pointer. -/
def loadMemory (G : Graph) (n : Nat) : Graph × Nat :=
  ({ G with searchCur := uadd G.searchCur n }, G.searchCur)

/-- graph.h:71-75 `clear_memory`. -/
def clearMemory (G : Graph) (n : Nat) : M Graph := do
  let sc := usub G.searchCur n
  let eb ← forRange 0 n (fun i m => wr m (sc + i) 0#64) G.eb
  .ok { G with searchCur := sc, eb := eb }

/-- graph.cpp:13-24 the default constructor (`search_cur` is left uninitialised). -/
def empty (argLR : Bool) : Graph :=
  { el := [], eb := [], vs := [], elSize := 0, ebSize := 0, searchStart := 0
    searchCur := 0, searchEnd := 0, nVert := 0, maxDeg := 0, limit := 0xFFFF
    curMax := 0, curLoc := 0, dangling := false, argLR := argLR }

/-- graph.cpp:56-60: scan the block of edges whose first endpoint is `i`, zeroing
the first column; result `(edge_bits, j, spos)`. -/
def ctorScan (el : List Nat) (elSize i : Nat) (eb : Mem) : M (Mem × Nat × Nat) :=
  loop (el.length + 1) (fun (s : Mem × Nat × Nat) =>
    let (eb, j, spos) := s
    if elSize + j < el.length then do
      let w ← rd eb (elSize + j)
      if w.toNat = i then do
        let eb ← wr eb (elSize + j) 0#64
        let x ← rd el (elSize + j)
        .ok (.inl (eb, j + 1, if x = i then j else spos))
      else .ok (.inr (eb, j, spos))
    else .ok (.inr (eb, j, spos))) (eb, 0, 0)

/-- graph.cpp:53-67: one iteration of the constructor's main loop, with
vertex.h:48-63 (`refer_from`, `set_spos`). -/
def ctorStep (i : Nat) (G : Graph) : M Graph := do
  let (eb, j, spos) ← ctorScan G.el G.elSize i G.eb
  let V : Vtx := { N := j, spos := spos, elo := G.elSize, ebo := G.ebSize, mcs := 1 }
  let eb ← GBits.set ⟨V.ebo, V.N⟩ eb spos
  .ok { G with
    eb := eb
    vs := G.vs ++ [V]
    elSize := G.elSize + j
    ebSize := G.ebSize + dlen j
    maxDeg := if j > G.maxDeg then j else G.maxDeg }

/-- graph.cpp:89-105: the bound `mcs` of one vertex. -/
def mcsOf (G : Graph) (cur : Nat) : M Nat := do
  let V ← G.vtx cur
  let m ← forRange 0 V.spos (fun j m => do
    let vert ← G.nbr V j
    let U ← G.vtx vert
    .ok (m + if U.N > V.N then 1 else 0)) 0
  forRange V.spos V.N (fun j m => do
    let vert ← G.nbr V j
    let U ← G.vtx vert
    .ok (m + if U.N ≥ V.N then 1 else 0)) m

/-- graph.cpp:87-112: the loop of `set_bounds`. -/
def boundsLoop (G : Graph) : M Graph :=
  forRange 0 G.vs.length (fun cur G => do
    let m ← G.mcsOf cur
    let G ← G.setMcs cur m
    if m > G.limit then .ok { G with curLoc := cur, limit := m } else .ok G)
    { G with limit := 0 }

/-- `vector::resize`. (detail/graph/graph.cpp:136.) -/
def resizeMem (m : Mem) (n : Nat) : Mem := m.take n ++ List.replicate (n - m.length) 0#64

/-- graph.cpp:80-139 `set_bounds`; `cap` is the capacity of the vector `edge_bits`
(growing beyond it moves the buffer). -/
def setBounds (cap : Nat) (G : Graph) : M Graph := do
  let G ← G.boundsLoop
  let sps := dlen G.maxDeg
  let spread := usub G.searchEnd G.searchStart
  let maxSpace := 2 * (G.limit + 1) * sps
  if spread < maxSpace + 1 then
    let newSize := G.ebSize + maxSpace + 1
    .ok { G with
      eb := resizeMem G.eb newSize
      searchEnd := newSize
      dangling := decide (newSize > cap) }
  else .ok G

/-- graph.cpp:26-74 the constructor (`n_edges` is ignored by the source). `cap` is
the capacity of the vector `edges.first` passed in. -/
def ctor (argLR : Bool) (cap nVert : Nat) (edges : Edges) : M Graph := do
  let edges ← cleanEdges (nVert + 1) edges
  let G : Graph := { Graph.empty argLR with
    el := edges.map Prod.snd
    eb := edges.map (fun e => BitVec.ofNat 64 e.1)
    nVert := nVert + 1 }
  let G ← forRange 0 (nVert + 1) ctorStep G
  let G := { G with
    searchStart := 1 + G.ebSize
    searchCur := 1 + G.ebSize
    searchEnd := G.eb.length }
  G.setBounds cap

/-- clique.cpp:40-43, vertex.cpp `give_clique`: the clique stored at vertex `i`. -/
def getClique (G : Graph) (i : Nat) : M (Graph × List Nat) := do
  let V ← G.vtx i
  let b ← G.vbits V
  let (eb, ans) ← b.getSubset G.el V.elo G.eb
  .ok ({ G with eb := eb }, ans)

/-- graph.h:88-93 `find_if_neighbors`. -/
def findIfNeighbors (G : Graph) (v1 v2 : Nat) : M (Bool × Nat) := do
  let V ← G.vtx v1
  binaryFind G.el V.elo V.N v2

/-- graph.cpp:148-155 `send_data`: the sequence of pairs passed to the callback. -/
def sendData (G : Graph) : M (List (Nat × Nat)) :=
  forRange 0 G.nVert (fun i acc => do
    let V ← G.vtx i
    forRange (V.spos + 1) V.N (fun k acc => do
      let x ← G.nbr V k
      .ok (acc ++ [(i, x)])) acc) []

/-- graph.cpp:158-165 `vertex_data`: the neighbours of `i` (a `std::set`, here its
elements; the list is already strictly increasing). `ans.erase(ans.find(i))` erases
`end()` if `i` is absent, which is undefined. -/
def vertexData (G : Graph) (i : Nat) : M (List Nat) := do
  let V ← G.vtx i
  let l ← forRange 0 V.N (fun j acc => do
    let x ← G.nbr V j
    .ok (acc ++ [x])) []
  if i ∈ l then .ok (l.filter (· ≠ i)) else .error .ub

end Graph

end CM
