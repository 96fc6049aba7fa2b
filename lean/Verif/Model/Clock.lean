import Verif.Model.Api
import Verif.Model.Double

/-!
# Time limits

In `Verif.Model.Search` a timed search is given the number of times it may still ask whether its
time is over.  Here the search asks a clock: `now k` is the number of microseconds that have passed
since `start_time` when the clock is read for the `k`-th time (counted from 0) by the search, and
`time_limit` is the `double` the caller gave.  The functions also count how often the clock was
read.  Everything else is the code of `Verif.Model.Search`.
-/

namespace CM

/-- graph.h:80-85 `elapsed_time`: the number of microseconds is converted to `double` and divided
by `1e6`. -/
def inSeconds (us : Nat) : Dbl :=
  match (us : Dbl) with
  | .fin q => Dbl.round (q / 1000000)
  | d => d

namespace Graph

/-- dfs_recurse.cpp:29, 84 `G.elapsed_time() > this->TIME_LIMIT` when the clock is read for the
`k`-th time. -/
def late (limit : Dbl) (now : Nat → Nat) (k : Nat) : Bool := decide (limit < inSeconds (now k))

/-- dfs_recurse.cpp:77-152 `RecursionDFS::search_vertex`, like `recSearch`. -/
def recSearchC (lt : Nat → Bool) (cur : Nat) (V : Vtx) (req : Nat) :
    Nat → Graph × Nat → GBits → GBits → M (Graph × Nat)
  | 0, _, _, _ => .error .fuel
  | fuel + 1, (G, k), prev, res => do
    let (eb, left) ← prev.count G.eb
    let (eb, rc) ← res.count eb
    let G := { G with eb := eb }
    let pot := left + rc
    let expired := lt k
    let k := k + 1
    if expired then .ok (G, k)
    else if G.curMax ≥ G.limit then .ok (G, k)
    else if pot ≤ G.curMax then .ok (G, k)
    else if left = 0 then do
      let G ← G.saveClique cur V res pot
      .ok (G, k)
    else do
      let (G, p) := G.loadMemory req
      let (cand, eb) ← GBits.copyFrom prev p G.eb
      let (G, q) := { G with eb := eb }.loadMemory req
      let (fut, eb) ← GBits.copyFrom prev q G.eb
      let (G, k) ← forRange 0 V.N (fun j (s : Graph × Nat) => do
        let (G, k) := s
        if ← cand.test G.eb j then do
          let vert ← G.nbr V j
          let eb ← res.set G.eb j
          let eb ← cand.reset eb j
          let eb ← fut.copyData cand.off eb
          let U ← G.vtx vert
          let eb ← G.recScan V U fut eb j
          let (G, k) ← recSearchC lt cur V req fuel ({ G with eb := eb }, k) fut res
          let eb ← res.reset G.eb j
          .ok ({ G with eb := eb }, k)
        else .ok s) ({ G with eb := eb }, k)
      let G ← G.clearMemory (2 * req)
      .ok (G, k)

/-- dfs_recurse.cpp:37-75 `RecursionDFS::process_vertex`, like `recVertex`. -/
def recVertexC (lt : Nat → Bool) (s : Graph × Nat) (cur : Nat) : M (Graph × Nat) := do
  let (G, k) := s
  let V ← G.vtx cur
  let req := dlen V.N
  let (G, rp) := G.loadMemory req
  let (G, cp) := G.loadMemory req
  let res : GBits := ⟨rp, V.N⟩
  let cand : GBits := ⟨cp, V.N⟩
  let eb ← res.set G.eb V.spos
  let (eb, pot) ← G.fillCand V cand eb
  let G := { G with eb := eb }
  let (G, k) ← if pot > G.curMax then recSearchC lt cur V req (V.N + 1) (G, k) cand res
    else .ok (G, k)
  let G ← G.clearMemory (2 * req)
  .ok (G, k)

/-- dfs_recurse.cpp:21-35 `RecursionDFS::process_graph`, like `recGraph`; returns the index at
which the loop stopped and how often the clock was read. -/
def recGraphC (lt : Nat → Bool) (G : Graph) (startVertex : Nat) : M (Graph × Nat × Nat) := do
  let (G, k) ← recVertexC lt (G, 0) G.curLoc
  loop (G.nVert - startVertex + 1) (fun (s : Graph × Nat × Nat) => do
    let (G, k, i) := s
    if i < G.nVert then do
      let V ← G.vtx i
      if V.mcs ≤ G.curMax ∨ G.curMax ≥ G.limit then .ok (.inl (G, k, i + 1))
      else
        let expired := lt k
        let k := k + 1
        if expired then .ok (.inr (G, i, k))
        else do
          let (G, k) ← recVertexC lt (G, k) i
          .ok (.inl (G, k, i + 1))
    else .ok (.inr (G, i, k))) (G, k, startVertex)

/-- clique.cpp:15-34 `find_max_cliques`, like `findMaxCliques`.  The number of seconds that
`find_max_cliques` returns is not used by its callers. -/
def findMaxCliquesC (srt : List VData → List VData) (G : Graph) (startVert : Nat)
    (useHeur useDfs : Bool) (limit : Dbl) (now : Nat → Nat) : M (Graph × Nat × Nat) := do
  let G ← if useHeur then G.heurGraph srt else .ok G
  if limit ≤ 0 then
    if useDfs then do
      let (G, sv) ← G.stackGraph
      .ok (G, sv, 0)
    else .ok (G, startVert, 0)
  else
    if useDfs then G.recGraphC (late limit now) startVert
    else .ok (G, startVert, 0)

end Graph

namespace PyGraph

/-- pygraph.cpp:45-68 `get_max_clique`, like `getMaxClique`, for a given `time_limit` and clock;
the field `timeLimit` of the arguments is not used.  The last component of the result is the number
of times the clock was read. -/
def getMaxCliqueC (srt : List Graph.VData → List Graph.VData) (pg : PyGraph) (a : Args)
    (limit : Dbl) (now : Nat → Nat) : M (PyGraph × PyRes (List Nat) × Nat) :=
  let cv := if a.continueSearch then pg.currentVertex else 0
  let heur := if a.continueSearch ∧ pg.currentVertex ≠ 0 then false else a.useHeuristic
  let pg := { pg with currentVertex := cv }
  match pg.checkLoaded with
  | none => .ok (pg, .raise, 0)
  | some G => do
    let G := { G with
      curMax := if a.lowerBound > G.curMax then a.lowerBound else G.curMax
      limit := if a.upperBound < G.limit then a.upperBound else G.limit }
    let (G, cv, k) ← G.findMaxCliquesC srt cv heur a.useDfs limit now
    let fin := decide (cv ≥ pg.nvert)
    let (G, ans) ← G.getClique G.curLoc
    let pg := { pg with G := some G, currentVertex := cv, finishedAll := fin }
    if a.lowerBound > ans.length then .ok (pg, .raise, k) else .ok (pg, .ret ans, k)

end PyGraph

end CM
