import Verif.Model.File
import Verif.Model.NWApi

/-!
# `mem_test/nwmain.cpp`: the command-line program for weighted graphs

The program uses the classes of `detail/` directly, without `pynwgraph`.
-/

namespace CM

variable {R : Type} [Zero R] [Add R] [Sub R] [NatCast R] [LT R] [LE R] [DecidableLT R]
  [DecidableLE R]

/-- What mem_test/nwmain.cpp prints, without the times: the cliques found by the heuristic and by
the search, with their weights, the weight from which on cliques are counted, and their number. -/
structure NWMemReport (R : Type) where
  heur : List Nat
  heurWeight : R
  stack : List Nat
  stackWeight : R
  weight : R
  count : Nat
  deriving DecidableEq

namespace NWG

/-- mem_test/nwmain.cpp:73-90: enumerate the cliques and count those of the weight `W` or more.  The
first argument only makes the definition total; using it up is the outcome `fuel`. -/
def memCount (W : R) : Nat → NWG R → WEnum R → M Nat
  | 0, _, _ => .error .fuel
  | fuel + 1, H, E => do
    let (H, E, v) ← H.enumGraph E
    if v ≥ H.g.nVert then .ok 0
    else do
      let (H, ans) ← H.getClique v
      let w ← H.cliqueWeight ans
      let ct ← memCount W fuel H E
      .ok (ct + if w ≥ W then 1 else 0)

/-- mem_test/nwmain.cpp:46-91: what is done with the graph.  `srt` is `std::sort`, see
`heurVertex`; `junk` and `junk'` are the contents of the storage the search and the enumeration
reserve, see `stackGraph` and `PyNW.allCliques`. -/
def memRun (srt : List (WData R) → List (WData R)) (junk junk' : Nat → R) (H : NWG R) :
    M (NWMemReport R) := do
  let (H, _) ← H.findMaxCliques srt junk 0 true false
  let (H, heur) ← H.getClique H.curLoc
  let heurWeight ← H.cliqueWeight heur
  let (H, _) ← H.findMaxCliques srt junk 0 false true
  let (H, stack) ← H.getClique H.curLoc
  let stackWeight ← H.cliqueWeight stack
  let weight := stackWeight - ((1 : Nat) : R)
  let count ← memCount weight (H.g.nVert * 2 ^ H.g.maxDeg + 1) H
    (WEnum.new ((List.range H.g.maxDeg).map junk') weight)
  .ok { heur, heurWeight, stack, stackWeight, weight, count }

end NWG

/-- mem_test/nwmain.cpp:20-39, run on a file with the characters `text`: every vertex has the weight
one, and the edge from each vertex to itself is appended to those the reader returns, which have it
already.  `cap` is the capacity of the vector of edges after that; the other parameters are those
of `PyGraph.fromFile`. -/
def nwMemLoad (argLR : Bool) (cap : Nat) (look : Bool) (text : List Char) : M (NWG R) := do
  let (n, _, edges) ← Mmio.reader look text
  NWG.ctor argLR cap n (edges ++ (List.range' 1 n).map fun i => (i, i))
    (0 :: List.replicate n ((1 : Nat) : R))

/-- mem_test/nwmain.cpp:11-93. -/
def nwMemMain (argLR : Bool) (cap : Nat) (look : Bool)
    (srt : List (NWG.WData R) → List (NWG.WData R)) (junk junk' : Nat → R) (text : List Char) :
    M (NWMemReport R) := do
  let H ← nwMemLoad argLR cap look text
  H.memRun srt junk junk'

end CM
