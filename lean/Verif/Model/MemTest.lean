import Verif.Model.File

/-!
# `mem_test/main.cpp`: the command-line program

The program uses the classes of `detail/` directly, without `pygraph`.
-/

namespace CM

/-- What mem_test/main.cpp prints, without the times: the cliques found by the heuristic, by the
recursive search with a time limit and by the search with a stack, the size of the cliques that are
enumerated, and their number. -/
structure MemReport where
  heur : List Nat
  recursion : List Nat
  stack : List Nat
  size : Nat
  count : Nat
  deriving DecidableEq, Repr

namespace Graph

/-- mem_test/main.cpp:62-75: enumerate the cliques and count those with `size` vertices.  The first
argument only makes the definition total; using it up is the outcome `fuel`. -/
def memCount (size : Nat) : Nat → Graph → Enum → M Nat
  | 0, _, _ => .error .fuel
  | fuel + 1, G, E => do
    let (G, E, v) ← G.enumGraph E
    if v ≥ G.nVert then .ok 0
    else do
      let (G, ans) ← G.getClique v
      let ct ← memCount size fuel G E
      .ok (ct + if ans.length = size then 1 else 0)

/-- mem_test/main.cpp:38-76: what is done with the graph.  `clock` is the behaviour of the clock
during the search that has ten seconds; `srt` is `std::sort`, see `heurVertex`. -/
def memRun (srt : List VData → List VData) (clock : Clock) (G : Graph) : M MemReport := do
  let (G, _) ← G.findMaxCliques srt 0 true false none
  let (G, heur) ← G.getClique G.curLoc
  let (G, _) ← { G with curMax := 1, curLoc := 0 }.findMaxCliques srt 0 false true (some clock)
  let (G, recursion) ← G.getClique G.curLoc
  let (G, _) ← { G with curMax := 1, curLoc := 0 }.findMaxCliques srt 0 false true none
  let (G, stack) ← G.getClique G.curLoc
  let size := usub G.curMax 1
  let count ← memCount size (G.nVert * 2 ^ G.maxDeg + 1) G (Enum.new size)
  .ok { heur, recursion, stack, size, count }

end Graph

/-- mem_test/main.cpp:10-79, run on a file with the characters `text`; the other parameters are
those of `PyGraph.fromFile`. -/
def memMain (argLR : Bool) (cap : Nat) (look : Bool) (srt : List Graph.VData → List Graph.VData)
    (clock : Graph.Clock) (text : List Char) : M MemReport := do
  let (n, _, edges) ← Mmio.reader look text
  let G ← Graph.ctor argLR cap n edges
  G.memRun srt clock

end CM
