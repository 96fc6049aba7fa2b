import Verif.Model.NWNested

/-!
# Weighted graphs with containers that check their indices

`std::vector::operator[]` is defined for indices below `size()` only, and a library compiled with
`-D_GLIBCXX_ASSERTIONS` (or in the debug mode of another compiler) stops the program otherwise.
The vector `weights` of the weighted search and of the weighted iterator (nwclique.h:57 and 74) is
reserved (nw_dfs.cpp:12, nw_enumerate.cpp:80) and cleared (nw_dfs.cpp:35) but never given elements,
so that its size is always 0.  `Model/NWSearch` takes the memory it has reserved for its elements;
here the same functions are started with no element, so that every use of `weights` is a fault.
All other vectors of the model have the size the code gives them.
-/

namespace CM

variable {R : Type} [Zero R] [Add R] [Sub R] [NatCast R] [LT R] [LE R] [DecidableLT R]
  [DecidableLE R]

namespace NWG

/-- nw_dfs.cpp:7-23, like `stackGraph`, with an empty vector `weights`. -/
def stackGraphChecked (H : NWG R) : M (NWG R × Nat) := do
  let s ← stackVertex (H, []) H.curLoc
  let s ← forRange 0 s.1.g.nVert (fun i (s : NWG R × List R) => do
    let m ← rd s.1.mcs i
    if m ≤ s.1.curMax ∨ s.1.curMax ≥ s.1.limit then .ok s
    else stackVertex s i) s
  .ok (s.1, s.1.g.nVert)

/-- nwclique.cpp:8-15, like `findMaxCliques`. -/
def findMaxCliquesChecked (srt : List (WData R) → List (WData R)) (H : NWG R)
    (startVert : Nat) (useHeur useDfs : Bool) : M (NWG R × Nat) := do
  let H ← if useHeur then H.heurGraph srt else .ok H
  if useDfs then H.stackGraphChecked else .ok (H, startVert)

end NWG

namespace PyNW

/-- pynwgraph.cpp:44-64 `get_max_clique`, like `getMaxClique`. -/
def getMaxCliqueChecked (srt : List (NWG.WData R) → List (NWG.WData R)) (pg : PyNW R)
    (a : Args R) : M (PyNW R × PyRes (List Nat)) :=
  let pg := { pg with currentVertex := 0 }
  match pg.checkLoaded with
  | none => .ok (pg, .raise)
  | some H => do
    let H := { H with
      curMax := if a.lowerBound > H.curMax then a.lowerBound else H.curMax
      limit := if a.upperBound < H.limit then a.upperBound else H.limit }
    let (H, cv) ← H.findMaxCliquesChecked srt 0 a.useHeuristic a.useDfs
    let fin := decide (cv ≥ pg.nvert)
    let (H, ans) ← H.getClique H.curLoc
    let pg := { pg with G := some H, currentVertex := cv, finishedAll := fin }
    let w ← H.cliqueWeight ans
    if a.lowerBound > w then .ok (pg, .raise) else .ok (pg, .ret ans)

/-- pyiterator.h:58-63 `NWCliqueIterator`, like `allCliques`: an iterator with an empty vector
`weights`. -/
def allCliquesChecked (pg : PyNW R) (weight : R) : M (WEnum R) :=
  match pg.checkLoaded with
  | none => .error .throw
  | some _ => .ok (WEnum.new [] weight)

end PyNW

end CM
