import Verif.Model.NWApi

/-!
# Loading a graph from an array of any shape

pygraph.cpp:126-165 and pynwgraph.cpp:106-157 again, this time with the access to the numpy
array.  An array arrives in C order (core.h:25-28), so entry `(i, j)` of an array with `c` columns
is element `i * c + j` of its buffer; `unchecked<2>` checks the number of dimensions, the accesses
through it check nothing.
-/

namespace CM

/-- A numpy array: its shape and its buffer. (core/core.h:25-27 `ndarray`.) -/
structure NdArray where
  shape : List Nat
  data : List Nat
  full : data.length = shape.prod
  deriving DecidableEq

/-- The loop over the rows (pygraph.cpp:142-159, pynwgraph.cpp:132-149): the edges and their
number.  The row number is a 32-bit `int`; arrays with `2^31` rows or more are not modelled. -/
def readEdges (n e c : Nat) (data : List Nat) : M (Edges × Nat) :=
  forRange 0 e (fun i (s : Edges × Nat) => do
    let v1 ← rd data (i * c)
    let v2 ← rd data (i * c + 1)
    if v1 > n ∨ v2 > n then .error .throw
    else if v1 = 0 ∨ v2 = 0 then .error .throw
    else .ok (s.1 ++ [(v1, v2), (v2, v1)], s.2 + 1)) (PyGraph.selfLoops n, 0)

/-- pygraph.cpp:126-165 `from_edgelist`. -/
def PyGraph.fromArray (argLR : Bool) (cap : Nat) (a : NdArray) (n : Nat) : M PyGraph :=
  match a.shape with
  | [e, c] => do
    let (edges, m) ← readEdges n e c a.data
    if edges.length = 0 then .error .throw
    else loadGraph argLR cap new n m edges
  | _ => .error .throw

/-- pynwgraph.cpp:106-157 `nw_from_edgelist`; `wts` is the array of weights, if it has one
dimension (`unchecked<1>` otherwise throws). -/
def PyNW.fromArray {R : Type} [Zero R] [Add R] [Sub R] [NatCast R] [LT R] [LE R]
    [DecidableLT R] [DecidableLE R] (argLR : Bool) (cap : Nat) (a : NdArray) (n : Nat)
    (wts : List R) : M (PyNW R) :=
  match a.shape with
  | [e, c] =>
    if wts.length ≠ n then .error .throw
    else do
      let (edges, m) ← readEdges n e c a.data
      if edges.length = 0 then .error .throw
      else loadGraph argLR cap new n m edges (0 :: wts)
  | _ => .error .throw

end CM
