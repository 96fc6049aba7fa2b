import Mathlib.Algebra.Order.Floor.Defs
import Mathlib.Data.Rat.Floor
import Verif.Model.Arrays
import Verif.Model.Double

/-!
# Arrays of other number types

core.h:25-28: the arguments of the loaders are `array_t<u64, c_style | forcecast>` (and `bool`),
so numpy converts an array of another type, or a list, before the loader sees it, without a
check of the values ("unsafe" casting).
-/

namespace CM

/-- An entry of the array that is passed: an integer (of any type with up to 64 bits) or a `double`.
(An entry of what is passed for `ndarray`, core/core.h:25-27.) -/
inductive Cell where
  | int (z : Int)
  | real (x : Dbl)
  deriving DecidableEq

/-- numpy's conversion of one entry to `uint64`: integers modulo `2^64`, floating-point numbers are
truncated towards zero. If the truncated number does not fit, or there is none, C leaves the result
open; `odd` is the choice of the platform. (The flag `forcecast` in core/core.h:27, for
core/pygraph.cpp:126.) -/
def Cell.toU64 (odd : Dbl → Nat) : Cell → Nat
  | .int z => (z % 2 ^ 64).toNat
  | .real (.fin q) => if -1 < q ∧ q < 2 ^ 64 then ⌊q⌋.toNat else odd (.fin q)
  | .real x => odd x

/-- numpy's conversion of one entry to `bool`: whether it is not zero. (The flag `forcecast` in
core/core.h:27, for core/pygraph.cpp:167.) -/
def Cell.toBool : Cell → Bool
  | .int z => z ≠ 0
  | .real x => x ≠ .fin 0

/-- An array of such entries in C order. (What is passed for `ndarray`, core/core.h:25-27.) -/
structure CellArray where
  shape : List Nat
  data : List Cell
  full : data.length = shape.prod

/-- The array after the conversion. (The flag `forcecast` in core/core.h:27, for
core/pygraph.cpp:126.) -/
def CellArray.toU64 (odd : Dbl → Nat) (a : CellArray) : NdArray :=
  { shape := a.shape
    data := a.data.map (Cell.toU64 odd)
    full := by rw [List.length_map, a.full] }

/-- `Graph.from_edgelist(a, n)` for an array of any type (pygraph.cpp:126-165). -/
def PyGraph.fromCells (argLR : Bool) (cap : Nat) (odd : Dbl → Nat) (a : CellArray) (n : Nat) :
    M PyGraph :=
  fromArray argLR cap (a.toU64 odd) n

/-- `NWGraph.from_edgelist(a, n, wts)` likewise (pynwgraph.cpp:106-157). -/
def PyNW.fromCells {R : Type} [Zero R] [Add R] [Sub R] [NatCast R] [LT R] [LE R]
    [DecidableLT R] [DecidableLE R] (argLR : Bool) (cap : Nat) (odd : Dbl → Nat) (a : CellArray)
    (n : Nat) (wts : List R) : M (PyNW R) :=
  fromArray argLR cap (a.toU64 odd) n wts

/-- `Graph.from_matrix(a)` for an `r × c` array of any type (pygraph.cpp:167-204). -/
def PyGraph.fromCellMatrix (argLR : Bool) (cap r c : Nat) (A : Nat → Nat → Cell) : M PyGraph :=
  fromMatrix argLR cap r c fun i j => (A i j).toBool

end CM
