import Mathlib.Data.Rat.Floor
import Verif.Model.Callbacks

/-!
# `ext/Aligngraph.cpp`: correspondence graphs filtered by a mask

Coordinates are rational numbers and the arithmetic is exact (the code uses `double`).
-/

namespace CM

namespace Align

/-- A similarity `(x, y) ↦ (a x - b y + c0, b x + a y + c1)`: the four unknowns `a`, `b`, `c(0)`,
`c(1)` of Aligngraph.cpp:24-36. -/
structure Sim where
  a : Rat
  b : Rat
  c0 : Rat
  c1 : Rat
  deriving DecidableEq, Repr

/-- Aligngraph.cpp:38-40: a control point after rotation and translation. -/
def Sim.apply (T : Sim) (p : Rat × Rat) : Rat × Rat :=
  (T.a * p.1 - T.b * p.2 + T.c0, T.b * p.1 + T.a * p.2 + T.c1)

/-- Aligngraph.cpp:30-36: the solution of the linear system whose four equations say that the
similarity maps `p1` to `q1` and `p2` to `q2`.  The code solves it by LU decomposition; in
exact arithmetic the solution is this one (`Align.solve_iff`). -/
def solve (p1 p2 q1 q2 : Rat × Rat) : Sim :=
  let dx := p1.1 - p2.1
  let dy := p1.2 - p2.2
  let ex := q1.1 - q2.1
  let ey := q1.2 - q2.2
  let den := dx * dx + dy * dy
  let a := (dx * ex + dy * ey) / den
  let b := (dx * ey - dy * ex) / den
  { a := a, b := b, c0 := q1.1 - (a * p1.1 - b * p1.2), c1 := q1.2 - (b * p1.1 + a * p1.2) }

/-- Conversion of a floating point number to `u64` (Aligngraph.cpp:42): it truncates towards
zero, and is undefined if the result is not a `u64`. -/
def castU64 (x : Rat) : M Nat :=
  if x ≤ -1 then .error .ub
  else if x < 0 then .ok 0
  else if ⌊x⌋ < 2 ^ 64 then .ok ⌊x⌋.toNat
  else .error .ub

/-- A boolean mask with its numbers of rows and columns. (ext/eigen_wrap.h:15-16 `BoolMatrixR`.) -/
structure Mask where
  rows : Nat
  cols : Nat
  val : Nat → Nat → Bool

/-- Aligngraph.cpp:42-49: the number of control points that fall on a set cell of the mask.
All points are converted before the first is looked up. -/
def score (mask : Mask) (T : Sim) (control : List (Rat × Rat)) : M Nat := do
  let cells ← control.mapM fun p => do
    let x ← castU64 (T.apply p).1
    let y ← castU64 (T.apply p).2
    Except.ok (x, y)
  .ok (cells.countP fun p => decide (p.2 < mask.rows) && decide (p.1 < mask.cols) &&
    mask.val p.2 p.1)

/-- Aligngraph.cpp:12-52 and 67-73 `filter_score(...) >= percentage`.  The quotient is `0/0`,
not at least anything, if there are no control points. -/
def rule (control : List (Rat × Rat)) (mask : Mask) (percentage : Rat)
    (M1 M2 : Nat → Rat × Rat) (i1 j1 i2 j2 : Nat) : M Bool :=
  if M2 i2 = M2 j2 then .ok (decide (0 ≥ percentage))
  else do
    let k ← score mask (solve (M2 i2) (M2 j2) (M1 i1) (M1 j1)) control
    .ok (decide (control.length ≠ 0 ∧ (k : Rat) / control.length ≥ percentage))

/-- The Python class `MaskFilter` (wrappers/aligngraph.py:25-73), called as a condition function.
The code has single precision (`np.float32`); here the arithmetic is exact.  Storing numbers in an
array of type `np.uint` converts them like `castU64`. -/
def maskFilter (control : List (Rat × Rat)) (mask : Mask) (percentage : Rat)
    (M1 M2 : Nat → Rat × Rat) (i1 j1 i2 j2 : Nat) : M Bool :=
  let den := ((M2 i2).1 - (M2 j2).1) ^ 2 + ((M2 i2).2 - (M2 j2).2) ^ 2
  if den = 0 then .ok false
  else do
    let T := solve (M2 i2) (M2 j2) (M1 i1) (M1 j1)
    let cells ← control.mapM fun p => do
      let x ← castU64 (T.apply p).1
      let y ← castU64 (T.apply p).2
      Except.ok (x, y)
    let bpts := cells.filter fun p => decide (p.2 < mask.rows) && decide (p.1 < mask.cols)
    let bits ← bpts.mapM fun p =>
      if p.2 < mask.rows ∧ p.1 < mask.cols then Except.ok (mask.val p.2 p.1) else .error .throw
    .ok (decide (control.length ≠ 0 ∧ (bits.count true : Rat) / control.length ≥ percentage))

end Align

variable {D : Type} [LinearOrder D] [Inhabited D]

/-- Aligngraph.cpp:54-77 `build_edges_with_filter`.  `d1`, `d2` are the Euclidean distances of
the two sets of points (A2Agraph.cpp:7-12), rounded like `w`. -/
def buildFilter (argLR : Bool) (cap : Nat) (pg : PyGraph)
    (srt1 srt2 : List (PairDist D) → List (PairDist D)) (M N : Nat) (w : Window D)
    (pts1 pts2 : Nat → Rat × Rat) (d1 d2 : Nat → Nat → D)
    (control : List (Rat × Rat)) (mask : Align.Mask) (percentage : Rat) : CM.M PyGraph :=
  buildBothM argLR cap pg srt1 srt2 M N w (Align.rule control mask percentage pts1 pts2)
    (fun i j => .ok (d1 i j)) true (fun i j => .ok (d2 i j)) true

end CM
