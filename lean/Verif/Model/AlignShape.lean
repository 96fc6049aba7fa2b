import Verif.Model.Align

/-!
# `ext/Aligngraph.cpp` with arrays of any shape

`Model/Align` has points with two coordinates.  The code does not look at the number of columns of
the arrays it is given: it reads the columns 0 and 1, and adds a vector of two numbers to rows that
have as many as the control points.  Eigen checks neither (the extension is compiled with
`NDEBUG`).  Arrays are contiguous here.
-/

namespace CM

namespace Align

/-- A matrix of numbers, in C order. (ext/eigen_wrap.h:13-14 `DoubleMatrixR`.) -/
structure Mat where
  rows : Nat
  cols : Nat
  data : List Rat
  full : data.length = rows * cols

/-- `M(i, j)` of a row-major Eigen matrix: no check but for the memory that belongs to it.
(ext/Aligngraph.cpp:25-28.) -/
def Mat.get (A : Mat) (i j : Nat) : M Rat := rd A.data (i * A.cols + j)

/-- Aligngraph.cpp:38-40: the matrix `rot_con`, which is as large as that of the control points.
What it contains before does not matter: either all of it is overwritten first, or the function
fails. -/
def rotate (control : Mat) (T : Sim) : M (List Rat) := do
  let c := control.cols
  let rot ← forRange 0 control.rows (fun k rot => do
    let x ← control.get k 0
    let y ← control.get k 1
    wr rot (k * c) (T.a * x - T.b * y)) (List.replicate (control.rows * c) 0)
  let rot ← forRange 0 control.rows (fun k rot => do
    let x ← control.get k 0
    let y ← control.get k 1
    wr rot (k * c + 1) (T.b * x + T.a * y)) rot
  forRange 0 control.rows (fun k rot =>
    forRange 0 c (fun j rot => do
      let t ← rd [T.c0, T.c1] j
      let z ← rd rot (k * c + j)
      wr rot (k * c + j) (z + t)) rot) rot

/-- Aligngraph.cpp:42-49: conversion to `u64` and counting. -/
def scoreMat (mask : Mask) (T : Sim) (control : Mat) : M Nat := do
  let rot ← rotate control T
  let rcu ← rot.mapM castU64
  forRange 0 control.rows (fun k s => do
    let y ← rd rcu (k * control.cols + 1)
    let x ← rd rcu (k * control.cols)
    .ok (if y < mask.rows ∧ x < mask.cols ∧ mask.val y x = true then s + 1 else s)) 0

/-- Aligngraph.cpp:12-52 and 67-73 `filter_score(...) >= percentage`, like `rule`. -/
def ruleMat (control : Mat) (mask : Mask) (percentage : Rat) (M1 M2 : Mat)
    (i1 j1 i2 j2 : Nat) : M Bool := do
  let x1 ← M2.get i2 0
  let y1 ← M2.get i2 1
  let x2 ← M2.get j2 0
  let y2 ← M2.get j2 1
  let x3 ← M1.get i1 0
  let y3 ← M1.get i1 1
  let x4 ← M1.get j1 0
  let y4 ← M1.get j1 1
  if x1 - x2 = 0 ∧ y1 - y2 = 0 then .ok (decide (0 ≥ percentage))
  else do
    let k ← scoreMat mask (solve (x1, y1) (x2, y2) (x3, y3) (x4, y4)) control
    .ok (decide (control.rows ≠ 0 ∧ (k : Rat) / control.rows ≥ percentage))

end Align

variable {D : Type} [LinearOrder D] [Inhabited D]

/-- Aligngraph.cpp:54-77 `build_edges_with_filter`, like `buildFilter`; the numbers of points are
those of rows (wrappers/aligngraph.py:107-117). -/
def buildFilterMat (argLR : Bool) (cap : Nat) (pg : PyGraph)
    (srt1 srt2 : List (PairDist D) → List (PairDist D)) (w : Window D)
    (pts1 pts2 : Align.Mat) (d1 d2 : Nat → Nat → D)
    (control : Align.Mat) (mask : Align.Mask) (percentage : Rat) : CM.M PyGraph :=
  buildBothM argLR cap pg srt1 srt2 pts1.rows pts2.rows w
    (Align.ruleMat control mask percentage pts1 pts2)
    (fun i j => .ok (d1 i j)) true (fun i j => .ok (d2 i j)) true

end CM
