import Verif.Lemmas.AlignShape
import Verif.Props.Align

/-!
# C84: the shapes of the arrays given to `AlignGraph.build_edges_with_filter`

`Mat.point A i` are the first two entries of row `i`, `Mat.points A` those of all rows.
-/

namespace CM

open Spec Graph Sample

variable {D : Type} [LinearOrder D] [Inhabited D]

/-- **C84**, as far as it is true.  The full property: whatever the shapes of the arrays,
`build_edges_with_filter` raises an exception or builds the filtered graph (as in C58).  Proved: it
builds that graph if the control points have two columns and the points at least two, the first
two of which are the coordinates.  Missing, because false: control points with another number of
columns (`C84_other_columns`), and points with one column (`C84_refuted`). -/
theorem C84_two_columns_partial {argLR : Bool} {cap : Nat}
    {srt1 srt2 : List (PairDist D) → List (PairDist D)} {w : Window D}
    {pts1 pts2 control : Align.Mat} {d1 d2 : Nat → Nat → D} {mask : Align.Mask} {percentage : Rat}
    (hM : 1 ≤ pts1.rows) (hN : 1 ≤ pts2.rows) (hne : pts1.rows = 1 ∨ 2 ≤ pts2.rows)
    (hb : pts1.rows * pts2.rows < 2 ^ 27)
    (h1 : 2 ≤ pts1.cols) (h2 : 2 ≤ pts2.cols) (h3 : control.cols = 2) (hc : 1 ≤ control.rows)
    (hs1 : Sorts srt1) (hs2 : Sorts srt2) (hlo : Monotone w.lo)
    (hsym1 : ∀ i j, d1 i j = d1 j i) (hsym2 : ∀ i j, d2 i j = d2 j i) (hp : 0 < percentage)
    (hr : ∀ i1 i2 j1 j2, i1 < pts1.rows → i2 < pts1.rows → j1 < pts2.rows → j2 < pts2.rows →
      i1 ≠ i2 → j1 ≠ j2 →
      Align.InRange control.points (pts2.point j1) (pts2.point j2) (pts1.point i1)
        (pts1.point i2)) :
    ∃ pg S, buildFilterMat argLR cap PyGraph.new srt1 srt2 w pts1 pts2 d1 d2 control mask
        percentage = .ok pg ∧ Loaded pg (pts1.rows * pts2.rows) S ∧
      (∀ i1 i2 j1 j2, i1 < pts1.rows → i2 < pts1.rows → j1 < pts2.rows → j2 < pts2.rows →
        S.Adj (pairId pts2.rows i1 j1) (pairId pts2.rows i2 j2) → i1 ≠ i2 ∧ j1 ≠ j2 ∧
          Align.Aligned control.points mask percentage (pts2.point j1) (pts2.point j2)
            (pts1.point i1) (pts1.point i2)) ∧
      ∀ i1 i2 j1 j2, i1 < pts1.rows → i2 < pts1.rows → j1 < pts2.rows → j2 < pts2.rows →
        i1 ≠ i2 → j1 ≠ j2 → w.lo (d1 i1 i2) < d2 j1 j2 → d2 j1 j2 < w.hi (d1 i1 i2) →
        Align.Aligned control.points mask percentage (pts2.point j1) (pts2.point j2)
            (pts1.point i1) (pts1.point i2) →
        S.Adj (pairId pts2.rows i1 j1) (pairId pts2.rows i2 j2) := by
  classical
  have hMb : pts1.rows ≤ pts1.rows * pts2.rows := Nat.le_mul_of_pos_right _ hN
  have hNb : pts2.rows ≤ pts1.rows * pts2.rows := Nat.le_mul_of_pos_left _ hM
  have hcp : control.points ≠ [] := by
    intro h
    have := congrArg List.length h
    simp [Align.Mat.points] at this
    omega
  have hrule : ∀ i1 i2 j1 j2, i1 < pts1.rows → i2 < pts1.rows → j1 < pts2.rows → j2 < pts2.rows →
      i1 ≠ i2 → j1 ≠ j2 → Align.ruleMat control mask percentage pts1 pts2 i1 i2 j1 j2 =
        .ok (decide (Align.Aligned control.points mask percentage (pts2.point j1) (pts2.point j2)
            (pts1.point i1) (pts1.point i2))) := by
    intro i1 i2 j1 j2 a b c d e f
    have hr' := hr i1 i2 j1 j2 a b c d e f
    rw [Align.ruleMat_eq h3 h1 h2 a b c d, Align.rule_eq hp hcp hr']
    intro hne' p hp'
    obtain ⟨e1, e2⟩ := (Align.solve_iff hne'
      (Align.solve (pts2.point j1) (pts2.point j2) (pts1.point i1) (pts1.point i2))).2 rfl
    exact hr' hne' _ e1 e2 p hp'
  obtain ⟨pg, S, e1, e2, e3, e4⟩ := C58_filter_partial (argLR := argLR) (cap := cap) (w := w)
    (mask := mask) (M := pts1.rows) (N := pts2.rows) (pts1 := pts1.point) (pts2 := pts2.point)
    hM hN hne hb hs1 hs2 hlo hsym1 hsym2 hp hcp hr
  refine ⟨pg, S, ?_, e2, e3, e4⟩
  rw [← e1]
  unfold buildFilterMat buildFilter
  rw [buildBothM_on hrule (by omega) (by omega) hs1 hs2,
    buildBothM_on (c' := fun i1 i2 j1 j2 => decide (Align.Aligned control.points mask percentage
        (pts2.point j1) (pts2.point j2) (pts1.point i1) (pts1.point i2)))
      (fun i1 i2 j1 j2 a b c d e f => Align.rule_eq hp hcp (hr i1 i2 j1 j2 a b c d e f))
      (by omega) (by omega) hs1 hs2]

/-- **C84** is false of all control points that do not have two columns: no edge is ever built;
the call ends without touching them, or with undefined behaviour. -/
theorem C84_other_columns {argLR : Bool} {cap : Nat}
    {srt1 srt2 : List (PairDist D) → List (PairDist D)} {w : Window D}
    {pts1 pts2 control : Align.Mat} {d1 d2 : Nat → Nat → D} {mask : Align.Mask} {percentage : Rat}
    (hM : 1 ≤ pts1.rows) (hN : 1 ≤ pts2.rows) (hne : pts1.rows = 1 ∨ 2 ≤ pts2.rows)
    (hb : pts1.rows * pts2.rows < 2 ^ 27) (hs1 : Sorts srt1) (hs2 : Sorts srt2)
    (hlo : Monotone w.lo) (hp : 0 < percentage) (h3 : control.cols ≠ 2) (hc : 1 ≤ control.rows) :
    buildFilterMat argLR cap PyGraph.new srt1 srt2 w pts1 pts2 d1 d2 control mask percentage =
      .error .ub ∨
    ∃ pg S, buildFilterMat argLR cap PyGraph.new srt1 srt2 w pts1 pts2 d1 d2 control mask
        percentage = .ok pg ∧ Loaded pg (pts1.rows * pts2.rows) S ∧ ∀ u v, ¬ S.Adj u v := by
  have h := buildBothM_or (E := (· = .ub)) (c := Align.ruleMat control mask percentage pts1 pts2)
    (c' := fun _ _ _ _ => false) (d1 := fun i j => .ok (d1 i j)) (d2 := fun i j => .ok (d2 i j))
    (d1' := d1) (d2' := d2)
    (fun i1 i2 j1 j2 => Align.ruleMat_bad (M1 := pts1) (M2 := pts2) hc h3 hp i1 i2 j1 j2)
    (fun _ _ => OrStops.rfl) (fun _ _ => OrStops.rfl) argLR cap PyGraph.new srt1 srt2
    pts1.rows pts2.rows w true true
  unfold buildFilterMat
  rcases h with ⟨e, rfl, h⟩ | h
  · exact Or.inl h
  · right
    rw [h]
    obtain ⟨pg, S, e1, e2, e3⟩ := buildBoth_spec (argLR := argLR) (cap := cap) (w := w)
      (c := fun _ _ _ _ => false) (d1 := d1) (d2 := d2) (sym1 := true) (sym2 := true)
      hM hN hne hb hs1 hs2 hlo
    refine ⟨pg, S, e1, e2, fun u v huv => ?_⟩
    obtain ⟨k1, k2, l1, l2, _, _, _, _, _, _, _, _, h5⟩ := e3.apart _ _ huv
    simp at h5

namespace Sample

/-- Points with one coordinate. -/
def column : Align.Mat := ⟨2, 1, [0, 2], by decide⟩

/-- Points with two coordinates. -/
def plane : Align.Mat := ⟨2, 2, [0, 1, 2, 1], by decide⟩

/-- Points with two coordinates and something else. -/
def plane3 : Align.Mat := ⟨2, 3, [5, 5, 9, 5, 7, 9], by decide⟩

/-- A control point with two coordinates. -/
def control2 : Align.Mat := ⟨1, 2, [11/2, 6], by decide⟩

/-- A control point with three coordinates. -/
def control3 : Align.Mat := ⟨1, 3, [11/2, 6, 0], by decide⟩

end Sample

/-- **C84** is false: control points with three coordinates, and points with one. -/
theorem C84_refuted :
    buildFilterMat true 100 PyGraph.new byDist byDist (intWindow 1) plane plane3
      (fun _ _ => (2 : Int)) (fun _ _ => 2) control3 mask (1/2) = .error .ub ∧
    buildFilterMat true 100 PyGraph.new byDist byDist (intWindow 1) column plane3
      (fun _ _ => (2 : Int)) (fun _ _ => 2) control2 mask (1/2) = .error .ub ∧
    buildFilterMat true 100 PyGraph.new byDist byDist (intWindow 1) plane column
      (fun _ _ => (2 : Int)) (fun _ _ => 2) control2 mask (1/2) = .error .ub :=
  ⟨by decide +kernel, by decide +kernel, by decide +kernel⟩

/-- `C84_two_columns_partial` on concrete points. -/
example : (∀ i1 i2 j1 j2, i1 < plane.rows → i2 < plane.rows → j1 < plane3.rows →
      j2 < plane3.rows → i1 ≠ i2 → j1 ≠ j2 →
      Align.InRange control2.points (plane3.point j1) (plane3.point j2) (plane.point i1)
        (plane.point i2)) ∧
    (buildFilterMat true 100 PyGraph.new byDist byDist (intWindow 1) plane plane3
      (fun _ _ => (2 : Int)) (fun _ _ => 2) control2 mask (1/2) >>= fun pg => pg.toEdgelist) =
      .ok [some (2, 3)] := by
  refine ⟨?_, by decide +kernel⟩
  intro i1 i2 j1 j2 a b c d e f hne T t1 t2 p hp
  rw [(Align.solve_iff hne T).1 ⟨t1, t2⟩]
  have hp : p = (11/2, 6) := by simpa [Align.Mat.points, Align.Mat.point, control2] using hp
  subst hp
  clear t1 t2 T hne
  have a : i1 < 2 := a
  have b : i2 < 2 := b
  have c : j1 < 2 := c
  have d : j2 < 2 := d
  interval_cases i1 <;> interval_cases i2 <;> interval_cases j1 <;> interval_cases j2 <;>
    first | exact absurd rfl e | exact absurd rfl f | decide +kernel

/-- `C84_other_columns`: the first outcome is that of `C84_refuted`; the second occurs if the points
of the second set are all the same. -/
example : (buildFilterMat true 100 PyGraph.new byDist byDist (intWindow 1) plane
      ⟨2, 2, [1, 1, 1, 1], by decide⟩ (fun _ _ => (2 : Int)) (fun _ _ => 2) control3 mask (1/2) >>= fun pg => pg.toEdgelist) =
      .ok [] := by decide +kernel

end CM
