import Verif.Lemmas.Align
import Verif.Props.Wrappers

/-!
# C58: the mask filter of `AlignGraph`

Coordinates are exact rational numbers.  A control point `p` of the second image lands at
`T.apply p` in the first one, for the similarity `T` that maps two points of the second set
to their partners.
-/

namespace CM

open Spec Graph Sample

namespace Align

/-- The point `q` lies in a cell of the mask that is set; `q.1` is the column, `q.2` the row. -/
def InMask (mask : Mask) (q : Rat × Rat) : Prop :=
  ∃ row col : Nat, row < mask.rows ∧ col < mask.cols ∧ mask.val row col = true ∧
    (col : Rat) ≤ q.1 ∧ q.1 < col + 1 ∧ (row : Rat) ≤ q.2 ∧ q.2 < row + 1

open Classical in
/-- How many control points land in the mask. -/
noncomputable def hits (mask : Mask) (T : Sim) (control : List (Rat × Rat)) : Nat :=
  control.countP fun p => decide (InMask mask (T.apply p))

/-- The similarity that takes `p1` to `q1` and `p2` to `q2` moves at least the fraction
`percentage` of the control points into the mask. -/
def Aligned (control : List (Rat × Rat)) (mask : Mask) (percentage : Rat)
    (p1 p2 q1 q2 : Rat × Rat) : Prop :=
  p1 ≠ p2 ∧ ∃ T : Sim, T.apply p1 = q1 ∧ T.apply p2 = q2 ∧
    percentage * control.length ≤ hits mask T control

/-- All control points land at coordinates that are not negative and fit `u64`. -/
def InRange (control : List (Rat × Rat)) (p1 p2 q1 q2 : Rat × Rat) : Prop :=
  p1 ≠ p2 → ∀ T : Sim, T.apply p1 = q1 → T.apply p2 = q2 → ∀ p ∈ control,
    0 ≤ (T.apply p).1 ∧ (T.apply p).1 < 2 ^ 64 ∧ 0 ≤ (T.apply p).2 ∧ (T.apply p).2 < 2 ^ 64

theorem cell_iff {x : Rat} (h : 0 ≤ x) {k : Nat} :
    ⌊x⌋.toNat = k ↔ (k : Rat) ≤ x ∧ x < k + 1 := by
  have h0 : 0 ≤ ⌊x⌋ := Int.floor_nonneg.2 h
  have : ⌊x⌋.toNat = k ↔ ⌊x⌋ = (k : Int) := by omega
  rw [this, Int.floor_eq_iff]
  simp

theorem score_hits {mask : Mask} {T : Sim} {control : List (Rat × Rat)}
    (h : ∀ p ∈ control, 0 ≤ (T.apply p).1 ∧ (T.apply p).1 < 2 ^ 64 ∧ 0 ≤ (T.apply p).2 ∧
      (T.apply p).2 < 2 ^ 64) : score mask T control = .ok (hits mask T control) := by
  rw [score_eq h, hits]
  congr 1
  refine List.countP_congr fun p hp => ?_
  obtain ⟨a, _, c, _⟩ := h p hp
  classical
  rw [show (decide (InMask mask (T.apply p)) = true) = InMask mask (T.apply p) from by simp]
  simp only [Bool.and_eq_true, decide_eq_true_eq, InMask]
  constructor
  · rintro ⟨⟨h1, h2⟩, h3⟩
    have e1 := (cell_iff a).1 rfl
    have e2 := (cell_iff c).1 rfl
    exact ⟨_, _, h1, h2, h3, e1.1, e1.2, e2.1, e2.2⟩
  · rintro ⟨row, col, h1, h2, h3, h4, h5, h6, h7⟩
    rw [(cell_iff a).2 ⟨h4, h5⟩, (cell_iff c).2 ⟨h6, h7⟩]
    exact ⟨⟨h1, h2⟩, h3⟩

open Classical in
theorem rule_eq {control : List (Rat × Rat)} {mask : Mask} {percentage : Rat}
    {M1 M2 : Nat → Rat × Rat} {i1 i2 j1 j2 : Nat} (hp : 0 < percentage) (hc : control ≠ [])
    (hr : InRange control (M2 j1) (M2 j2) (M1 i1) (M1 i2)) :
    rule control mask percentage M1 M2 i1 i2 j1 j2 =
      .ok (decide (Aligned control mask percentage (M2 j1) (M2 j2) (M1 i1) (M1 i2))) := by
  unfold rule
  by_cases he : M2 j1 = M2 j2
  · rw [if_pos he]
    congr 1
    rw [decide_eq_decide]
    constructor
    · intro h; linarith
    · intro h; exact absurd he h.1
  · rw [if_neg he]
    obtain ⟨e1, e2⟩ := (solve_iff he (solve (M2 j1) (M2 j2) (M1 i1) (M1 i2))).2 rfl
    rw [score_hits (hr he _ e1 e2), ok_bind]
    congr 1
    rw [decide_eq_decide]
    have hl : 0 < control.length := List.length_pos_of_ne_nil hc
    have hl' : (0 : Rat) < control.length := by exact_mod_cast hl
    rw [ge_iff_le, le_div_iff₀ hl']
    constructor
    · rintro ⟨_, h⟩; exact ⟨he, _, e1, e2, h⟩
    · rintro ⟨_, T, t1, t2, h⟩
      rw [(solve_iff he T).1 ⟨t1, t2⟩] at h
      exact ⟨by omega, h⟩

theorem Aligned.swap {control : List (Rat × Rat)} {mask : Mask} {percentage : Rat}
    {p1 p2 q1 q2 : Rat × Rat} (h : Aligned control mask percentage p1 p2 q1 q2) :
    Aligned control mask percentage p2 p1 q2 q1 := by
  obtain ⟨h1, T, h2, h3, h4⟩ := h
  exact ⟨h1.symm, T, h3, h2, h4⟩

end Align

variable {pg : PyGraph} {M N : Nat} {D : Type} [LinearOrder D] [Inhabited D]

/-- **C58**, as far as it is true.  The full property: for a positive percentage and at least
one control point, `build_edges_with_filter` joins two correspondences only if the
similarity they determine moves at least that fraction of the control points into the mask;
if it does and the distances agree, they are joined.  Proved: this is so if all control
points land at coordinates that are not negative (and below `2^64`).  Missing, because false
(`C58_refuted`): control points that land left of the mask or above it; what happens then is proved in
`C58_beside_partial` and `C58_outside_undefined`. -/
theorem C58_filter_partial {argLR : Bool} {cap : Nat}
    {srt1 srt2 : List (PairDist D) → List (PairDist D)} {w : Window D}
    {pts1 pts2 : Nat → Rat × Rat} {d1 d2 : Nat → Nat → D} {control : List (Rat × Rat)}
    {mask : Align.Mask} {percentage : Rat}
    (hM : 1 ≤ M) (hN : 1 ≤ N) (hne : M = 1 ∨ 2 ≤ N) (hb : M * N < 2 ^ 27)
    (hs1 : Sorts srt1) (hs2 : Sorts srt2) (hlo : Monotone w.lo)
    (hsym1 : ∀ i j, d1 i j = d1 j i) (hsym2 : ∀ i j, d2 i j = d2 j i)
    (hp : 0 < percentage) (hc : control ≠ [])
    (hr : ∀ i1 i2 j1 j2, i1 < M → i2 < M → j1 < N → j2 < N → i1 ≠ i2 → j1 ≠ j2 →
      Align.InRange control (pts2 j1) (pts2 j2) (pts1 i1) (pts1 i2)) :
    ∃ pg S, buildFilter argLR cap PyGraph.new srt1 srt2 M N w pts1 pts2 d1 d2 control mask
        percentage = .ok pg ∧ Loaded pg (M * N) S ∧
      (∀ i1 i2 j1 j2, i1 < M → i2 < M → j1 < N → j2 < N →
        S.Adj (pairId N i1 j1) (pairId N i2 j2) → i1 ≠ i2 ∧ j1 ≠ j2 ∧
          Align.Aligned control mask percentage (pts2 j1) (pts2 j2) (pts1 i1) (pts1 i2)) ∧
      ∀ i1 i2 j1 j2, i1 < M → i2 < M → j1 < N → j2 < N → i1 ≠ i2 → j1 ≠ j2 →
        w.lo (d1 i1 i2) < d2 j1 j2 → d2 j1 j2 < w.hi (d1 i1 i2) →
        Align.Aligned control mask percentage (pts2 j1) (pts2 j2) (pts1 i1) (pts1 i2) →
        S.Adj (pairId N i1 j1) (pairId N i2 j2) := by
  classical
  have hMb : M ≤ M * N := Nat.le_mul_of_pos_right _ hN
  have hNb : N ≤ M * N := Nat.le_mul_of_pos_left _ hM
  unfold buildFilter
  rw [buildBothM_on (c' := fun i1 i2 j1 j2 =>
      decide (Align.Aligned control mask percentage (pts2 j1) (pts2 j2) (pts1 i1) (pts1 i2)))
    (fun i1 i2 j1 j2 a b c d e f => Align.rule_eq hp hc (hr i1 i2 j1 j2 a b c d e f))
    (by omega) (by omega) hs1 hs2]
  obtain ⟨pg, S, e1, e2, e3⟩ := buildBoth_spec (argLR := argLR) (cap := cap) (w := w)
    (c := fun i1 i2 j1 j2 =>
      decide (Align.Aligned control mask percentage (pts2 j1) (pts2 j2) (pts1 i1) (pts1 i2)))
    (d1 := d1) (d2 := d2) (sym1 := true) (sym2 := true) hM hN hne hb hs1 hs2 hlo
  refine ⟨pg, S, e1, e2, ?_, ?_⟩
  · intro i1 i2 j1 j2 a b c d ha
    obtain ⟨k1, k2, l1, l2, _, _, hc, hd, h1, h2, h3, h4, h5⟩ := e3.apart _ _ ha
    obtain ⟨rfl, rfl⟩ := pairId_inj c hc h3
    obtain ⟨rfl, rfl⟩ := pairId_inj d hd h4
    refine ⟨h1, h2, ?_⟩
    simp only [decide_eq_true_eq] at h5
    exact h5.elim id Align.Aligned.swap
  · intro i1 i2 j1 j2 a b c d e f g h ha
    exact e3.complete (fun _ => hsym1) (fun _ => hsym2) i1 i2 j1 j2 a b c d e f g h
      (by simpa using ha) (by simpa using ha.swap)

namespace Sample

/-- A mask of two rows and three columns; the cell in row 0, column 0 is set, and row 1. -/
def mask : Align.Mask := ⟨2, 3, fun r c => r = 1 || c = 0⟩

/-- Two points of the first image. -/
def here (i : Nat) : Rat × Rat := if i = 0 then (0, 0) else (2, 0)

/-- Two points of the second image, the same turned and moved. -/
def there (i : Nat) : Rat × Rat := if i = 0 then (5, 5) else (5, 7)

end Sample

/-- **C58** is false.  The similarity that takes `(5, 5)` to `(0, 0)` and `(5, 7)` to `(2, 0)`
takes the control point `(6, 5)` to `(0, -1)`, above the mask: the conversion to `u64` is
undefined.  A point at `(-1/2, 0)` is left of the mask, and is counted as if it were in the
cell of row 0, column 0. -/
theorem C58_refuted :
    buildFilter true 100 PyGraph.new byDist byDist 2 2 (intWindow 1) here there
      (fun _ _ => (2 : Int)) (fun _ _ => 2) [(6, 5)] mask (1/2) = .error .ub ∧
    (Align.solve (there 0) (there 1) (here 0) (here 1)).apply (6, 5) = (0, -1) ∧
    (Align.score mask (Align.solve (0, 0) (1, 0) (0, 0) (1, 0)) [(-1/2, 0)]) = .ok 1 ∧
    (Align.solve (0, 0) (1, 0) (0, 0) (1, 0)).apply (-1/2, 0) = (-1/2, 0) ∧
    ¬ Align.InMask mask (-1/2, 0) := by
  refine ⟨by decide +kernel, by decide +kernel, by decide +kernel, by decide +kernel, ?_⟩
  rintro ⟨row, col, _, _, _, h, _⟩
  have : (0 : Rat) ≤ (col : Rat) := by exact_mod_cast Nat.zero_le col
  linarith

/-- `C58_filter_partial` on concrete points: with the first image moved by `(0, 1)`, the
control point `(11/2, 6)` is taken to `(1, 1/2)`, a cell that is not set, by the assignment
that keeps the order, and to `(1, 3/2)`, a cell that is set, by the other one, which is kept. -/
example : (∀ i1 i2 j1 j2, i1 < 2 → i2 < 2 → j1 < 2 → j2 < 2 → i1 ≠ i2 → j1 ≠ j2 →
      Align.InRange [(11/2, 6)] (there j1) (there j2) ((here i1).1, (here i1).2 + 1)
        ((here i2).1, (here i2).2 + 1)) ∧
    (buildFilter true 100 PyGraph.new byDist byDist 2 2 (intWindow 1)
      (fun i => ((here i).1, (here i).2 + 1)) there
      (fun _ _ => (2 : Int)) (fun _ _ => 2) [(11/2, 6)] mask (1/2) >>= fun pg => pg.toEdgelist) =
      .ok [some (2, 3)] := by
  refine ⟨?_, by decide +kernel⟩
  intro i1 i2 j1 j2 a b c d e f hne T t1 t2 p hp
  rw [(Align.solve_iff hne T).1 ⟨t1, t2⟩]
  simp only [List.mem_singleton] at hp
  subst hp
  clear t1 t2 T hne
  interval_cases i1 <;> interval_cases i2 <;> interval_cases j1 <;> interval_cases j2 <;>
    first | exact absurd rfl e | exact absurd rfl f | decide +kernel

/-! ## C75 -/

namespace Align

theorem read_inside (mask : Mask) (l : List (Nat × Nat)) :
    ((l.filter fun p => decide (p.2 < mask.rows) && decide (p.1 < mask.cols)).mapM fun p =>
      if p.2 < mask.rows ∧ p.1 < mask.cols then (Except.ok (mask.val p.2 p.1) : CM.M Bool)
      else .error .throw) =
    .ok ((l.filter fun p => decide (p.2 < mask.rows) && decide (p.1 < mask.cols)).map fun p =>
      mask.val p.2 p.1) := by
  induction l with
  | nil => rfl
  | cons p l ih =>
    by_cases h : p.2 < mask.rows ∧ p.1 < mask.cols
    · rw [List.filter_cons_of_pos (by simpa using h), List.mapM_cons, if_pos h, ok_bind, ih]
      rfl
    · rw [List.filter_cons_of_neg (by simpa using h), ih]

theorem maskFilter_eq {control : List (Rat × Rat)} {mask : Mask} {percentage : Rat}
    {M1 M2 : Nat → Rat × Rat} {i1 j1 i2 j2 : Nat} (hp : 0 < percentage) :
    maskFilter control mask percentage M1 M2 i1 j1 i2 j2 =
      rule control mask percentage M1 M2 i1 j1 i2 j2 := by
  unfold maskFilter rule score
  have hden : (((M2 i2).1 - (M2 j2).1) ^ 2 + ((M2 i2).2 - (M2 j2).2) ^ 2 = 0) ↔ M2 i2 = M2 j2 := by
    constructor
    · intro h
      have h1 : ((M2 i2).1 - (M2 j2).1) ^ 2 = 0 := by
        nlinarith [sq_nonneg ((M2 i2).1 - (M2 j2).1), sq_nonneg ((M2 i2).2 - (M2 j2).2)]
      have h2 : ((M2 i2).2 - (M2 j2).2) ^ 2 = 0 := by
        nlinarith [sq_nonneg ((M2 i2).1 - (M2 j2).1), sq_nonneg ((M2 i2).2 - (M2 j2).2)]
      exact Prod.ext (sub_eq_zero.1 (pow_eq_zero_iff (by decide) |>.1 h1))
        (sub_eq_zero.1 (pow_eq_zero_iff (by decide) |>.1 h2))
    · intro h; rw [h]; ring
  simp only [hden]
  split
  · congr 1
    exact (decide_eq_false (by linarith)).symm
  · generalize (control.mapM fun p => (do
        let x ← castU64 ((solve (M2 i2) (M2 j2) (M1 i1) (M1 j1)).apply p).1
        let y ← castU64 ((solve (M2 i2) (M2 j2) (M1 i1) (M1 j1)).apply p).2
        Except.ok (x, y) : CM.M (Nat × Nat))) = r
    cases r with
    | error e => rfl
    | ok cells =>
      simp only [ok_bind]
      rw [read_inside, ok_bind]
      have hcount : ((cells.filter fun p => decide (p.2 < mask.rows) && decide (p.1 < mask.cols)).map
          fun p => mask.val p.2 p.1).count true = cells.countP fun p => decide (p.2 < mask.rows) &&
            decide (p.1 < mask.cols) && mask.val p.2 p.1 := by
        rw [List.count, List.countP_map, List.countP_filter]
        refine List.countP_congr fun p _ => ?_
        simp [and_comm, Bool.and_comm]
      rw [hcount]

end Align

/-- **C75**, as far as it is true: for a positive percentage, `build_edges_with_filter(pts, mask, percentage)` and
`build_edges_with_condition(MaskFilter(pts, mask, percentage), False)` do the same, up to rounding:
they build the same graph or fail in the same way.  `e1`, `e2` are the default distances of the
two arrays, `srt1` and `srt2` the same sorting.  Missing, because false (`C75_refuted`):
percentage 0. -/
theorem C75_filters_agree_partial {argLR : Bool} {cap : Nat}
    {srt1 srt2 : List (PairDist D) → List (PairDist D)} {w : Window D}
    {pts1 pts2 : Nat → Rat × Rat} {d1 d2 : Nat → Nat → D} {control : List (Rat × Rat)}
    {mask : Align.Mask} {percentage : Rat} (hp : 0 < percentage) {sym1 sym2 : Bool} :
    ((GenObj.init M N none none sym1 sym2 w).buildEdgesWithCondition argLR cap srt1 srt2
        (fun i j => .ok (d1 i j)) (fun i j => .ok (d2 i j))
        (Align.maskFilter control mask percentage pts1 pts2) false >>= fun o => .ok o.pg) =
      buildFilter argLR cap PyGraph.new srt1 srt2 M N w pts1 pts2 d1 d2 control mask
        percentage := by
  have : Align.maskFilter control mask percentage pts1 pts2 =
      Align.rule control mask percentage pts1 pts2 := by
    funext i1 j1 i2 j2
    exact Align.maskFilter_eq hp
  rw [this]
  unfold buildFilter GenObj.init GenObj.buildEdgesWithCondition
  simp only [Bool.false_eq_true, if_false]
  generalize buildBothM argLR cap PyGraph.new srt1 srt2 M N w
    (Align.rule control mask percentage pts1 pts2) (fun i j => .ok (d1 i j)) true
    (fun i j => .ok (d2 i j)) true = r
  cases r <;> rfl

/-- **C75** is false for percentage 0: two equal points of the second set cannot be aligned with
different ones; the Python filter refuses them, the C++ filter accepts them.  With the points
`(0, 0)`, `(2, 0)` and twice `(5, 5)`, and `ε = 2`, one graph has no edges and the other one has
two. -/
theorem C75_refuted :
    Align.maskFilter [(0, 0)] mask 0 here (fun _ => (5, 5)) 0 1 0 1 = .ok false ∧
    Align.rule [(0, 0)] mask 0 here (fun _ => (5, 5)) 0 1 0 1 = .ok true ∧
    ((GenObj.init 2 2 none none true true (intWindow 2)).buildEdgesWithCondition true 100 byDist
      byDist (fun i j => .ok (if i = j then 0 else 2)) (fun _ _ => .ok 0)
      (Align.maskFilter [(0, 0)] mask 0 here (fun _ => (5, 5))) false >>= fun o =>
        o.pg.toEdgelist) = .ok [] ∧
    (buildFilter true 100 PyGraph.new byDist byDist 2 2 (intWindow 2) here (fun _ => (5, 5))
      (fun i j => if i = j then 0 else 2) (fun _ _ => 0) [(0, 0)] mask 0 >>= fun pg =>
        pg.toEdgelist) = .ok [some (1, 4), some (2, 3)] := by
  decide +kernel

/-- `C75_filters_agree_partial` on the points of the example for C58. -/
example : (0 : Rat) < 1 / 2 ∧
    ((GenObj.init 2 2 none none true true (intWindow 1)).buildEdgesWithCondition true 100 byDist byDist
      (fun _ _ => .ok 2) (fun _ _ => .ok 2)
      (Align.maskFilter [(11/2, 6)] mask (1/2) (fun i => ((here i).1, (here i).2 + 1)) there)
      false >>= fun o => o.pg.toEdgelist) = .ok [some (2, 3)] := by
  decide +kernel

end CM
