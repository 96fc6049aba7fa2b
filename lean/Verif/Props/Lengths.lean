import Mathlib.Tactic.Ring
import Verif.Props.Largest
import Verif.Lemmas.ScaleCorr

/-!
# Properties: the unit of lengths

The distances between points and the tolerance are lengths, and a program may give all of them in
metres or in millimetres.  It should get the same correspondences.

The theorems are about distances without rounding: `φ` changes the unit of every length exactly.
-/

namespace CM

open Spec Graph Sample

section

variable {D D' : Type} [LinearOrder D] [Inhabited D] [LinearOrder D'] [Inhabited D'] {φ : D → D'}

/-- The two calls of `std::sort` do the same: an entry is moved because of how its distance compares
with others, and `φ` does not change how distances compare.  (The order of equal distances is not
specified by the language, but one implementation is used for both calls.) -/
def SameSort (φ : D → D') (srt : List (PairDist D) → List (PairDist D))
    (srt' : List (PairDist D') → List (PairDist D')) : Prop :=
  ∀ l, srt' (l.map fun x => ⟨x.first, x.second, φ x.dist⟩) =
    (srt l).map fun x => ⟨x.first, x.second, φ x.dist⟩

/-- **C113**: with distances and tolerance in another unit, `build_edges` and
`build_edges_with_condition` make the same object or fail in the same way, so everything that is
done with the object gives the same answers.  `φ` keeps zero and the order of lengths, and the ends
of the window around a length in the other unit are those of the window around the length. -/
theorem C113_same_object (hφ : StrictMono φ) (h0 : φ default = default) {w : Window D}
    {w' : Window D'} (hlo : ∀ x, w'.lo (φ x) = φ (w.lo x)) (hhi : ∀ x, w'.hi (φ x) = φ (w.hi x))
    {srt1 srt2 : List (PairDist D) → List (PairDist D)}
    {srt1' srt2' : List (PairDist D') → List (PairDist D')} (hs1 : SameSort φ srt1 srt1')
    (hs2 : SameSort φ srt2 srt2') (argLR : Bool) (cap : Nat) (pg : PyGraph) (M N : Nat)
    (c : Nat → Nat → Nat → Nat → Bool) (d1 : Nat → Nat → D) (sym1 : Bool) (d2 : Nat → Nat → D)
    (sym2 : Bool) :
    buildMetric argLR cap pg srt1' srt2' M N w' (fun i j => φ (d1 i j)) sym1
        (fun i j => φ (d2 i j)) sym2 =
      buildMetric argLR cap pg srt1 srt2 M N w d1 sym1 d2 sym2 ∧
    buildBoth argLR cap pg srt1' srt2' M N w' c (fun i j => φ (d1 i j)) sym1
        (fun i j => φ (d2 i j)) sym2 =
      buildBoth argLR cap pg srt1 srt2 M N w c d1 sym1 d2 sym2 :=
  ⟨buildMetric_unit hφ h0 hlo hhi hs1 hs2 argLR cap pg M N d1 sym1 d2 sym2,
    buildBoth_unit hφ h0 hlo hhi hs1 hs2 argLR cap pg M N c d1 sym1 d2 sym2⟩

end

/-- **C113** for the window of the library and lengths that are whole numbers: `k` of the new unit
make one of the old. -/
theorem C113_factor {k : Int} (hk : 0 < k) (ε : Int)
    {srt1 srt2 srt1' srt2' : List (PairDist Int) → List (PairDist Int)}
    (hs1 : SameSort (fun x : Int => k * x) srt1 srt1')
    (hs2 : SameSort (fun x : Int => k * x) srt2 srt2') (argLR : Bool) (cap : Nat) (pg : PyGraph)
    (M N : Nat) (c : Nat → Nat → Nat → Nat → Bool) (d1 : Nat → Nat → Int) (sym1 : Bool)
    (d2 : Nat → Nat → Int) (sym2 : Bool) :
    buildMetric argLR cap pg srt1' srt2' M N (intWindow (k * ε)) (fun i j => k * d1 i j) sym1
        (fun i j => k * d2 i j) sym2 =
      buildMetric argLR cap pg srt1 srt2 M N (intWindow ε) d1 sym1 d2 sym2 ∧
    buildBoth argLR cap pg srt1' srt2' M N (intWindow (k * ε)) c (fun i j => k * d1 i j) sym1
        (fun i j => k * d2 i j) sym2 =
      buildBoth argLR cap pg srt1 srt2 M N (intWindow ε) c d1 sym1 d2 sym2 :=
  C113_same_object (φ := fun x : Int => k * x) (fun _ _ h => Int.mul_lt_mul_of_pos_left h hk)
    (Int.mul_zero k) (fun x => by simp only [intWindow]; ring)
    (fun x => by simp only [intWindow]; ring) hs1 hs2 argLR cap pg M N c d1 sym1 d2 sym2

/-- Insertion sort is the same sort in every unit. -/
theorem Sample.byDist_same {k : Int} (hk : 0 < k) : SameSort (fun x : Int => k * x) byDist byDist := by
  have hi : ∀ (x : PairDist Int) l,
      insertByDist ⟨x.first, x.second, k * x.dist⟩
        (l.map fun x => ⟨x.first, x.second, k * x.dist⟩) =
      (insertByDist x l).map fun x => ⟨x.first, x.second, k * x.dist⟩ := by
    intro x l
    induction l with
    | nil => rfl
    | cons y ys ih =>
      rw [List.map_cons]
      unfold insertByDist
      dsimp only
      by_cases h : x.dist ≤ y.dist
      · rw [if_pos (Int.mul_le_mul_of_nonneg_left h (by omega)), if_pos h]
        rfl
      · rw [if_neg (fun h' => h (Int.le_of_mul_le_mul_left h' hk)), if_neg h, ih]
        rfl
  intro l
  induction l with
  | nil => rfl
  | cons x xs ih =>
    show insertByDist _ (byDist _) = _
    rw [ih, hi]
    rfl

/-- The tolerance has to be in the new unit too: with the old number the points 0, 2, 5 do not all
match the points 0, 2, 6. -/
example :
    (buildMetric true 400 PyGraph.new byDist byDist 3 3 (intWindow 2) (onLine [0, 2, 5]) true
        (onLine [0, 2, 6]) true >>= fun pg =>
      pg.getCorrespondence byDegree 3 {} >>= fun x => .ok x.2) =
        .ok (.ret ([0, 1, 2], [0, 1, 2])) ∧
    (buildMetric true 400 PyGraph.new byDist byDist 3 3 (intWindow 2)
        (fun i j => 1000 * onLine [0, 2, 5] i j) true (fun i j => 1000 * onLine [0, 2, 6] i j) true >>=
      fun pg => pg.getCorrespondence byDegree 3 {} >>= fun x => .ok x.2) ≠
        .ok (.ret ([0, 1, 2], [0, 1, 2])) ∧
    (buildMetric true 400 PyGraph.new byDist byDist 3 3 (intWindow (1000 * 2))
        (fun i j => 1000 * onLine [0, 2, 5] i j) true (fun i j => 1000 * onLine [0, 2, 6] i j) true >>=
      fun pg => pg.getCorrespondence byDegree 3 {} >>= fun x => .ok x.2) =
        .ok (.ret ([0, 1, 2], [0, 1, 2])) := by
  decide +kernel

/-- The hypotheses of `C113_factor` are met: the matching of `line` in another unit. -/
example : buildMetric true 400 PyGraph.new byDist byDist 3 3 (intWindow (1000 * 1))
    (fun i j => 1000 * onLine [0, 2, 5] i j) true (fun i j => 1000 * onLine [10, 12, 15] i j) true =
      .ok line :=
  ((C113_factor (by decide) 1 (byDist_same (by decide)) (byDist_same (by decide)) true 400
    PyGraph.new 3 3 (fun _ _ _ _ => true) (onLine [0, 2, 5]) true (onLine [10, 12, 15]) true).1).trans
    line_eq

end CM
