import Verif.Props.Parts
import Verif.Props.OneVertexDouble

/-!
# C121 for weights that are `double`s and add up exactly

`ω` are the weights the objects were given, `q` their values (`ExactWeights`, in `SpecDouble.lean`).
-/

namespace CM

open Spec Graph NWG Sample

variable {wg wg1 wg2 : PyNW Dbl} {n : Nat} {S S1 S2 : SimpleGraph Nat} {P : Nat → Bool}
  {ω : Nat → Dbl} {q : Nat → Rat}

/-- **C121** for `double`s that add up exactly, two parts with no edge between them: `get_max_clique`
returns a clique as heavy as that of the part with the heavier one, for all bounds that each part has a
clique above and no clique is above. -/
theorem C121_double (h : WUsable wg n S ω) (h1 : WUsable wg1 n S1 ω) (h2 : WUsable wg2 n S2 ω)
    (x : ExactWeights n ω q)
    (e1 : ∀ u v, S1.Adj u v ↔ S.Adj u v ∧ P u = true ∧ P v = true)
    (e2 : ∀ u v, S2.Adj u v ↔ S.Adj u v ∧ (!P u) = true ∧ (!P v) = true)
    (hno : ∀ u v, P u = true → P v = false → ¬ S.Adj u v)
    (hnn : ∀ v, 1 ≤ v → v ≤ n → 0 ≤ q v) (hiso : ∀ v, 1 ≤ v → v ≤ n → ∃ u, S.Adj v u)
    {a : PyNW.Args Dbl} (hd : a.useDfs = true) {lb : Rat} (hlb : a.lowerBound = .fin lb)
    (ha : 0 ≤ lb) (hu : ∀ l, IsCliqueList S n l → Dbl.fin (weight q l) ≤ a.upperBound)
    (hex1 : ∃ l, IsCliqueList S1 n l ∧ 2 ≤ l.length ∧ lb < weight q l)
    (hex2 : ∃ l, IsCliqueList S2 n l ∧ 2 ≤ l.length ∧ lb < weight q l)
    {srt srt1 srt2 : List (WData Dbl) → List (WData Dbl)} (hsrt : ∀ l, (srt l).Perm l)
    (hsrt1 : ∀ l, (srt1 l).Perm l) (hsrt2 : ∀ l, (srt2 l).Perm l) (junk junk1 junk2 : Nat → Dbl) :
    ∃ r r1 r2 l l1 l2, wg.getMaxClique srt junk a = .ok (r, .ret l) ∧
      wg1.getMaxClique srt1 junk1 a = .ok (r1, .ret l1) ∧
      wg2.getMaxClique srt2 junk2 a = .ok (r2, .ret l2) ∧
      weight q l = max (weight q l1) (weight q l2) := by
  obtain ⟨r, l, a1, a2, _, a3⟩ := C36_double_partial h x hnn hsrt junk hd hlb ha hu (by
    obtain ⟨l, b, c⟩ := hex1
    exact ⟨l, b.whole e1, c⟩)
  obtain ⟨r1, l1, b1, b2, _, b3⟩ := C36_double_partial h1 x hnn hsrt1 junk1 hd hlb ha
    (fun l hl => hu l (hl.whole e1)) hex1
  obtain ⟨r2, l2, c1, c2, _, c3⟩ := C36_double_partial h2 x hnn hsrt2 junk2 hd hlb ha
    (fun l hl => hu l (hl.whole (Q := fun v => !P v) e2)) hex2
  exact ⟨r, r1, r2, l, l1, l2, a1, b1, c1, parts_max e1 e2 hno hiso a2 a3 b2 b3 c2 c3⟩

/-! ## Examples -/

namespace Sample

/-- The graph with the edges `rs` and the five weights of the kite. -/
def donFive (rs : List (Nat × Nat)) : PyNW Dbl := get PyNW.new
  (PyNW.fromEdgelist true 400 rs 5 [.fin 2, .fin (1 / 2), .fin 3, .fin 1, .fin 10])

theorem dapart_usable : WUsable (donFive apartRows) 5 (ofPairs apartRows) dω :=
  ⟨.edgelist (argLR := true) (cap := 400) (by decide) (by decide) (by decide +kernel),
    wkept (by decide +kernel), 1, 2, by decide, by decide⟩

theorem dapart1_usable : WUsable (donFive [(1, 2), (1, 3), (2, 3)]) 5
    (ofPairs [(1, 2), (1, 3), (2, 3)]) dω :=
  ⟨.edgelist (argLR := true) (cap := 400) (by decide) (by decide) (by decide +kernel),
    wkept (by decide +kernel), 1, 2, by decide, by decide⟩

theorem dapart2_usable : WUsable (donFive [(4, 5)]) 5 (ofPairs [(4, 5)]) dω :=
  ⟨.edgelist (argLR := true) (cap := 400) (by decide) (by decide) (by decide +kernel),
    wkept (by decide +kernel), 4, 5, by decide, by decide⟩

end Sample

/-- The hypotheses of `C121_double` are met. -/
example : ∃ r r1 r2 l l1 l2, (donFive apartRows).getMaxClique List.reverse (fun _ => .nan)
      { lowerBound := .fin 1, upperBound := .inf false } = .ok (r, .ret l) ∧
    (donFive [(1, 2), (1, 3), (2, 3)]).getMaxClique List.reverse (fun _ => .nan)
      { lowerBound := .fin 1, upperBound := .inf false } = .ok (r1, .ret l1) ∧
    (donFive [(4, 5)]).getMaxClique List.reverse (fun _ => .nan)
      { lowerBound := .fin 1, upperBound := .inf false } = .ok (r2, .ret l2) ∧
    weight dq l = max (weight dq l1) (weight dq l2) := by
  refine C121_double (P := fun v => decide (v ≤ 3)) dapart_usable dapart1_usable dapart2_usable
    dkite_exact (part_rows _ _ _ (by decide)) (part_rows _ _ (fun v => !decide (v ≤ 3)) (by decide))
    apart_no dkite_nonneg ?_ rfl rfl (by decide +kernel) (fun l _ => rfl) ?_ ?_
    (fun l => List.reverse_perm l) (fun l => List.reverse_perm l) (fun l => List.reverse_perm l)
    _ _ _
  · intro v h1 h2
    have : v = 1 ∨ v = 2 ∨ v = 3 ∨ v = 4 ∨ v = 5 := by omega
    rcases this with rfl | rfl | rfl | rfl | rfl
    · exact ⟨2, by decide, Or.inl (by decide)⟩
    · exact ⟨3, by decide, Or.inl (by decide)⟩
    · exact ⟨1, by decide, Or.inr (by decide)⟩
    · exact ⟨5, by decide, Or.inl (by decide)⟩
    · exact ⟨4, by decide, Or.inr (by decide)⟩
  · exact ⟨[1, 2], Sample.pair_clique (by decide) (by decide) (by decide) (by decide), by decide,
      by decide +kernel⟩
  · exact ⟨[4, 5], Sample.pair_clique (by decide) (by decide) (by decide) (by decide), by decide,
      by decide +kernel⟩

end CM
