import Verif.Lemmas.EXBounds
import Verif.Props.WeightedDouble
import Verif.Props.WeightedObject

/-!
# C86: the bounds given to one call of `NWGraph.get_max_clique` and the calls after it
-/

namespace CM

open Spec Graph NWG

/-- **C86**, as far as it is true.  The full property: the bounds given to one call have no effect
on later calls; an exact search whose own bounds do not exclude the heaviest clique returns a
clique as heavy as any.  Proved for nonnegative weights, if the first call was an exact search with
a `lower_bound` that some clique of two or more vertices exceeds, and no `upper_bound` was too
small: whatever lower bounds the calls in between had, the last one returns a clique as heavy as
any with two or more vertices.  Missing, because false: `C86_refuted_lower`,
`C86_refuted_upper`. -/
theorem C86_bounds_partial {pg : PyNW Rat} {n : Nat} {S : SimpleGraph Nat} {ω : Nat → Rat}
    (h : WUsable pg n S ω) (hnn : ∀ v, 1 ≤ v → v ≤ n → 0 ≤ ω v)
    {srt1 : List (WData Rat) → List (WData Rat)} (hsrt1 : ∀ l, (srt1 l).Perm l)
    (junk1 : Nat → Rat) {a1 : PyNW.Args Rat} (hd1 : a1.useDfs = true) (h0 : 0 ≤ a1.lowerBound)
    (hu1 : ∀ l, IsCliqueList S n l → weight ω l ≤ a1.upperBound)
    (hex : ∃ l, IsCliqueList S n l ∧ 2 ≤ l.length ∧ a1.lowerBound < weight ω l)
    {ops : List (WOp Rat)} (hl : ∀ op ∈ ops, op.ExactSearch S n ω)
    {srt2 : List (WData Rat) → List (WData Rat)} (hsrt2 : ∀ l, (srt2 l).Perm l)
    (junk2 : Nat → Rat) {a2 : PyNW.Args Rat} (hd2 : a2.useDfs = true)
    (hu2 : ∀ l, IsCliqueList S n l → weight ω l ≤ a2.upperBound)
    (hlow : ∃ l, IsCliqueList S n l ∧ 2 ≤ l.length ∧ a2.lowerBound ≤ weight ω l) :
    ∃ pg1 l1 pg2 pg3 l2, pg.getMaxClique srt1 junk1 a1 = .ok (pg1, .ret l1) ∧
      wruns ops pg1 = .ok pg2 ∧ pg2.getMaxClique srt2 junk2 a2 = .ok (pg3, .ret l2) ∧
      IsCliqueList S n l2 ∧
      ∀ l', IsCliqueList S n l' → 2 ≤ l'.length → weight ω l' ≤ weight ω l2 := by
  refine EX.bounds_first ⟨⟨ω, h, fun _ _ _ => rfl⟩, fun _ _ => trivial⟩ hnn hsrt1 junk1 hd1 rfl h0
    (up_rat _) hu1 hex ?_ hsrt2 junk2 hd2 (up_rat _) hu2 rfl hlow
  intro op ho
  have := hl op ho
  cases op with
  | search _ _ a => exact ⟨this.1, this.2.1, low_rat _, up_rat _, this.2.2⟩
  | list _ _ => exact this
  | reset => exact this

/-- **C86** for `double`s that add up exactly, likewise. -/
theorem C86_double_partial {pg : PyNW Dbl} {n : Nat} {S : SimpleGraph Nat} {ω : Nat → Dbl}
    {q : Nat → Rat} (h : WUsable pg n S ω) (x : ExactWeights n ω q)
    (hnn : ∀ v, 1 ≤ v → v ≤ n → 0 ≤ q v)
    {srt1 : List (WData Dbl) → List (WData Dbl)} (hsrt1 : ∀ l, (srt1 l).Perm l)
    (junk1 : Nat → Dbl) {a1 : PyNW.Args Dbl} (hd1 : a1.useDfs = true) {lb1 : Rat}
    (hlb1 : a1.lowerBound = .fin lb1) (h0 : 0 ≤ lb1)
    (hu1 : ∀ l, IsCliqueList S n l → Dbl.fin (weight q l) ≤ a1.upperBound)
    (hex : ∃ l, IsCliqueList S n l ∧ 2 ≤ l.length ∧ lb1 < weight q l)
    {ops : List (WOp Dbl)} (hl : ∀ op ∈ ops, op.WithinSearch S n q)
    {srt2 : List (WData Dbl) → List (WData Dbl)} (hsrt2 : ∀ l, (srt2 l).Perm l)
    (junk2 : Nat → Dbl) {a2 : PyNW.Args Dbl} (hd2 : a2.useDfs = true)
    (hu2 : ∀ l, IsCliqueList S n l → Dbl.fin (weight q l) ≤ a2.upperBound) {lb2 : Rat}
    (hlb2 : a2.lowerBound = .fin lb2)
    (hlow : ∃ l, IsCliqueList S n l ∧ 2 ≤ l.length ∧ lb2 ≤ weight q l) :
    ∃ pg1 l1 pg2 pg3 l2, pg.getMaxClique srt1 junk1 a1 = .ok (pg1, .ret l1) ∧
      wruns ops pg1 = .ok pg2 ∧ pg2.getMaxClique srt2 junk2 a2 = .ok (pg3, .ret l2) ∧
      IsCliqueList S n l2 ∧
      ∀ l', IsCliqueList S n l' → 2 ≤ l'.length → weight q l' ≤ weight q l2 := by
  refine EX.bounds_first (EX.given h x) hnn hsrt1 junk1 hd1 hlb1 h0 (upper_ok hu1) hu1 hex ?_
    hsrt2 junk2 hd2 (upper_ok hu2) hu2 hlb2 hlow
  intro op ho
  have := hl op ho
  cases op with
  | search _ _ a =>
    exact ⟨this.1, this.2.1, EX.lowOk_of this.2.2.1, upper_ok this.2.2.2, this.2.2.2⟩
  | list _ _ => exact this
  | reset => exact this

/-- A sequence as in `C86_bounds_partial`: the search in the middle raises. -/
example : (Sample.wkite.getMaxClique Sample.byW (fun _ => 0) { lowerBound := 10 } >>= fun x =>
      x.1.getMaxClique Sample.byW (fun _ => 0) { lowerBound := 20 } >>= fun y =>
      y.1.getMaxClique Sample.byW (fun _ => 0) {} >>= fun z => .ok (x.2, y.2, z.2)) =
      .ok (.ret [4, 5], .raise, .ret [4, 5]) ∧
    (∃ l, IsCliqueList (ofPairs Sample.rows) 5 l ∧ 2 ≤ l.length ∧
      10 < weight (nth ([2, 1/2, 3, 1, 10] : List Rat)) l) ∧
    (Sample.dkite.getMaxClique List.reverse (fun _ => .nan)
        { lowerBound := .fin 10, upperBound := .inf false } >>= fun x =>
      x.1.getMaxClique List.reverse (fun _ => .nan)
        { lowerBound := .fin 20, upperBound := .inf false } >>= fun y =>
      y.1.getMaxClique List.reverse (fun _ => .nan)
        { lowerBound := .fin 1, upperBound := .fin 100 } >>= fun z => .ok (x.2, y.2, z.2)) =
      .ok (.ret [4, 5], .raise, .ret [4, 5]) := by
  refine ⟨by decide +kernel, ⟨[4, 5], ⟨by decide, by decide, ?_⟩, by decide, by decide +kernel⟩,
    by decide +kernel⟩
  intro u hu v hv hne
  simp only [List.mem_cons, List.not_mem_nil, or_false, Set.mem_ofPred_eq] at hu hv
  refine ⟨hne, ?_⟩
  rcases hu with rfl | rfl <;> rcases hv with rfl | rfl <;>
    first | exact absurd rfl hne | decide

/-- **C86** is false: after a search with a `lower_bound` that is too large the next one, with the
default bounds, misses a heavier clique. -/
theorem C86_refuted_lower :
    WUsable Sample.wkite 5 (ofPairs Sample.rows) (nth ([2, 1/2, 3, 1, 10] : List Rat)) ∧
    (Sample.wkite.getMaxClique Sample.byW (fun _ => 0) {} >>= fun x => .ok x.2) =
      .ok (.ret [4, 5]) ∧
    (Sample.wkite.getMaxClique Sample.byW (fun _ => 0) { lowerBound := 20 } >>= fun x =>
      x.1.getMaxClique Sample.byW (fun _ => 0) {} >>= fun y => .ok (x.2, y.2)) =
      .ok (.raise, .ret [5]) :=
  ⟨Sample.wkite_usable, by decide +kernel, by decide +kernel⟩

/-- **C86** is false: the same with an `upper_bound` that is too small. -/
theorem C86_refuted_upper :
    WUsable Sample.wkite 5 (ofPairs Sample.rows) (nth ([2, 1/2, 3, 1, 10] : List Rat)) ∧
    (Sample.wkite.getMaxClique Sample.byW (fun _ => 0) {} >>= fun x => .ok x.2) =
      .ok (.ret [4, 5]) ∧
    (Sample.wkite.getMaxClique Sample.byW (fun _ => 0) { upperBound := 3 } >>= fun x =>
      x.1.getMaxClique Sample.byW (fun _ => 0) {} >>= fun y => .ok y.2) =
      .ok (.ret [1, 2, 3, 4]) :=
  ⟨Sample.wkite_usable, by decide +kernel, by decide +kernel⟩

end CM
