import Verif.Lemmas.EXMain
import Verif.Lemmas.DblRound
import Mathlib.Algebra.BigOperators.Ring.Finset

/-! # `double`s are exact on representable sums -/

namespace CM

open Spec

/-- `double`s, the representable numbers being the binary64 ones. -/
instance : ExactNum Dbl where
  fin := Dbl.fin
  val := fun
    | .fin q => q
    | _ => 0
  Rep := Binary64
  val_fin _ := rfl
  zero := rfl
  add _ _ h := Dbl.round_fin64 h
  sub a b h := by
    show Dbl.round (a + -b) = _
    rw [← sub_eq_add_neg]
    exact Dbl.round_fin64 h
  lt a b := by
    show Dbl.lt (.fin a) (.fin b) = true ↔ _
    simp [Dbl.lt]
  le a b := by
    show Dbl.le (.fin a) (.fin b) = true ↔ _
    simp [Dbl.le]

namespace EX

variable {n : Nat} {S : SimpleGraph Nat} {ω : Nat → Dbl} {q : Nat → Rat} {pg : PyNW Dbl}

theorem weights2_one (x : ExactWeights2 n ω q) : ExactWeights n ω q :=
  ⟨x.number, fun T hT => by simpa using x.sums T hT ∅ (by simp)⟩

theorem given (h : WUsable pg n S ω) (x : ExactWeights n ω q) : Given pg n S q :=
  ⟨⟨ω, h, x.number⟩, x.sums⟩

theorem given2 (h : WUsable pg n S ω) (x : ExactWeights2 n ω q) : Given2 pg n S q :=
  ⟨given h (weights2_one x), x.sums⟩

theorem upOk_of {x : Dbl} (h : Dbl.fin 0 ≤ x) : UpOk x := by
  cases x with
  | fin r => exact Or.inl rfl
  | inf s =>
    refine Or.inr (fun r hr => ?_)
    cases s with
    | true => exact absurd h (by decide)
    | false => exact absurd hr (by show ¬ (Dbl.lt (.inf false) (.fin r) = true); simp [Dbl.lt])
  | nan => exact absurd h (by decide)

theorem lowOk_of {x : Dbl} (h : x ≠ .inf false) : LowOk x := by
  cases x with
  | fin r => exact Or.inl rfl
  | inf s =>
    refine Or.inr (fun r hr => ?_)
    cases s with
    | true => exact absurd hr (by show ¬ (Dbl.lt (.fin r) (.inf true) = true); simp [Dbl.lt])
    | false => exact absurd rfl h
  | nan =>
    exact Or.inr (fun r hr =>
      absurd hr (by show ¬ (Dbl.lt (.fin r) .nan = true); simp [Dbl.lt]))

theorem sum_unit {T : Finset Nat} {z : Nat → Int} {k : Int} (hq : ∀ v, v ∈ T → q v = z v * 2 ^ k) :
    ∑ v ∈ T, q v = ((∑ v ∈ T, z v : Int) : Rat) * 2 ^ k := by
  rw [Finset.sum_congr rfl hq, ← Finset.sum_mul]
  push_cast
  rfl

theorem abs_sum_le {T : Finset Nat} {z : Nat → Int} (hT : T ⊆ Finset.Icc 1 n) :
    |∑ v ∈ T, z v| ≤ ∑ v ∈ Finset.Icc 1 n, |z v| :=
  le_trans (Finset.abs_sum_le_sum_abs _ _)
    (Finset.sum_le_sum_of_subset_of_nonneg hT (fun _ _ _ => abs_nonneg _))

end EX

end CM
