import Verif.SpecDouble
import Mathlib.Analysis.Real.Sqrt

/-! # Specification of Euclidean distances -/

namespace CM.Spec

/-- The square of the Euclidean distance of two points. -/
def sqDist (p q : List Rat) : Rat := (List.zipWith (fun a b => (a - b) ^ 2) p q).sum

/-- The square root IEEE 754 requires: the result is a `double`, and no `double` is nearer to the
root. -/
def CorrectRoot (sqrt : Dbl → Dbl) : Prop :=
  ∀ x : Rat, 0 ≤ x → Binary64 x → ∃ y : Rat, sqrt (.fin x) = .fin y ∧ Binary64 y ∧
    ∀ z : Rat, Binary64 z → |(y : ℝ) - √(x : ℝ)| ≤ |(z : ℝ) - √(x : ℝ)|

/-- Points whose coordinates are multiples of `2 ^ k`, as in fixed-point numbers. -/
def scaled (k : Int) (p : List Int) : List Rat := p.map fun z : Int => (z : Rat) * 2 ^ k

end CM.Spec
