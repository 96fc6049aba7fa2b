import Mathlib.Algebra.Order.Ring.Rat
import Mathlib.Algebra.Order.Field.Power
import Mathlib.Algebra.BigOperators.Group.Finset.Basic
import Mathlib.Order.Interval.Finset.Nat
import Verif.Model.Double

/-!
# Specification of weights that add up exactly

Which numbers are `double`s, and when no sum of the weights of a graph needs rounding.
-/

namespace CM.Spec

/-- The finite binary64 numbers of IEEE 754: integers of at most 53 bits, times a power of two
that is not below `2 ^ -1074`, if the result is below `2 ^ 1024`. -/
def Binary64 (q : Rat) : Prop :=
  ∃ z k : Int, q = z * 2 ^ k ∧ |z| < 2 ^ 53 ∧ -1074 ≤ k ∧ |q| < 2 ^ 1024

/-- Vertex `v` weighs `q v`, and the weights of any set of different vertices of `1 .. n` add up
to a `double`. -/
structure ExactWeights (n : Nat) (ω : Nat → Dbl) (q : Nat → Rat) : Prop where
  number : ∀ v, 1 ≤ v → v ≤ n → ω v = .fin (q v)
  sums : ∀ T ⊆ Finset.Icc 1 n, Binary64 (∑ v ∈ T, q v)

/-- The same, and the weights of two such sets, too, add up to a `double`. -/
structure ExactWeights2 (n : Nat) (ω : Nat → Dbl) (q : Nat → Rat) : Prop where
  number : ∀ v, 1 ≤ v → v ≤ n → ω v = .fin (q v)
  sums : ∀ T ⊆ Finset.Icc 1 n, ∀ T' ⊆ Finset.Icc 1 n, Binary64 (∑ v ∈ T, q v + ∑ v ∈ T', q v)

end CM.Spec
