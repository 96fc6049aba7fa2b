import Verif.SpecDouble
import Verif.Model.Metric

/-! # Specification of sums and copies -/

namespace CM.Spec

/-- `r` is a result of adding up the numbers of the list, rounding after every addition, in some
order and with some placement of brackets. -/
inductive SumOf : List Dbl → Dbl → Prop
  | zero : SumOf [] (.fin 0)
  | one (x : Dbl) : SumOf [x] x
  | add {l r s : List Dbl} {a b : Dbl} : SumOf l a → SumOf r b → (l ++ r).Perm s → SumOf s (a + b)

/-- Two distances `x`, `y` agree within the tolerance `ε`, so that rounding does not matter: by a
margin of `2 ^ -50` times the size of the numbers, or because the ends of the interval around `x`
are `double`s. -/
def Within (ε x y : Rat) : Prop :=
  |x - y| + (|x| + |ε|) / 2 ^ 50 < ε ∧ |x| + |ε| ≤ 2 ^ 1021 ∨
    |x - y| < ε ∧ Binary64 (x - ε) ∧ Binary64 (x + ε)

/-- `σ` embeds the elements `0 .. M - 1` of one set into the elements `0 .. N - 1` of another,
without using an element twice. -/
structure Embeds (M N : Nat) (σ : Nat → Nat) : Prop where
  range : ∀ i, i < M → σ i < N
  inj : ∀ i j, i < M → j < M → σ i = σ j → i = j

end CM.Spec
