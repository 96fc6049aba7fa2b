import Mathlib.Order.Defs.PartialOrder
import Mathlib.Algebra.Group.Basic

/-!
# Another unit for weights
-/

namespace CM.Spec

/-- `φ` writes weights in another unit, for example in grams instead of kilograms: it keeps zero,
sums, differences and comparisons. -/
structure Rescales {R R' : Type} [Zero R] [Add R] [Sub R] [LT R] [LE R] [Zero R'] [Add R'] [Sub R']
    [LT R'] [LE R'] (φ : R → R') : Prop where
  zero : φ 0 = 0
  add : ∀ a b, φ (a + b) = φ a + φ b
  sub : ∀ a b, φ (a - b) = φ a - φ b
  lt : ∀ a b, φ a < φ b ↔ a < b
  le : ∀ a b, φ a ≤ φ b ↔ a ≤ b

end CM.Spec
