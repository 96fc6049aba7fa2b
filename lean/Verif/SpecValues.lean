import Verif.Model.Values

/-!
# What a Python value means as an argument (C102)
-/

namespace CM

/-- The value is the integer `z` (Python's `True` and `False` are the integers 1 and 0). -/
def PyVal.IsInt (v : PyVal) (z : Int) : Prop :=
  v = .int z ∨ (v = .bool true ∧ z = 1) ∨ (v = .bool false ∧ z = 0)

/-- The value is a number of items: an integer that is not negative and fits in 64 bits. -/
def PyVal.IsCount (v : PyVal) (k : Nat) : Prop := v.IsInt k ∧ k < 2 ^ 64

/-- The value is a number whose nearest `double` is `x`. -/
def PyVal.IsReal (v : PyVal) (x : Dbl) : Prop :=
  v = .float x ∨ ∃ (z : Int) (q : Rat), v.IsInt z ∧ x = .fin q ∧ Dbl.round z = .fin q

/-- The value counts as true or as false. -/
def PyVal.IsFlag (v : PyVal) (b : Bool) : Prop :=
  v = .bool b ∨ (v = .none ∧ b = false) ∨ (∃ z, v = .int z ∧ (b = true ↔ z ≠ 0)) ∨
    ∃ x, v = .float x ∧ (b = true ↔ x ≠ .fin 0)

end CM
