import Mathlib.Algebra.Order.Ring.Rat
import Mathlib.Algebra.BigOperators.Group.Finset.Basic
import Mathlib.Tactic.Linarith

/-!
# Number types that contain rational numbers

Arithmetic that is exact whenever its result can be represented: the rational numbers
themselves, and the `double`s.
-/

namespace CM

/-- `fin q` is the number with the value `q` (if there is one), `val` the value of a number.
Sums and differences are exact if their value is representable. -/
class ExactNum (R : Type) [Zero R] [Add R] [Sub R] [LT R] [LE R] where
  fin : Rat → R
  val : R → Rat
  Rep (R) : Rat → Prop
  val_fin : ∀ q, val (fin q) = q
  zero : (0 : R) = fin 0
  add : ∀ a b, Rep (a + b) → fin a + fin b = fin (a + b)
  sub : ∀ a b, Rep (a - b) → fin a - fin b = fin (a - b)
  lt : ∀ a b, fin a < fin b ↔ a < b
  le : ∀ a b, fin a ≤ fin b ↔ a ≤ b

namespace ExactNum

instance : ExactNum Rat where
  fin q := q
  val q := q
  Rep _ := True
  val_fin _ := rfl
  zero := rfl
  add _ _ _ := rfl
  sub _ _ _ := rfl
  lt _ _ := Iff.rfl
  le _ _ := Iff.rfl

variable {R : Type} [Zero R] [Add R] [Sub R] [LT R] [LE R] [ExactNum R]

/-- `x` is a number: it has a value, which determines it. -/
def Num (x : R) : Prop := x = fin (val x)

theorem fin_zero : (fin 0 : R) = 0 := zero.symm

theorem num_fin (q : Rat) : Num (fin q : R) := by
  unfold Num; rw [val_fin]

theorem val_zero : val (0 : R) = 0 := by rw [zero, val_fin]

theorem num_zero : Num (0 : R) := by rw [zero]; exact num_fin 0

theorem Num.le {a b : R} (ha : Num a) (hb : Num b) : a ≤ b ↔ val a ≤ val b := by
  rw [ha, hb, ExactNum.le, val_fin, val_fin]

theorem Num.lt {a b : R} (ha : Num a) (hb : Num b) : a < b ↔ val a < val b := by
  rw [ha, hb, ExactNum.lt, val_fin, val_fin]

theorem num_of {a : R} {q : Rat} (h : a = fin q) : Num a := by rw [h]; exact num_fin q

theorem val_of {a : R} {q : Rat} (h : a = fin q) : val a = q := by rw [h, val_fin]

theorem fin_inj {a b : Rat} (h : (fin a : R) = fin b) : a = b := by
  rw [← val_fin (R := R) a, h, val_fin]

theorem num_rat (q : Rat) : Num q := rfl

end ExactNum

end CM
