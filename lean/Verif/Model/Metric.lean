import Verif.Model.Corr
import Verif.Model.Double

/-!
# Distances that are `double`s

The compiled module instantiates the builders of correspondence graphs with `double` for
distances and tolerance (ext/A2Agraph.cpp:29-33, A2Lgraph.cpp, L2Agraph.cpp, L2Lgraph.cpp).
This is the arithmetic of the distance window in `double`s, and the default distance of the
rows of an array.
-/

namespace CM

namespace Dbl

/-- IEEE 754 multiplication. (For example in ext/eigen_distance.hpp:15.) -/
instance : Mul Dbl := ⟨fun
  | fin a, fin b => round (a * b)
  | nan, _ => nan
  | _, nan => nan
  | inf s, inf t => inf (s != t)
  | inf s, fin b => if b = 0 then nan else inf (s != decide (b < 0))
  | fin a, inf t => if a = 0 then nan else inf (t != decide (a < 0))⟩

theorem round_ne_nan (q : Rat) : round q ≠ nan := by
  unfold round
  split
  · simp
  · simp only; split <;> simp

/-- Adding a finite number does not make a NaN. -/
theorem add_fin_ne_nan {x : Dbl} (h : x ≠ nan) (q : Rat) : x + fin q ≠ nan := by
  cases x with
  | fin a => exact round_ne_nan _
  | inf s => simp only [HAdd.hAdd, Add.add]; simp
  | nan => exact absurd rfl h

theorem sub_fin_ne_nan {x : Dbl} (h : x ≠ nan) (q : Rat) : x - fin q ≠ nan :=
  add_fin_ne_nan h (-q)

end Dbl

/-- The values a distance can have: all `double`s but NaN.  (`std::sort`, relset.hpp:38-39, is
undefined for NaN.) -/
structure Dist where
  val : Dbl
  number : val ≠ .nan
  deriving DecidableEq

namespace Dist

/-- pair_dist.hpp:16-27: distances are compared as `double`s. -/
instance : LinearOrder Dist where
  le a b := a.val ≤ b.val
  lt a b := a.val < b.val
  le_refl := by
    rintro ⟨a | s | _, h⟩
    · exact decide_eq_true (le_refl a)
    · cases s <;> simp [LE.le, Dbl.le]
    · exact absurd rfl h
  le_trans := by
    rintro ⟨a | s | _, ha⟩ ⟨b | t | _, hb⟩ ⟨c | u | _, hc⟩ <;>
      first
        | exact absurd rfl ha
        | exact absurd rfl hb
        | exact absurd rfl hc
        | (simp only [LE.le, Dbl.le]
           try cases s
           all_goals try cases t
           all_goals try cases u
           all_goals simp
           all_goals exact fun h1 h2 => Rat.le_trans h1 h2)
  lt_iff_le_not_ge := by
    rintro ⟨a | s | _, ha⟩ ⟨b | t | _, hb⟩ <;>
      first
        | exact absurd rfl ha
        | exact absurd rfl hb
        | (change decide (a < b) = true ↔ decide (a ≤ b) = true ∧ ¬ decide (b ≤ a) = true
           simp only [decide_eq_true_eq, lt_iff_le_not_ge])
        | (simp only [LT.lt, LE.le, Dbl.lt, Dbl.le]
           try cases s
           all_goals try cases t
           all_goals simp)
  le_antisymm := by
    rintro ⟨a | s | _, ha⟩ ⟨b | t | _, hb⟩ <;>
      first
        | exact absurd rfl ha
        | exact absurd rfl hb
        | (simp only [LE.le, Dbl.le]
           try cases s
           all_goals try cases t
           all_goals simp
           all_goals exact fun h1 h2 => Rat.le_antisymm h1 h2)
  le_total := by
    rintro ⟨a | s | _, ha⟩ ⟨b | t | _, hb⟩ <;>
      first
        | exact absurd rfl ha
        | exact absurd rfl hb
        | (simp only [LE.le, Dbl.le]
           try cases s
           all_goals try cases t
           all_goals simp
           all_goals exact Rat.le_total)
  toDecidableLE := fun a b => inferInstanceAs (Decidable (a.val ≤ b.val))
  toDecidableLT := fun a b => inferInstanceAs (Decidable (a.val < b.val))

/-- Distances before they are computed (relset.hpp:20); the value is not used. -/
instance : Inhabited Dist := ⟨⟨.fin 0, by simp⟩⟩

end Dist

/-- ext_template.hpp:48-49, 120-121: `cur_lb = dist - epsilon` and `cur_ub = cur_lb + 2 * epsilon`
in `double`s; both operations round.  `ε` is the value of `epsilon`.  Doubling it is exact, unless
it overflows: tolerances of `2^1023` or more are not modelled. -/
def dblWindow (ε : Rat) : Window Dist where
  lo d := ⟨d.val - .fin ε, Dbl.sub_fin_ne_nan d.number ε⟩
  hi d := ⟨d.val - .fin ε + .fin (2 * ε),
    Dbl.add_fin_ne_nan (Dbl.sub_fin_ne_nan d.number ε) (2 * ε)⟩

/-- ext/eigen_distance.hpp:11-16 `euc_dist0`, ext/A2Agraph.cpp:7-12: `(p - q).norm()`, that is the
square root of the sum of the squares of the differences of the coordinates.  `sum` is the order
in which Eigen adds up the squares, which depends on the instruction set; `sqrt` is the square
root of the standard library. -/
def eucDist (sum : List Dbl → Dbl) (sqrt : Dbl → Dbl) (p q : List Dbl) : Dbl :=
  sqrt (sum ((List.zipWith (fun a b => a - b) p q).map fun x => x * x))

/-- The default distance of rows `i` and `j` of an array (ext/A2Agraph.cpp:7-12), as it is used by
the builders.  A NaN makes the sort of the distances undefined (relset.hpp:38-39); the model stops
when it is computed. -/
def defaultDist (sum : List Dbl → Dbl) (sqrt : Dbl → Dbl) (rows : Nat → List Dbl) (i j : Nat) :
    M Dist :=
  if h : eucDist sum sqrt (rows i) (rows j) ≠ .nan then .ok ⟨_, h⟩ else .error .ub

end CM
