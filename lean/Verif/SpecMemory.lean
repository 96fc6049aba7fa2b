import Mathlib.Algebra.BigOperators.Group.Finset.Basic
import Verif.Spec

/-!
# How much memory a graph needs

Words of 64 bits, computed from the graph alone.
-/

namespace CM.Spec

open Classical in
/-- The number of neighbours of `v` that come after it in the order by degree, then number. -/
noncomputable def later (S : SimpleGraph Nat) (n v : Nat) : Nat :=
  ((Finset.Icc 1 n).filter fun w => S.Adj v w ∧
    (degree S n v < degree S n w ∨ degree S n v = degree S n w ∧ v < w)).card

/-- The memory the searches want: one word per 64 list entries of each vertex and of the
sentinel 0 (every vertex is in its own list), and two sets of neighbours for every level of
the deepest search. -/
noncomputable def wordsNeeded (S : SimpleGraph Nat) (n : Nat) : Nat :=
  n + 1 + (∑ v ∈ Finset.Icc 1 n, degree S n v / 64) +
    2 * ((Finset.Icc 1 n).sup (later S n) + 1 + 1) *
      ((Finset.Icc 1 n).sup (degree S n) / 64 + 1) + 1

/-- The number of different entries of the edge array: the loops and both directions of each
edge. -/
noncomputable def wordsStored (S : SimpleGraph Nat) (n : Nat) : Nat :=
  n + 1 + 2 * edgeCount S n

end CM.Spec
