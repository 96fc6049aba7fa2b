import Verif.Model.NWHeap
import Verif.SpecMemory

/-!
# What may be left by a weighted search that ran out of memory

Vocabulary for C105.
-/

namespace CM

namespace Spec

open Classical in
/-- The number of neighbours of `v` that come after it in the order by the weight of the
neighbourhood, then number. -/
noncomputable def wlater {R : Type} [Zero R] [Add R] [LT R] [LE R] (S : SimpleGraph Nat) (n : Nat)
    (ω : Nat → R) (v : Nat) : Nat :=
  ((Finset.Icc 1 n).filter fun w => S.Adj v w ∧
    ((w < v ∧ ¬ summedDegree S n ω w ≤ summedDegree S n ω v) ∨
      (v < w ∧ ¬ summedDegree S n ω w < summedDegree S n ω v))).card

/-- Every vertex has at most two more neighbours after it by weight than some vertex has after it by
degree. -/
def Roomy {R : Type} [Zero R] [Add R] [LT R] [LE R] (S : SimpleGraph Nat) (n : Nat)
    (ω : Nat → R) : Prop :=
  ∀ v, 1 ≤ v → v ≤ n → ∃ u, 1 ≤ u ∧ u ≤ n ∧ wlater S n ω v ≤ later S n u + 2

end Spec

/-- The two objects are the same, except perhaps for `search_done`. -/
def WSameBut {R : Type} (pg pg' : PyNW R) : Prop := pg = { pg' with finishedAll := pg.finishedAll }

/-- `a'` asks for what `a` asks for, or for less: not for the exact search, or for nothing. -/
def PyNW.Args.Less {R : Type} (a' a : PyNW.Args R) : Prop :=
  a' = a ∨ a' = { a with useDfs := false } ∨ a' = { a with useHeuristic := false, useDfs := false }

/-- The same call, or a search that asks for less. -/
inductive WOp.Less {R : Type} : WOp R → WOp R → Prop
  | same (op : WOp R) : WOp.Less op op
  | search {srt : List (NWG.WData R) → List (NWG.WData R)} {junk : Nat → R} {a' a : PyNW.Args R}
      (h : a'.Less a) : WOp.Less (.search srt junk a') (.search srt junk a)

end CM
