import Mathlib.Algebra.Order.Ring.Rat
import Mathlib.Algebra.BigOperators.Group.List.Basic
import Mathlib.Algebra.BigOperators.Group.Finset.Basic
import Verif.Spec

/-!
# Specification of weighted graphs

A weighted graph is a graph on `1 .. n` with a weight for each vertex.
-/

namespace CM.Spec

/-- The weights given as a list: vertex `v` carries the `v`-th entry, counted from 1. -/
def nth {R : Type} [Zero R] (wts : List R) (v : Nat) : R := wts.getD (v - 1) 0

/-- The total weight of a list of vertices, when vertex `v` weighs `ω v`. -/
def weight {R : Type} [Zero R] [Add R] (ω : Nat → R) (l : List Nat) : R := (l.map ω).sum

/-- The same weight as a program computes it, in whatever arithmetic `R` has: starting from 0,
the weights are added one after the other in the order of the list.  (With rounding, the
result can depend on the order.) -/
def summed {R : Type} [Zero R] [Add R] (ω : Nat → R) (l : List Nat) : R :=
  l.foldl (fun a v => a + ω v) 0

open Classical in
/-- `u` and its neighbours among the vertices `1 .. n`, in increasing order. -/
noncomputable def neighbourhood (S : SimpleGraph Nat) (n u : Nat) : List Nat :=
  (List.range (n + 1)).filter fun v => v = u ∨ S.Adj u v

/-- The weights of `u` and its neighbours, added in increasing order of the vertices. -/
noncomputable def summedDegree {R : Type} [Zero R] [Add R] (S : SimpleGraph Nat) (n : Nat)
    (ω : Nat → R) (u : Nat) : R := summed ω (neighbourhood S n u)

open Classical in
/-- The weight of `u` and its neighbours among the vertices `1 .. n`. -/
noncomputable def wdegree (S : SimpleGraph Nat) (n : Nat) (ω : Nat → Rat) (u : Nat) : Rat :=
  ω u + ∑ v ∈ (Finset.Icc 1 n).filter (fun v => S.Adj u v), ω v

/-- `u` is the member of `l` whose neighbourhood is lightest, the smallest such vertex if there
are several. -/
def WFirst (S : SimpleGraph Nat) (n : Nat) (ω : Nat → Rat) (u : Nat) (l : List Nat) : Prop :=
  u ∈ l ∧ ∀ v ∈ l, v ≠ u →
    wdegree S n ω u < wdegree S n ω v ∨ (wdegree S n ω u = wdegree S n ω v ∧ u < v)

/-- Adding the vertices of `l` one by one - first `u`, then the others in increasing order -
reaches the weight `W` with the last vertex, and with no earlier one but possibly `u`. -/
def ReachedLast (ω : Nat → Rat) (W : Rat) (u : Nat) (l : List Nat) : Prop :=
  W ≤ weight ω l ∧
    ∀ m, 2 ≤ m → m < l.length → weight ω ((u :: l.erase u).take m) < W

end CM.Spec
