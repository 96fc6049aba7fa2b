import Verif.Model.Heap

/-!
# What may be left by a call that ran out of memory

Vocabulary for C103.
-/

namespace CM


/-- `ub` is larger than the number of neighbours of any vertex. -/
def Wide (S : SimpleGraph Nat) (ub : Nat) : Prop :=
  ∀ v (X : Finset Nat), (∀ u ∈ X, S.Adj v u) → X.card < ub

/-- The call, if it is a search, has an `upper_bound` larger than the number of neighbours of any
vertex. -/
def Op.Wide (S : SimpleGraph Nat) : Op → Prop
  | .search _ a => CM.Wide S a.upperBound
  | _ => True

/-- The two objects are the same, except perhaps for `search_done`. -/
def SameBut (pg pg' : PyGraph) : Prop := pg = { pg' with finishedAll := pg.finishedAll }

/-- `a'` asks for what `a` asks for, or for less: not for the exact search, or for nothing. -/
def PyGraph.Args.Less (a' a : PyGraph.Args) : Prop :=
  a' = a ∨ a' = { a with useDfs := false } ∨ a' = { a with useHeuristic := false, useDfs := false }

/-- The same call, or a search that asks for less. -/
inductive Op.Less : Op → Op → Prop
  | same (op : Op) : Op.Less op op
  | search {srt : List Graph.VData → List Graph.VData} {a' a : PyGraph.Args} (h : a'.Less a) :
      Op.Less (.search srt a') (.search srt a)

/-- An answer as if memory had sufficed. -/
def HeapRes.of {α : Type} : PyRes α → HeapRes α
  | .ret a => .ret a
  | .raise => .raise

/-- The answers of an iterator some of whose calls ran out of memory, beside those of one with enough
memory: a call that ran out of memory gave nothing, or lost one clique. -/
inductive Merge : List (HeapRes (Option (List Nat))) → List (Option (List Nat)) → Prop
  | nil : Merge [] []
  | same {as : List (HeapRes (Option (List Nat)))} {cs : List (Option (List Nat))}
      (c : Option (List Nat)) : Merge as cs → Merge (.ret c :: as) (c :: cs)
  | idle {as : List (HeapRes (Option (List Nat)))} {cs : List (Option (List Nat))} :
      Merge as cs → Merge (.noMemory :: as) cs
  | lost {as : List (HeapRes (Option (List Nat)))} {cs : List (Option (List Nat))} (l : List Nat) :
      Merge as cs → Merge (.noMemory :: as) (some l :: cs)

/-- The cliques among the answers of an iterator. -/
def given (as : List (HeapRes (Option (List Nat)))) : List (List Nat) :=
  as.filterMap fun
    | .ret c => c
    | _ => none

end CM
