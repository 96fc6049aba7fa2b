import Verif.Model.Blocks
import Verif.SpecMemory

/-!
# What programs with nested loops may do, and what they should see
-/

namespace CM

open Spec

/-- The sets of neighbours that an iterator over the cliques of size `k` keeps between two
answers. -/
def Spec.kept (k : Nat) : Nat := if k < 2 then 0 else k

/-- What `all_cliques(k)` should yield: the cliques of size `k`, but for those that begin with
vertex 1 in the order by degree, then number (C20). -/
def Spec.Listed (S : SimpleGraph Nat) (n k : Nat) (l : List Nat) : Prop :=
  k ≠ 0 ∧ IsCliqueList S n l ∧ l.length = k ∧ (2 ≤ k → ¬ First S n 1 l)

variable (S : SimpleGraph Nat) (n : Nat) (sizes : Nat → Prop) (plain : Prop)

/-- A call that a program may make: a reset, an iteration over cliques of one of the `sizes`, or a
search without a time limit whose `upper_bound` is not below the clique number and, if `plain`, whose
`lower_bound` is the default. -/
def Op.Fits (op : Op) : Prop :=
  op.Legal ∧ op.Exact S n ∧ op.Untimed ∧ (plain → op.Unbounded) ∧ ∀ j, op = .list j → sizes j

/-- The block does with memory for `m` sets of neighbours besides what a single call needs: the
loops around every call and every other loop keep no more. -/
def Block.Fits : Block → Nat → Prop
  | done, _ => True
  | call op rest, m => op.Fits S n sizes plain ∧ ∀ s, (rest s).Fits m
  | each k body rest, m => sizes k ∧ (∀ ls, (rest ls).Fits m) ∧
      ∀ c, IsCliqueList S n c → c.length = k → kept k ≤ m ∧ (body c).Fits (m - kept k)

/-- The same for a program; an iterator that is dropped before its end never gives back what it
keeps. -/
def Prog.Fits : Prog → Nat → Prop
  | stop, _ => True
  | block B rest, m => B.Fits S n sizes plain m ∧ ∀ ls, (rest ls).Fits m
  | take k _ rest, m => sizes k ∧
      (∀ c, IsCliqueList S n c → c.length = k → kept k ≤ m) ∧
      ∀ cs, (rest cs).Fits (match cs.getLast? with
        | some (some _) => m - kept k
        | _ => m)

/-- What should be seen of a complete call. -/
def Op.Reports : Op → Seen → Prop
  | .search _ a, s => ∃ r, s = .found a r ∧ (plain → ∃ l, r = .ret l ∧ IsCliqueList S n l ∧
      (a.useDfs = true → IsMaxCliqueList S n l ∨ sizes l.length))
  | .reset, s => s = .reset
  | .list k, s => ∃ cs, s = .list k cs ∧ cs.Nodup ∧ ∀ l, l ∈ cs ↔ Listed S n k l

/-- What should be seen of a block: a loop goes through the cliques, each once, and then ends. -/
def Block.Reports : Block → List Seen → Prop
  | done, ss => ss = []
  | call op rest, ss => ∃ s ss', ss = s :: ss' ∧ op.Reports S n sizes plain s ∧ (rest s).Reports ss'
  | each k body rest, ss => ∃ (items : List (List Nat × List Seen)) (ls ss' : List Seen),
      ss = ls ++ ss' ∧
      ls = items.flatMap (fun p => .next (some p.1) :: p.2) ++ [.next none] ∧
      (items.map Prod.fst).Nodup ∧ (∀ l, l ∈ items.map Prod.fst ↔ Listed S n k l) ∧
      (∀ p ∈ items, (body p.1).Reports p.2) ∧ (rest ls).Reports ss'

/-- What should be seen of a program. -/
def Prog.Reports : Prog → List Seen → Prop
  | stop, ss => ss = []
  | block B rest, ss => ∃ ls ss', ss = ls ++ ss' ∧ B.Reports S n sizes plain ls ∧
      (rest ls).Reports ss'
  | take k j rest, ss => ∃ (all : List (List Nat)) (cs : List (Option (List Nat))) (ss' : List Seen),
      ss = cs.map .next ++ ss' ∧ cs = (all.map some ++ List.replicate j none).take j ∧
      all.Nodup ∧ (∀ l, l ∈ all ↔ Listed S n k l) ∧ (rest cs).Reports ss'

end CM
