import Verif.Model.CorrBlocks
import Verif.SpecLoops

/-!
# What programs that loop over correspondences may do, and what they should see
-/

namespace CM

open Spec

/-- `c` lists, as indices into two sets of `M` and `N` elements, the pairs that the vertices `l` of
the graph of pairs stand for, in the same order. -/
structure Spec.Names (M N : Nat) (c : List Nat × List Nat) (l : List Nat) : Prop where
  first : c.1.length = l.length
  second : c.2.length = l.length
  range1 : ∀ i ∈ c.1, i < M
  range2 : ∀ j ∈ c.2, j < N
  pairs : (c.1.zip c.2).map (fun p => pairId N p.1 p.2) = l

variable (S : SimpleGraph Nat) (M N : Nat) (sizes : Nat → Prop) (plain : Prop)

/-- As `Block.Fits`. -/
def CorrBlock.Fits : CorrBlock → Nat → Prop
  | done, _ => True
  | find srt a rest, m => (Op.search srt a).Fits S (M * N) sizes plain ∧ ∀ r, (rest r).Fits m
  | each k body rest, m => sizes k ∧ (∀ ls, (rest ls).Fits m) ∧
      ∀ c l, Names M N c l → IsCliqueList S (M * N) l → l.length = k →
        kept k ≤ m ∧ (body c).Fits (m - kept k)

/-- What should be seen of a block: a search returns the pairs of a clique, a maximum clique if it
is a depth-first search, unless it has one of the sizes iterated over; a loop goes through the
cliques of its size (but for the defect of C20), each once, as lists of indices, and ends. -/
def CorrBlock.Reports : CorrBlock → List CorrSeen → Prop
  | done, ss => ss = []
  | find _ a rest, ss => ∃ r ss', ss = .found a r :: ss' ∧
      (plain → ∃ c l, r = .ret c ∧ Names M N c l ∧ IsCliqueList S (M * N) l ∧
        (a.useDfs = true → IsMaxCliqueList S (M * N) l ∨ sizes l.length)) ∧
      (rest r).Reports ss'
  | each k body rest, ss =>
      ∃ (items : List ((List Nat × List Nat) × List CorrSeen)) (ls ss' : List CorrSeen),
      ss = ls ++ ss' ∧
      ls = items.flatMap (fun p => .next (some p.1) :: p.2) ++ [.next none] ∧
      (items.map Prod.fst).Nodup ∧
      (∀ c, c ∈ items.map Prod.fst ↔ ∃ l, Names M N c l ∧ Listed S (M * N) k l) ∧
      (∀ p ∈ items, (body p.1).Reports p.2) ∧ (rest ls).Reports ss'

end CM
