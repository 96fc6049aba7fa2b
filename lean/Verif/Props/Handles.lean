import Verif.Lemmas.Handles
import Verif.Props.Iteration

/-!
# C96: `iter()` on an iterator
-/

namespace CM

open Spec

variable {P E K C A : Type}

/-- **C96**: in any program, with any number of iterators of any of the four classes, `iter(it)` can be
replaced by `it`.  The answers are the same, also the faults, and so is the graph object
afterwards. -/
theorem C96_itself (L : IterClass P E K C A) {xs : List (HAct K C)} (hx : Named xs 0) (pg : P) :
    outcome (hacts L xs pg ⟨[], []⟩) = outcome (hacts L (direct xs [] 0) pg ⟨[], []⟩) :=
  hacts_direct L xs pg [] [] (by simp) hx

theorem single_mem {op : Op} : ∀ {xs : List (HAct Nat Op)}, Act.call op ∈ single xs →
    HAct.call op ∈ xs := by
  intro xs
  induction xs with
  | nil => simp [single]
  | cons x xs ih =>
    cases x with
    | call op' =>
      simp only [single, List.mem_cons, Act.call.injEq, HAct.call.injEq]
      exact Or.imp_right ih
    | _ => simp only [single, List.mem_cons, reduceCtorEq, false_or]; exact ih

theorem single_count : ∀ (xs : List (HAct Nat Op)),
    (single xs).countP Act.isNext = xs.countP HAct.isNext := by
  intro xs
  induction xs with
  | nil => rfl
  | cons x xs ih => cases x <;> simp [single, List.countP_cons, Act.isNext, HAct.isNext, ih]

/-- **C96** for one iterator: after any history, a program creates an iterator over the cliques of
size `k`, and asks it through any objects obtained from it by `iter()`, and these, in any order, for
instance by starting a loop over it, leaving that and starting another.  All the answers together
are those of one iteration: each clique of size `k` once (but for the defect of C20), and then
`StopIteration` for ever.  The program may make complete calls in between, as in C24. -/
theorem C96_shared {pg : PyGraph} {n : Nat} {S : SimpleGraph Nat} (h : Usable pg n S)
    {ops : List Op} (hl : ∀ op ∈ ops, op.Legal) (he : ∀ op ∈ ops, op.Exact S n) (k : Nat)
    {xs : List (HAct Nat Op)} (hs : Single xs) (hn : Named xs 1)
    (hx : ∀ op, HAct.call op ∈ xs → op.Legal ∧ op.Exact S n ∧ op.Untimed) :
    ∃ (pg1 pg2 : PyGraph) (seen : List Seen) (cs : List (List Nat)), runs ops pg = .ok pg1 ∧
      outcome (hacts cliqueIter (.all k :: xs) pg1 ⟨[], []⟩) = .ok (pg2, seen) ∧
      Seen.answers seen = (cs.map some ++ List.replicate (xs.countP HAct.isNext) none).take
        (xs.countP HAct.isNext) ∧
      cs.Nodup ∧
      (∀ l, l ∈ cs ↔ (k ≠ 0 ∧ IsCliqueList S n l ∧ l.length = k ∧ (2 ≤ k → ¬ First S n 1 l))) := by
  obtain ⟨pg1, E, pg2, E2, seen, cs, a1, a2, a3, a4, a5, a6, _⟩ :=
    C24_nested_partial h hl he k (xs := single xs) (fun op ho => hx op (single_mem ho))
  refine ⟨pg1, pg2, seen, cs, a1, ?_, by rwa [single_count] at a4, a5, a6⟩
  have := hacts_single xs pg1 E 1 hs hn
  rw [a3] at this
  simp only [hacts, HAct.run]
  rw [show cliqueIter.new pg1 k = .ok E from a2]
  simp only [ok_bind]
  rw [outcome_cons (a := [])]
  simp only [List.nil_append, List.length_nil]
  rw [show ([0] : List Nat) = List.replicate 1 0 from rfl, this]
  rfl

/-- A program on the kite: `it = G.all_cliques(2)`, two cliques in a loop, which makes an object of its
own, one from `it`, a reset, and a second loop to the end. -/
def loops : List (HAct Nat Op) :=
  [.iter 0, .next 1, .next 1, .next 0, .call .reset, .iter 0, .next 2, .next 2, .next 1]

example : Single loops ∧ Named loops 1 ∧
    (outcome (hacts cliqueIter (.all 2 :: loops) Sample.kite ⟨[], []⟩) >>=
      fun r => .ok (Seen.answers r.2)) =
      .ok [some [2, 3], some [2, 4], some [3, 4], some [4, 5], none, none] ∧
    (outcome (hacts cliqueIter (direct (.all 2 :: loops) [] 0) Sample.kite ⟨[], []⟩) >>=
      fun r => .ok (Seen.answers r.2)) =
      .ok [some [2, 3], some [2, 4], some [3, 4], some [4, 5], none, none] := by
  refine ⟨fun k => by simp [loops], by simp [loops, Named], by decide +kernel, by decide +kernel⟩

end CM
