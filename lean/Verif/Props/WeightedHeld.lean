import Verif.Props.WeightedArith
import Verif.Lemmas.AWHeld

/-!
# C45, C51 for programs that hold one weighted iterator while they make other calls

As in `WeightedArith`, no law of arithmetic is assumed.
-/

namespace CM

open Spec Graph NWG

set_option linter.unusedSectionVars false

section

variable {R : Type} [Zero R] [Add R] [Sub R] [NatCast R] [LT R] [LE R] [DecidableLT R]
  [DecidableLE R] {pg : PyNW R} {n : Nat} {S : SimpleGraph Nat} {ω : Nat → R}

/-- **C45** for an iterator that is held while the program makes other calls.  After any history,
`iter(G.all_cliques(W))` is asked for cliques at any times, with any complete searches, resets and
iterations in between.  Its answers are cliques of at least two vertices, and `StopIteration` from
some point on; no clique is reported twice if the computed weights of the neighbourhoods can be
compared with each other.  The iterations in between report cliques of at least two vertices, and
the searches the placeholder or a clique whose weight is not below their lower bound.  Missing,
because false (`C45_refuted_rounding`): that the weight of each clique reaches the threshold. -/
theorem C45_held_any_arithmetic_partial (h : WUsable pg n S ω) {ops : List (WOp R)}
    (hl : ∀ op ∈ ops, op.Legal) (junk : Nat → R) (W : R) {xs : List (WAct R)}
    (hx : ∀ op, WAct.call op ∈ xs → op.Legal) :
    ∃ pg1 E pg2 E' ss, ∃ (cs : List (List Nat)) (j : Nat), wruns ops pg = .ok pg1 ∧ pg1.allCliques junk W = .ok E ∧
      wacts xs pg1 E = .ok (pg2, E', ss) ∧
      WSeen.answers ss = cs.map some ++ List.replicate j none ∧
      (∀ l ∈ cs, IsCliqueList S n l ∧ 2 ≤ l.length) ∧
      ((∀ u v, (1 ≤ u ∧ u ≤ n) → (1 ≤ v ∧ v ≤ n) →
          summedDegree S n ω u ≤ summedDegree S n ω v ∨
          summedDegree S n ω v < summedDegree S n ω u) → cs.Nodup) ∧
      (∀ W' cs', WSeen.list W' cs' ∈ ss → ∀ l ∈ cs', IsCliqueList S n l ∧ 2 ≤ l.length) ∧
      (∀ a l, WSeen.found a (.ret l) ∈ ss → (l = [0] ∧ ¬ (0 : R) + 0 < a.lowerBound) ∨
        (IsCliqueList S n l ∧ ¬ summed ω l < a.lowerBound)) := by
  obtain ⟨H, hF⟩ := AW.wusable_fresh h
  obtain ⟨pg1, H1, a1, a2, a3, _⟩ := AW.wruns_spec ops hF.pyok hl
  obtain ⟨E, b1, b2⟩ := AW.WHeld.new a2 junk W
  obtain ⟨pg2, E', ss, ps, j, c1, c2, c3, c4, c5⟩ := AW.wacts_spec xs b2 hx
  obtain ⟨d1, d2⟩ := AW.root_lists a2 c2 (fun q hq => b2.pend q.1 q.2 (c3 q hq))
  refine ⟨pg1, E, pg2, E', ss, ps.map fun q => H1.g.listAt q.1 q.2, j, a1, b1, c1,
    by rw [c4, List.map_map]; rfl, d1, fun hc => d2 ?_, fun W' cs' hm => c5 _ hm,
    fun a l hm => c5 _ hm l rfl⟩
  intro u v h1 h2 h3 h4
  rw [a3.d, a3.d, AW.spec_summedDegree hF.pyok h1 h2 (hF.d u h2),
    AW.spec_summedDegree hF.pyok h3 h4 (hF.d v h4)]
  exact hc u v ⟨h1, h2⟩ ⟨h3, h4⟩

/-- **C51** for programs that hold one iterator: it can be created after any history, and then
asked for cliques at any times, with any complete calls in between.  It need not be asked to the
end: a program that abandons it is one that has no further `next`.  Missing, because false: a
second iterator that is abandoned or asked in turn (`C51_refuted_abandoned`, `C62_refuted`), and
the graphs of `C51_no_fault_partial`. -/
theorem C51_one_iterator_partial (h : WUsable pg n S ω) {ops : List (WOp R)}
    (hl : ∀ op ∈ ops, op.Legal) (junk : Nat → R) (W : R) {xs : List (WAct R)}
    (hx : ∀ op, WAct.call op ∈ xs → op.Legal) :
    ∃ pg1 E x, wruns ops pg = .ok pg1 ∧ pg1.allCliques junk W = .ok E ∧
      wacts xs pg1 E = .ok x := by
  obtain ⟨pg1, E, pg2, E', ss, _, _, a1, a2, a3, _⟩ :=
    C45_held_any_arithmetic_partial h hl junk W hx
  exact ⟨pg1, E, _, a1, a2, a3⟩

end

/-- The hypotheses are met by a program on the sample that asks for cliques of weight 3 and, after
the first, lists cliques, searches and resets. -/
example : ∃ pg1 E x, wruns [.search Sample.byW (fun _ => 0) {}] Sample.wkite = .ok pg1 ∧
    pg1.allCliques (fun _ => 0) 3 = .ok E ∧
    wacts [.next, .call (.list (fun _ => 0) 2), .call (.search Sample.byW (fun _ => 0) {}),
      .call .reset, .next] pg1 E = .ok x :=
  C51_one_iterator_partial Sample.wkite_usable (by simp [WOp.Legal, Sample.byW_perm]) _ 3
    (by
      intro op hop
      simp only [List.mem_cons, WAct.call.injEq, reduceCtorEq, List.not_mem_nil, or_false,
        false_or] at hop
      rcases hop with rfl | rfl | rfl
      · trivial
      · exact Sample.byW_perm
      · trivial)

/-- What such a program sees on the sample as loaded: the iterator over cliques of weight 4 goes
on where it was, and the search and the list are what they would be without it. -/
example : (wacts [.next, .call (.list (fun _ => 0) 3), .call (.search Sample.byW (fun _ => 0) {}),
      .call .reset, .next, .next, .next] Sample.wkite (WEnum.new [0, 0, 0, 0, 0, 0] 4) >>=
      fun x => .ok (WSeen.answers x.2.2)) = .ok [some [2, 3, 4], some [3, 4], some [4, 5], none] ∧
    (Sample.wkite.listCliques (fun _ => 0) 4 >>= fun x => .ok x.2) =
      .ok [[2, 3, 4], [3, 4], [4, 5]] := by
  decide +kernel

end CM
