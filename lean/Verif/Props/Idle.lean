import Verif.Lemmas.Idle
import Verif.Props.Object
import Verif.Props.Weighted

/-!
# C108: `get_max_clique(use_heuristic=False, use_dfs=False)`

docs/source/user.rst: "Both `use_heuristic` and `use_dfs` cannot be set to `False`. `cliquematch` will
then skip the clique search entirely and raise a `RuntimeError`."
-/

namespace CM

open Spec Graph NWG Sample

variable {pg : PyGraph} {n : Nat} {S : SimpleGraph Nat}

/-- **C108**, what such a call does, after any history.  The full property: it raises an exception.
Proved: there is a list of vertices, the same for all such calls, and the call raises an exception
exactly if `lower_bound` is greater than its length; otherwise it is returned.  It is a clique, if no
search of the history was made with `lower_bound=0`.  `search_done` becomes `False` without
`continue_search` and stays as it is with it.  Missing, because false (`C108_refuted`): that there is an
exception in the other cases. -/
theorem C108_record_partial (h : Usable pg n S) {ops : List Op} (hl : ∀ op ∈ ops, op.Legal) :
    ∃ pg1 l, runs ops pg = .ok pg1 ∧ l ≠ [] ∧
      ((∀ op ∈ ops, op.Positive) → IsCliqueList S n l) ∧
      ∀ (srt : List VData → List VData) (a : PyGraph.Args), a.useHeuristic = false →
        a.useDfs = false →
        ∃ pg2, pg1.getMaxClique srt a =
            .ok (pg2, if a.lowerBound > l.length then .raise else .ret l) ∧
          pg2.finishedAll = (a.continueSearch && pg1.finishedAll) := by
  obtain ⟨G, hF⟩ := h.fresh
  obtain ⟨pg1, G1, a1, a2, _, _, a5, _⟩ := runs_spec ops hF.pyok hl
  have hI : Inverted pg1 := by
    refine runs_inverted ops ⟨by rw [hF.pyok.nv]; exact hF.pyok.pos, by rw [hF.pyok.g]; rfl, ?_⟩ a1
    unfold PyGraph.shownSearchDone
    rw [hF.cv, hF.fin, hF.pyok.nv]
    have := hF.pyok.pos
    simp
    omega
  refine ⟨pg1, stored G1, a1, ?_, fun hp => stored_clique a2 (a5 hp hF.loc), ?_⟩
  · intro h0
    have := stored_pos a2
    rw [h0] at this
    simp at this
  · intro srt a ha hd
    refine ⟨_, idle_spec a2 srt ha hd, ?_⟩
    dsimp only
    cases a.continueSearch with
    | true =>
      rw [if_pos rfl, Bool.true_and, inverted_done hI, a2.nv]
    | false =>
      rw [if_neg (by decide), Bool.false_and]
      have := a2.pos
      simp
      omega

/-- **C108**, the list: after a search that returned `l` the call returns `l` again, unless
`lower_bound` is greater than its length. -/
theorem C108_last (h : Usable pg n S) {ops : List Op} (hl : ∀ op ∈ ops, op.Legal)
    {srt : List VData → List VData} (hsrt : ∀ l, (srt l).Perm l) {b : PyGraph.Args}
    {pg1 pg2 : PyGraph} {l : List Nat} (h1 : runs ops pg = .ok pg1)
    (h2 : pg1.getMaxClique srt b = .ok (pg2, .ret l)) (srt' : List VData → List VData)
    {a : PyGraph.Args} (ha : a.useHeuristic = false) (hd : a.useDfs = false) :
    ∃ pg3, pg2.getMaxClique srt' a =
      .ok (pg3, if a.lowerBound > l.length then .raise else .ret l) := by
  obtain ⟨G, hF⟩ := h.fresh
  obtain ⟨pg1', G1, a1, a2, _⟩ := runs_spec ops hF.pyok hl
  rw [h1] at a1
  cases a1
  obtain ⟨pg2', G2, b1, b2, _⟩ := search_any a2 hsrt b
  rw [h2] at b1
  injection b1 with b1
  injection b1 with b0 b1
  subst b0
  have hst : stored G2 = l := by
    by_cases hlt : b.lowerBound > (stored G2).length
    · rw [if_pos hlt] at b1; cases b1
    · rw [if_neg hlt] at b1
      injection b1 with b1
      exact b1.symm
  exact ⟨_, by rw [idle_spec b2 srt' ha hd, hst]⟩

/-- **C108** is false for every graph: on a graph that was just loaded, whatever the bounds are, the
call returns a list of one vertex, unless `lower_bound` is 2 or more. -/
theorem C108_refuted (h : Usable pg n S) : ∃ v, 1 ≤ v ∧ v ≤ n ∧
    ∀ (srt : List VData → List VData) (a : PyGraph.Args), a.useHeuristic = false →
      a.useDfs = false →
      ∃ pg', pg.getMaxClique srt a = .ok (pg', if a.lowerBound > 1 then .raise else .ret [v]) := by
  obtain ⟨G, hF⟩ := h.fresh
  obtain ⟨v, hv⟩ := List.length_eq_one_iff.1 hF.stored
  have hc := stored_clique hF.pyok hF.loc
  rw [hv] at hc
  have hr := hc.range v (by simp)
  refine ⟨v, hr.1, hr.2, fun srt a ha hd => ?_⟩
  have key := idle_spec hF.pyok srt ha hd
  rw [hv] at key
  exact ⟨_, key⟩

section

variable {R : Type} [Zero R] [Add R] [Sub R] [NatCast R] [LT R] [LE R] [DecidableLT R]
  [DecidableLE R] {pg : PyNW R} {ω : Nat → R}

/-- **C108** for weighted graphs: the same, with weights instead of lengths.  If nothing was found
yet, the list may be `[0]`, which is no vertex. -/
theorem C108_weighted_partial (h : WUsable pg n S ω) {ops : List (WOp R)} (hl : ∀ op ∈ ops, op.Legal) :
    ∃ pg1 l w, wruns ops pg = .ok pg1 ∧
      ((IsCliqueList S n l ∧ w = summed ω l) ∨ (l = [0] ∧ w = 0 + 0)) ∧
      ∀ (srt : List (WData R) → List (WData R)) (junk : Nat → R) (a : PyNW.Args R),
        a.useHeuristic = false → a.useDfs = false →
        ∃ pg2, pg1.getMaxClique srt junk a =
            .ok (pg2, if a.lowerBound > w then .raise else .ret l) ∧ pg2.finishedAll = false := by
  obtain ⟨H, hF⟩ := AW.wusable_fresh h
  obtain ⟨pg1, H1, a1, a2, _⟩ := AW.wruns_spec ops hF.pyok hl
  refine ⟨pg1, wstored H1, summed H1.w (wstored H1), a1, ?_,
    fun srt junk a ha hd => ⟨_, AW.idle_spec a2 srt junk ha hd, rfl⟩⟩
  by_cases h0 : H1.curLoc = 0
  · right
    rw [wstored_zero a2 h0]
    refine ⟨rfl, ?_⟩
    show 0 + H1.w 0 = _
    rw [a2.w0]
  · left
    have hc := wstored_clique a2 h0
    refine ⟨hc, AW.summed_congr fun v hv => ?_⟩
    have hr := hc.range v hv
    exact a2.w v hr.1 hr.2

end

/-- The hypotheses are met: such calls before and after a search. -/
example : Usable kite 5 (ofPairs rows) ∧
    ((kite.getMaxClique byDegree { useHeuristic := false, useDfs := false }).map fun x => x.2) =
      .ok (.ret [1]) ∧
    ((kite.getMaxClique byDegree { lowerBound := 2, useHeuristic := false, useDfs := false }).map
      fun x => x.2) = .ok .raise ∧
    (runs [.search byDegree {}] kite >>= fun pg =>
      (pg.getMaxClique byDegree { lowerBound := 3, useHeuristic := false, useDfs := false }).map
        fun x => (x.2, x.1.finishedAll)) = .ok (.ret [1, 2, 3, 4], false) :=
  ⟨kite_usable, by decide +kernel⟩

/-- **C108** is false also in that such a call changes what later calls return: it raises an exception
because of its `lower_bound`, and the next ordinary search then returns one vertex, although the graph
has a clique of four. -/
theorem C108_refuted_after : Usable kite 5 (ofPairs rows) ∧
    ((kite.getMaxClique byDegree {}).map fun x => x.2) = .ok (.ret [1, 2, 3, 4]) ∧
    (kite.getMaxClique byDegree { lowerBound := 4, useHeuristic := false, useDfs := false } >>=
      fun x => (x.1.getMaxClique byDegree {}).map fun y => (x.2, y.2)) = .ok (.raise, .ret [1]) :=
  ⟨kite_usable, by decide +kernel⟩

end CM
