import Verif.Lemmas.Timed
import Verif.Props.MaxClique

/-!
# What a search that the clock cut short leaves out
-/

namespace CM

open Spec Graph Sample

variable {pg : PyGraph} {n : Nat} {S : SimpleGraph Nat}

/-- **C15**, what remains true when clocks expire.  The full property: `search_done` implies
that the last result is a maximum clique.  Proved: after any sequence of searches (any time
limits, any clocks, continued or not, with and without heuristic or exact phase) and resets,
`search_done` implies that the result has at least `min(u, k)` members, for every clique of
`k` members that contains neither the last vertex nor a vertex of a set `X`, where `X` has at
most one vertex for every
call with a time limit, and `u` is a lower bound of the `upper_bound`s used.  Missing, because
false (`C15_refuted`): the cliques through `X` and the last vertex. -/
theorem C15_given_up_partial (h : Usable pg n S) {ops : List Op} (hl : ∀ op ∈ ops, op.Legal)
    (hn : ∀ op ∈ ops, op.NoList) (hb : ∀ op ∈ ops, op.Unbounded)
    {u : Nat} (ha : ∀ op ∈ ops, op.Ample u) {srt : List VData → List VData}
    (hsrt : ∀ l, (srt l).Perm l) (a : PyGraph.Args) (hlb : a.lowerBound = 1)
    (hu : u ≤ a.upperBound) :
    ∃ pg1 pg2 l, runs ops pg = .ok pg1 ∧ pg1.getMaxClique srt a = .ok (pg2, .ret l) ∧
      IsCliqueList S n l ∧
      (pg2.finishedAll = true → ∃ X : Finset Nat,
        X.card ≤ (ops ++ [Op.search srt a]).countP Op.timed ∧
        ∀ l', IsCliqueList S n l' → (∀ v ∈ l', v ∉ X ∧ v ≠ n) → min u l'.length ≤ l.length) := by
  obtain ⟨G, hF⟩ := h.fresh
  have hpos : ∀ op ∈ ops, op.Positive := by
    intro op ho
    have := hb op ho
    cases op with
    | search srt a => exact Nat.le_of_eq (Eq.symm this)
    | reset => trivial
    | list k => trivial
  obtain ⟨pg1, G1, Y1, a1, a2, _, a4, a5, a6⟩ := runs_X ops hF.givenUp hl hpos ha hF.loc
  have hh1 := a6 hn hb (by unfold Honest; rw [hF.cm]; exact Nat.zero_le _)
  obtain ⟨pg2, G2, Y2, b1, b2, _, b4, b5, b6, b7, b8, _⟩ := a2.search hsrt a hu
  have h0 := b5 (by omega) a5
  have hh2 := b6 (by omega) hh1
  unfold Honest at hh2
  have hst := stored_pos b2.ok
  refine ⟨pg1, pg2, stored G2, a1, ?_, stored_clique b2.ok h0, fun hf => ⟨Y2, ?_, ?_⟩⟩
  · rw [b1, if_neg (by omega)]
  · have := cost_eq srt a
    rw [List.countP_append, List.countP_singleton]
    simp only [Finset.card_empty] at a4
    omega
  · intro l' hl' hX
    have := b2.best (by omega) hl' (fun v hv => (hX v hv).1) (fun v hv => by
      have := hl'.range v hv
      have := (hX v hv).2
      have := b8 hf
      omega)
    omega

/-- The run of `C15_refuted` is an instance: two calls with a time limit, `search_done`, and the
triangle that was missed contains the last vertex, 5. -/
example : ∃ pg1 pg2 l, runs [.search byDegree
      { timeLimit := some (some 0), continueSearch := true }] Sample.house = .ok pg1 ∧
      pg1.getMaxClique byDegree { timeLimit := some (some 4), continueSearch := true } =
        .ok (pg2, .ret l) ∧ IsCliqueList (ofPairs Sample.houseRows) 5 l ∧
      (pg2.finishedAll = true → ∃ X : Finset Nat, X.card ≤ 2 ∧
        ∀ l', IsCliqueList (ofPairs Sample.houseRows) 5 l' → (∀ v ∈ l', v ∉ X ∧ v ≠ 5) →
          min 65535 l'.length ≤ l.length) :=
  C15_given_up_partial
    (ops := [.search byDegree { timeLimit := some (some 0), continueSearch := true }])
    Sample.house_usable (by simp [Op.Legal, byDegree_perm])
    (by simp [Op.NoList]) (by simp [Op.Unbounded]) (by simp [Op.Ample])
    byDegree_perm _ rfl (Nat.le_refl _)

/-- **C16**, what remains true when clocks expire.  The full property: after any history,
`reset_search` and an untimed search with default bounds return a maximum clique.  Proved:
after any history (any clocks and bounds, resets, complete iterations), the result has at least
`min(u, k)` members, for every clique of `k` members that avoids a set of at most one vertex for
every call with a time limit; `u` is any lower bound of the `upper_bound`s used.  Missing, because
false (`C16_refuted`, `C16_refuted_timed`): the cliques through that set, and cliques larger
than `u`. -/
theorem C16_given_up_partial (h : Usable pg n S) {ops : List Op} (hl : ∀ op ∈ ops, op.Legal)
    (hp : ∀ op ∈ ops, op.Positive) {u : Nat} (ha : ∀ op ∈ ops, op.Ample u)
    {srt : List VData → List VData} (hsrt : ∀ l, (srt l).Perm l) (a : PyGraph.Args)
    (hd : a.useDfs = true) (ht : a.timeLimit = none) (hlb : a.lowerBound = 1)
    (hu : u ≤ a.upperBound) :
    ∃ pg1 pg2 pg3 l, runs ops pg = .ok pg1 ∧ pg1.resetSearch = .ok pg2 ∧
      pg2.getMaxClique srt a = .ok (pg3, .ret l) ∧ IsCliqueList S n l ∧
      ∃ X : Finset Nat, X.card ≤ ops.countP Op.timed ∧
        ∀ l', IsCliqueList S n l' → (∀ v ∈ l', v ∉ X) → min u l'.length ≤ l.length := by
  obtain ⟨G, hF⟩ := h.fresh
  obtain ⟨pg1, G1, Y1, a1, a2, _, a4, a5, _⟩ := runs_X ops hF.givenUp hl hp ha hF.loc
  obtain ⟨pg3, G3, Y3, b1, b2, _, b4, b5, b6, b7, _, b9⟩ := a2.reset.search hsrt a hu
  have h0 := b5 (by omega) a5
  have hh := b6 (by omega) (by unfold Honest; exact stored_pos a2.reset.ok)
  unfold Honest at hh
  have hst := stored_pos b2.ok
  refine ⟨pg1, _, pg3, stored G3, a1, by unfold PyGraph.resetSearch; rw [a2.ok.g], ?_,
    stored_clique b2.ok h0, Y3, ?_, ?_⟩
  · rw [b1, if_neg (by omega)]
  · rw [ht] at b4
    simp only [cost, Finset.card_empty] at a4 b4
    omega
  · intro l' hl' hX
    have := b2.best (by omega) hl' hX (fun v hv => by
      have := hl'.range v hv
      have := b9 hd ht
      omega)
    omega

/-- The run of `C16_refuted_timed`, with another search in front of the reset, is an instance:
one call with a time limit, so one vertex meets all cliques of three or more members that are
larger than the result. -/
example : ∃ pg1 pg2 pg3 l, runs [.search byDegree
      { timeLimit := some (some 2), useHeuristic := false },
      .search byDegree { upperBound := 3 }] Sample.decoy = .ok pg1 ∧
      pg1.resetSearch = .ok pg2 ∧ pg2.getMaxClique byDegree {} = .ok (pg3, .ret l) ∧
      IsCliqueList (ofPairs Sample.decoyRows) 10 l ∧
      ∃ X : Finset Nat, X.card ≤ 1 ∧ ∀ l', IsCliqueList (ofPairs Sample.decoyRows) 10 l' →
        (∀ v ∈ l', v ∉ X) → min 3 l'.length ≤ l.length :=
  C16_given_up_partial
    (ops := [.search byDegree { timeLimit := some (some 2), useHeuristic := false },
      .search byDegree { upperBound := 3 }])
    Sample.decoy_usable (by simp [Op.Legal, byDegree_perm])
    (by simp [Op.Positive]) (by simp [Op.Ample]) byDegree_perm {} rfl rfl rfl (by decide)

end CM
