import Verif.Lemmas.History
import Verif.Lemmas.Budget

/-!
# The flag printed by `repr`, and searches that run to their end
-/

namespace CM

open Graph Spec

variable {pg : PyGraph}

/-- The printed flag is the negation of the property. -/
structure Inverted (pg : PyGraph) : Prop where
  pos : pg.nvert ≠ 0
  some : pg.G.isSome = true
  shown : pg.shownSearchDone = !pg.finishedAll

theorem Inverted.congr {pg' : PyGraph} (h : Inverted pg) (h1 : pg'.G.isSome = true)
    (h2 : pg'.nvert = pg.nvert) (h3 : pg'.currentVertex = pg.currentVertex)
    (h4 : pg'.finishedAll = pg.finishedAll) : Inverted pg' := by
  refine ⟨by rw [h2]; exact h.pos, h1, ?_⟩
  have := h.shown
  unfold PyGraph.shownSearchDone at this ⊢
  rw [h2, h3, h4, this]

theorem consume_inverted : ∀ (fuel : Nat) {pg : PyGraph} {E : Enum}
    {out : PyGraph × Enum × List (List Nat)}, Inverted pg → pg.consume fuel E = .ok out →
    Inverted out.1 := by
  intro fuel
  induction fuel with
  | zero => intro pg E out _ h; simp [PyGraph.consume] at h
  | succ fuel ih =>
    intro pg E out hI h
    unfold PyGraph.consume at h
    obtain ⟨⟨pg', E', c⟩, h1, h2⟩ := bind_eq_ok.1 h
    have hI' : Inverted pg' := by
      unfold PyGraph.nextClique at h1
      split at h1
      · cases h1
      · obtain ⟨⟨G1, E1, v⟩, h3, h4⟩ := bind_eq_ok.1 h1
        simp only at h4
        split at h4
        · injection h4 with h4
          injection h4 with h4 _
          subst h4
          exact hI.congr rfl rfl rfl rfl
        · obtain ⟨⟨G2, ans⟩, h5, h6⟩ := bind_eq_ok.1 h4
          simp only at h6
          injection h6 with h6
          injection h6 with h6 _
          subst h6
          exact hI.congr rfl rfl rfl rfl
    cases c with
    | none =>
      simp only at h2
      injection h2 with h2
      subst h2
      exact hI'
    | some c =>
      simp only at h2
      obtain ⟨⟨pg2, E2, cs⟩, h3, h4⟩ := bind_eq_ok.1 h2
      simp only at h4
      injection h4 with h4
      subst h4
      exact ih (out := (pg2, E2, cs)) hI' h3

theorem run_inverted {op : Op} {pg1 : PyGraph} (h : Inverted pg) (hr : op.run pg = .ok pg1) :
    Inverted pg1 := by
  cases op with
  | search srt a =>
    obtain ⟨⟨pg', r⟩, h1, h2⟩ := bind_eq_ok.1 hr
    injection h2 with h2
    subst h2
    unfold PyGraph.getMaxClique at h1
    simp only at h1
    split at h1
    · rename_i hc
      unfold PyGraph.checkLoaded at hc
      rw [if_neg h.pos] at hc
      have := h.some
      simp only at hc
      rw [hc] at this
      cases this
    · obtain ⟨⟨G1, i⟩, h3, h4⟩ := bind_eq_ok.1 h1
      obtain ⟨⟨G2, ans⟩, h5, h6⟩ := bind_eq_ok.1 h4
      simp only at h6
      split at h6 <;>
      · injection h6 with h6
        injection h6 with h6 _
        subst h6
        refine ⟨h.pos, rfl, ?_⟩
        unfold PyGraph.shownSearchDone
        simp only
        rw [← decide_not]
        simp
  | reset =>
    change pg.resetSearch = _ at hr
    unfold PyGraph.resetSearch at hr
    split at hr
    · cases hr
    · injection hr with hr
      subst hr
      refine ⟨h.pos, rfl, ?_⟩
      unfold PyGraph.shownSearchDone
      have := h.pos
      simp only [Bool.not_false, decide_eq_true_eq]
      omega
  | list k =>
    obtain ⟨⟨pg', cs⟩, h1, h2⟩ := bind_eq_ok.1 hr
    injection h2 with h2
    subst h2
    unfold PyGraph.listCliques at h1
    obtain ⟨E, h3, h4⟩ := bind_eq_ok.1 h1
    split at h4
    · cases h4
    · obtain ⟨⟨pg2, E2, cs2⟩, h5, h6⟩ := bind_eq_ok.1 h4
      injection h6 with h6
      injection h6 with h6 _
      subst h6
      exact consume_inverted _ h h5

theorem runs_inverted : ∀ (ops : List Op) {pg pg1 : PyGraph}, Inverted pg →
    runs ops pg = .ok pg1 → Inverted pg1 := by
  intro ops
  induction ops with
  | nil =>
    intro pg pg1 h hr
    injection hr with hr
    subst hr
    exact h
  | cons op ops ih =>
    intro pg pg1 h hr
    rw [runs_cons] at hr
    obtain ⟨pg2, h1, h2⟩ := bind_eq_ok.1 hr
    exact ih (run_inverted h h1) h2

/-- A timed search whose clock does not expire sets `search_done`, in every state. -/
theorem search_finishes {n : Nat} {S : SimpleGraph Nat} {G : Graph} (h : PyOk pg n S G)
    {srt : List VData → List VData} (hsrt : ∀ l, (srt l).Perm l) (a : PyGraph.Args)
    (hd : a.useDfs = true) (ht : a.timeLimit = some none) :
    ∃ pg' r, pg.getMaxClique srt a = .ok (pg', r) ∧ pg'.finishedAll = true := by
  obtain ⟨G', i, h1, h2, h3, _⟩ := findMax_spec hsrt (bounded_ok h.ok a)
    (if a.continueSearch = true then pg.currentVertex else 0)
    (if a.continueSearch = true ∧ pg.currentVertex ≠ 0 then false else a.useHeuristic)
    a.useDfs a.timeLimit
  have hi : G'.nVert ≤ i := by
    unfold findMaxCliques at h1
    rw [hd, ht] at h1
    simp only [if_true] at h1
    generalize (if a.continueSearch = true ∧ pg.currentVertex ≠ 0 then false
      else a.useHeuristic) = b at h1
    cases b with
    | true =>
      simp only [if_true] at h1
      obtain ⟨G2, _, h4⟩ := bind_eq_ok.1 h1
      exact recGraph_done _ _ h4
    | false =>
      simp only [Bool.false_eq_true, if_false] at h1
      obtain ⟨G2, _, h4⟩ := bind_eq_ok.1 h1
      exact recGraph_done _ _ h4
  have hn : n ≤ i := by
    have e1 := h3.frame.nVert
    have e2 := (bounded_frame G a).nVert
    have e3 := h.of.nv
    omega
  refine ⟨{ pg with G := some G', currentVertex := i, finishedAll := decide (i ≥ n) },
    if a.lowerBound > (G'.cliqueAt G'.curLoc).length then .raise
    else .ret (G'.cliqueAt G'.curLoc), ?_, by simpa using hn⟩
  unfold PyGraph.getMaxClique
  simp only
  have hl : PyGraph.checkLoaded { pg with
      currentVertex := if a.continueSearch = true then pg.currentVertex else 0 } = some G :=
    h.loaded
  rw [hl]
  simp only
  unfold bounded at h1
  rw [h1, ok_bind]
  simp only
  rw [getClique_ok h2.wf h2.pad h2.loc, ok_bind, h.nv]
  simp only
  split <;> rfl

end CM
