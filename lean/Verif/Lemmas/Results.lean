import Verif.Lemmas.History

/-! # What searches return -/

namespace CM

open Spec Graph

variable {pg : PyGraph} {n : Nat} {S : SimpleGraph Nat} {G : Graph}

/-- The clique an object would report if a search found nothing better. -/
def stored (G : Graph) : List Nat := G.cliqueAt G.curLoc

theorem stored_clique (h : PyOk pg n S G) (h0 : G.curLoc ≠ 0) : IsCliqueList S n (stored G) :=
  cliqueAt_clique h.of h.ok.wf.str h.ok.loc (h.ok.cliq _ h.ok.loc) h0

theorem stored_pos (h : PyOk pg n S G) : 1 ≤ (stored G).length := by
  unfold stored
  rw [cliqueAt_length]
  exact Finset.card_pos.2 ⟨_, (h.ok.cliq _ h.ok.loc).1⟩

theorem bounded_curMax (G : Graph) (a : PyGraph.Args) :
    (bounded G a).curMax = max a.lowerBound G.curMax := by
  simp only [bounded]; split <;> omega

theorem bounded_limit (G : Graph) (a : PyGraph.Args) :
    (bounded G a).limit = min a.upperBound G.limit := by
  simp only [bounded]; split <;> omega

theorem Fresh.loc (h : Fresh pg n S G) : G.curLoc ≠ 0 :=
  (bounds_loc h.pyok.of h.pyok.ok.wf.str h.bounds h.edge).1

theorem Fresh.mcs (h : Fresh pg n S G) : McsOk G := h.bounds.mcsOk h.pyok.ok.wf.str

theorem Fresh.lim (h : Fresh pg n S G) : ∀ l, IsCliqueList S n l → l.length ≤ G.limit :=
  fun _ hl => bounds_spec h.pyok.of h.pyok.ok.wf.str h.bounds hl

theorem Fresh.stored (h : Fresh pg n S G) : (CM.stored G).length = 1 := by
  unfold CM.stored
  rw [cliqueAt_length, h.sing _ h.pyok.ok.loc, Finset.card_singleton]

/-- Any search: what is stored and what is returned. -/
theorem search_any (h : PyOk pg n S G) {srt : List VData → List VData}
    (hsrt : ∀ l, (srt l).Perm l) (a : PyGraph.Args) :
    ∃ pg' G', pg.getMaxClique srt a =
        .ok (pg', if a.lowerBound > (stored G').length then .raise else .ret (stored G')) ∧
      PyOk pg' n S G' ∧ Frame G G' ∧ pg'.nedges = pg.nedges ∧
      (1 ≤ a.lowerBound → G.curLoc ≠ 0 → G'.curLoc ≠ 0) ∧
      ((G'.curMax = max a.lowerBound G.curMax ∧ stored G' = stored G) ∨
        (max a.lowerBound G.curMax < G'.curMax ∧ (stored G').length = G'.curMax)) := by
  obtain ⟨G', i, h1, h2, h3, _⟩ := getMaxClique_spec h hsrt a
  refine ⟨_, G', h1, getMaxClique_pyok h h2 h3 _, (bounded_frame G a).trans h3.frame, rfl, ?_, ?_⟩
  · intro hp h0
    exact imp_loc (h.of.frame (bounded_frame G a)) (bounded_ok h.ok a).wf.str h3 h2
      (by rw [bounded_curMax]; omega) h0
  · have := imp_cases h3
    rw [bounded_curMax] at this
    exact this

/-- A search that is not cut short, in a state whose bounds are intact. -/
theorem search_exact (h : PyOk pg n S G) {srt : List VData → List VData}
    (hsrt : ∀ l, (srt l).Perm l) (a : PyGraph.Args) (hm : McsOk G)
    (hlim : ∀ l, IsCliqueList S n l → l.length ≤ G.limit) (h0 : G.curLoc ≠ 0)
    (hlb : 1 ≤ a.lowerBound) (hd : a.useDfs = true)
    (ht : a.timeLimit = none ∨ a.timeLimit = some none)
    (hc : a.timeLimit = none ∨ a.continueSearch = false ∨ pg.currentVertex = 0) :
    ∃ pg' G', pg.getMaxClique srt a =
        .ok (pg', if a.lowerBound > (stored G').length then .raise else .ret (stored G')) ∧
      PyOk pg' n S G' ∧ Frame G G' ∧ IsCliqueList S n (stored G') ∧
      pg'.currentVertex = n + 1 ∧ pg'.finishedAll = true ∧
      ((max a.lowerBound G.curMax < (stored G').length ∧ ∀ l, IsCliqueList S n l →
          l.length ≤ (stored G').length ∨ a.upperBound ≤ (stored G').length) ∨
        (stored G' = stored G ∧ ∀ l, IsCliqueList S n l →
          l.length ≤ max a.lowerBound G.curMax ∨ a.upperBound ≤ max a.lowerBound G.curMax)) := by
  obtain ⟨G', i, h1, h2, h3, h4⟩ := getMaxClique_spec h hsrt a
  obtain ⟨_, hb, hi⟩ : McsOk G' ∧ Best G' ∧ i = G.nVert :=
    ⟨(h4 ht hm).1, (h4 ht hm).2 hd hc⟩
  have hP := getMaxClique_pyok (i := i) h h2 h3 (decide (i ≥ n))
  have hl0 : G'.curLoc ≠ 0 := imp_loc (h.of.frame (bounded_frame G a)) (bounded_ok h.ok a).wf.str
    h3 h2 (by rw [bounded_curMax]; omega) h0
  have hnv := h.of.nv
  refine ⟨_, G', h1, hP, (bounded_frame G a).trans h3.frame, stored_clique hP hl0, ?_, ?_, ?_⟩
  · simp only; omega
  · simp only [decide_eq_true_eq]; omega
  · have hbest : ∀ l, IsCliqueList S n l → l.length ≤ G'.curMax ∨ a.upperBound ≤ G'.curMax := by
      intro l hl
      have hm1 : 1 ≤ G'.curMax := by have := h3.mono; rw [bounded_curMax] at this; omega
      rcases Nat.lt_or_ge l.length 2 with h5 | h5
      · left; omega
      · have h6 := best_spec hP.of h2.wf.str hb hl h5
        have h7 := hlim l hl
        rw [h3.lim, bounded_limit] at h6
        omega
    have := imp_cases h3
    rw [bounded_curMax] at this
    rcases this with ⟨c1, c2⟩ | ⟨c1, c2⟩
    · right
      refine ⟨c2, ?_⟩
      rw [← c1]; exact hbest
    · left
      have c2' : (stored G').length = G'.curMax := c2
      rw [c2']
      exact ⟨c1, hbest⟩

/-- The first search on a freshly loaded object. -/
theorem fresh_search (h : Fresh pg n S G) {srt : List VData → List VData}
    (hsrt : ∀ l, (srt l).Perm l) (a : PyGraph.Args)
    (hlb : 1 ≤ a.lowerBound) (hd : a.useDfs = true)
    (ht : a.timeLimit = none ∨ a.timeLimit = some none) :
    ∃ pg' r, pg.getMaxClique srt a = .ok (pg', r) ∧ (∃ G', PyOk pg' n S G') ∧
      pg'.finishedAll = true ∧
      (∀ l, r = .ret l → IsCliqueList S n l ∧ (2 ≤ a.lowerBound → a.lowerBound < l.length) ∧
        ∀ l', IsCliqueList S n l' → l'.length ≤ l.length ∨ a.upperBound ≤ l.length) ∧
      (r = .raise → 2 ≤ a.lowerBound ∧
        ∀ l', IsCliqueList S n l' → l'.length ≤ a.lowerBound ∨ a.upperBound ≤ a.lowerBound) := by
  obtain ⟨pg', G', h1, h2, _, h3, _, h5, h4⟩ := search_exact h.pyok hsrt a h.mcs h.lim h.loc hlb hd ht
    (Or.inr (Or.inr h.cv))
  have hcm := h.cm
  have hst := h.stored
  refine ⟨pg', _, h1, ⟨G', h2⟩, h5, ?_, ?_⟩
  · intro l hl
    split at hl
    · cases hl
    · rename_i hgt
      injection hl with hl
      subst hl
      refine ⟨h3, ?_⟩
      rcases h4 with ⟨c1, c2⟩ | ⟨c1, c2⟩
      · exact ⟨fun _ => by omega, c2⟩
      · rw [c1] at hgt ⊢
        rw [hst]
        rw [hst] at hgt
        refine ⟨by omega, fun l' hl' => ?_⟩
        have := c2 l' hl'
        omega
  · intro hr
    split at hr
    · rename_i hgt
      have := stored_pos h2
      refine ⟨by omega, ?_⟩
      rcases h4 with ⟨c1, c2⟩ | ⟨c1, c2⟩
      · omega
      · intro l' hl'
        have := c2 l' hl'
        omega
    · cases hr

end CM
