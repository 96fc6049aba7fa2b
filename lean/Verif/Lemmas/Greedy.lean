import Verif.Lemmas.Idle
import Verif.Lemmas.AllCliques

/-! # What the heuristic returns -/

namespace CM

open Spec Graph

variable {pg : PyGraph} {n : Nat} {S : SimpleGraph Nat} {G : Graph}

/-- The greedy clique rooted at `r` in terms of the specified graph. -/
theorem greedy_spec (hO : Of G n S) (w : Str G) {r : Nat} (hr : r ≤ n)
    (hR : Rooted G r (bset G.eb (G.vb r))) (hF : Full G r (bset G.eb (G.vb r))) {v : Nat}
    (hv : ∀ u ∈ G.cliqueAt r, S.Adj u v) : First S n v (v :: G.cliqueAt r) := by
  have hnv := hO.nv
  have hrv : r < G.nVert := by omega
  have hs := w.spos r hrv
  have hself := w.self r hrv
  have hinj : ∀ i j, i < (G.V r).N → j < (G.V r).N → (G.e r i < G.e r j ↔ i < j) := by
    intro i j hi hj
    constructor
    · intro h
      rcases Nat.lt_trichotomy i j with h1 | h1 | h1
      · exact h1
      · subst h1; omega
      · have := w.sorted r hrv j i h1 hi; omega
    · intro h; exact w.sorted r hrv i j h hj
  have hrl : r ∈ G.cliqueAt r := mem_cliqueAt.2 ⟨_, hR.1.1, hself⟩
  have hrv' := hv r hrl
  have hvn := (hO.rng _ _ hrv').2
  obtain ⟨i, hi, he⟩ := (hO.adj r v hr).2 (Or.inr hrv')
  have hni : i ∉ G.rootCand r := by
    intro hc
    rcases hF i hc with h | ⟨t, ht, hA⟩
    · exact (hv v (mem_cliqueAt.2 ⟨i, h, he⟩)).ne rfl
    · have htl : G.e r t ∈ G.cliqueAt r := mem_cliqueAt.2 ⟨t, ht, rfl⟩
      have ha := hv _ htl
      refine hA ?_
      unfold A
      rw [he]
      exact (hO.adj _ _ (hO.rng _ _ ha).1.2).2 (Or.inr ha)
  have h1 := hinj i _ hi hs
  have h2 := hinj _ i hs hi
  rw [hself, he] at h1 h2
  have hne : v ≠ r := hrv'.ne.symm
  have hbefore : degree S n v < degree S n r ∨ degree S n v = degree S n r ∧ v < r := by
    have e1 := spec_degree hO w hr
    have e2 := spec_degree hO w hvn.2
    rw [mem_rootCand, he] at hni
    omega
  refine ⟨List.mem_cons_self, fun u hu hne' => ?_⟩
  rcases List.mem_cons.1 hu with rfl | hu
  · exact absurd rfl hne'
  obtain ⟨j, hj, rfl⟩ := mem_cliqueAt.1 hu
  by_cases hjs : j = (G.V r).spos
  · rw [hjs, hself]
    exact hbefore
  · have hc := mem_rootCand.1 (hR.2 j hj hjs)
    have hjn := (hO.rng _ _ (hv _ hu)).1
    have e1 := spec_degree hO w hr
    have e2 := spec_degree hO w hjn.2
    have h3 := hinj _ j hs hc.1
    have h4 := hinj j _ hc.1 hs
    rw [hself] at h3 h4
    omega

/-- A search that only uses the heuristic. -/
theorem heur_search (h : PyOk pg n S G) {srt : List VData → List VData}
    (hsrt : ∀ l, (srt l).Perm l) {a : PyGraph.Args} (hd : a.useDfs = false) :
    ∃ pg' G', pg.getMaxClique srt a =
        .ok (pg', if a.lowerBound > (stored G').length then .raise else .ret (stored G')) ∧
      PyOk pg' n S G' ∧ (stored G' = stored G ∨
        ∀ v, (∀ u ∈ stored G', S.Adj u v) → First S n v (v :: stored G')) := by
  by_cases hh : (if a.continueSearch = true ∧ pg.currentVertex ≠ 0 then false else a.useHeuristic) =
      true
  swap
  · have hok := bounded_ok h.ok a
    refine ⟨_, bounded G a, ?_, getMaxClique_pyok (i := if a.continueSearch = true then
      pg.currentVertex else 0) h hok (Imp.refl _) (decide ((if a.continueSearch = true then
      pg.currentVertex else 0) ≥ n)), Or.inl rfl⟩
    have hl : PyGraph.checkLoaded { pg with
        currentVertex := if a.continueSearch = true then pg.currentVertex else 0 } = some G := h.loaded
    have hg := getClique_ok hok.wf hok.pad hok.loc
    unfold bounded at hg
    dsimp only at hg
    unfold PyGraph.getMaxClique
    dsimp only
    rw [hl]
    dsimp only
    rw [Bool.eq_false_iff.2 hh, hd, findMax_idle, ok_bind]
    dsimp only
    rw [hg, ok_bind, h.nv]
    dsimp only
    have key : ∀ (x : PyGraph) (l : List Nat) (k : Nat), (if k > l.length then .ok (x, .raise)
        else .ok (x, .ret l) : M (PyGraph × PyRes (List Nat))) =
        .ok (x, if k > l.length then .raise else .ret l) := by
      intro x l k
      split <;> rfl
    exact key _ _ _
  · have hok := bounded_ok h.ok a
    have hOb := h.of.frame (bounded_frame G a)
    obtain ⟨G', a1, a2, a3, a4, a5⟩ := heurGraph_full hsrt hok.at
    have ok' := a2.ok hok a3.frame a3.low
    have hP := getMaxClique_pyok (i := if a.continueSearch = true then pg.currentVertex else 0) h ok'
      a3.toImp (decide ((if a.continueSearch = true then pg.currentVertex else 0) ≥ n))
    refine ⟨_, G', ?_, hP, ?_⟩
    · have hl : PyGraph.checkLoaded { pg with
          currentVertex := if a.continueSearch = true then pg.currentVertex else 0 } = some G :=
        h.loaded
      unfold PyGraph.getMaxClique
      dsimp only
      rw [hl]
      dsimp only
      rw [hh, hd]
      unfold findMaxCliques
      dsimp only
      unfold bounded at a1
      rw [if_pos rfl, a1, ok_bind, if_neg (by decide), ok_bind]
      dsimp only
      rw [getClique_ok ok'.wf ok'.pad ok'.loc, ok_bind, h.nv]
      unfold stored
      dsimp only
      split <;> rfl
    · rcases a5 with h5 | ⟨h5, h6⟩
      · left
        rcases imp_cases a3.toImp with h7 | h7
        · exact h7.2
        · omega
      · right
        have F := a3.frame
        have hO' := hOb.frame F
        have hloc := ok'.loc
        rw [hO'.nv] at hloc
        intro v hv
        refine greedy_spec hO' ok'.wf.str (r := G'.curLoc) (by omega) ?_ ?_ hv
        · rw [F.rooted, F.vb]; exact h5
        · rw [F.vb]
          intro c hc
          rw [F.rootCand] at hc
          refine (h6 c hc).imp_right ?_
          rintro ⟨t, ht, hA⟩
          refine ⟨t, ht, fun hA' => hA ?_⟩
          unfold A at hA' ⊢
          rwa [F.nadj, F.e, F.e] at hA'

end CM
