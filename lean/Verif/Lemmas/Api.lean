import Verif.Model.Api
import Verif.Lemmas.Clique
import Verif.Lemmas.Heur
import Verif.Lemmas.Rec

/-! # One call of `get_max_clique` -/

namespace CM

open Spec

namespace Graph

variable {G G' : Graph}

theorem McsOk.congr (F : Frame G G') (hl : G'.limit ≤ G.limit) (hV : ∀ v, (G'.V v).mcs = (G.V v).mcs)
    (hm : McsOk G) : McsOk G' := by
  intro v hv S hS h2
  rw [F.nVert] at hv
  rw [F.rooted] at hS
  rw [hV]
  rcases hm v hv S hS h2 with h | h
  · exact Or.inl h
  · exact Or.inr (by omega)

/-- clique.cpp:15-34 -/
theorem findMax_spec {srt : List VData → List VData} (hsrt : ∀ l, (srt l).Perm l) (h : Ok G)
    (sv : Nat) (heur dfs : Bool) (tl : TimeLimit) :
    ∃ G' i, G.findMaxCliques srt sv heur dfs tl = .ok (G', i) ∧ Ok G' ∧ Imp G G' ∧
      ((tl = none ∨ tl = some none) → McsOk G → McsOk G' ∧
        (dfs = true → (tl = none ∨ sv = 0) → Best G' ∧ i = G.nVert)) := by
  have key : ∃ G1, (if heur = true then G.heurGraph srt else .ok G) = .ok G1 ∧ Ok G1 ∧ Imp G G1 ∧
      (McsOk G → McsOk G1) := by
    cases heur with
    | true =>
      obtain ⟨G1, h1, h2, h3, h4⟩ := heurGraph_spec hsrt h
      exact ⟨G1, by simpa using h1, h2, h3,
        McsOk.congr h3.frame (Nat.le_of_eq h3.lim) (fun v => by rw [h4])⟩
    | false => exact ⟨G, by simp, h, Imp.refl G, id⟩
  obtain ⟨G1, a1, a2, a3, a4⟩ := key
  unfold findMaxCliques
  dsimp only
  rw [← ite_bind, a1, ok_bind]
  cases dfs with
  | false =>
    refine ⟨G1, sv, by simp, a2, a3, fun _ hm => ⟨a4 hm, by simp⟩⟩
  | true =>
    simp only [if_true]
    cases tl with
    | none =>
      obtain ⟨G2, b1, b2, b3, b4⟩ := stackGraph_spec a2
      refine ⟨G2, G1.nVert, b1, b2, a3.trans b3, fun _ hm => ?_⟩
      obtain ⟨c1, c2⟩ := b4 (a4 hm)
      exact ⟨c1, fun _ _ => ⟨c2, a3.frame.nVert⟩⟩
    | some t =>
      obtain ⟨G2, i, b1, b2, b3, b4⟩ := recGraph_spec a2 t sv
      refine ⟨G2, i, b1, b2, a3.trans b3, fun ht hm => ?_⟩
      have ht' : t = none := by
        rcases ht with h | h
        · simp at h
        · simpa using h
      obtain ⟨c1, c2, c3⟩ := b4 ht' (a4 hm)
      refine ⟨c1, fun _ hsv => ?_⟩
      have hs0 : sv = 0 := by
        rcases hsv with h | h
        · simp at h
        · exact h
      refine ⟨c2 hs0, ?_⟩
      rw [c3, hs0, a3.frame.nVert]; simp

end Graph

open Graph

/-- The invariant of a loaded Python object between calls. -/
structure PyOk (pg : PyGraph) (n : Nat) (S : SimpleGraph Nat) (G : Graph) : Prop where
  g : pg.G = some G
  nv : pg.nvert = n
  pos : n ≠ 0
  ok : Ok G
  of : Of G n S

theorem PyOk.loaded {pg : PyGraph} {n : Nat} {S : SimpleGraph Nat} {G : Graph}
    (h : PyOk pg n S G) : pg.checkLoaded = some G := by
  unfold PyGraph.checkLoaded
  rw [h.nv, if_neg h.pos, h.g]

/-- The state a call starts its search in. -/
def bounded (G : Graph) (a : PyGraph.Args) : Graph :=
  { G with
    curMax := if a.lowerBound > G.curMax then a.lowerBound else G.curMax
    limit := if a.upperBound < G.limit then a.upperBound else G.limit }

theorem bounded_frame (G : Graph) (a : PyGraph.Args) : Frame G (bounded G a) :=
  ⟨rfl, rfl, fun _ => ⟨rfl, rfl, rfl, rfl⟩, rfl, rfl, rfl, rfl, rfl, rfl, rfl⟩

theorem bounded_ok {G : Graph} (h : Ok G) (a : PyGraph.Args) : Ok (bounded G a) :=
  ⟨(bounded_frame G a).wf h.wf, h.cur, h.zero, h.pad,
    fun v hv => ((bounded_frame G a).isCl v _).2 (h.cliq v hv), h.loc⟩

theorem bounded_mcs {G : Graph} (h : McsOk G) (a : PyGraph.Args) : McsOk (bounded G a) := by
  refine McsOk.congr (bounded_frame G a) ?_ (fun _ => rfl) h
  simp only [bounded]; split <;> omega

/-- What one call does. -/
theorem getMaxClique_spec {pg : PyGraph} {n : Nat} {S : SimpleGraph Nat} {G : Graph}
    (h : PyOk pg n S G) {srt : List VData → List VData} (hsrt : ∀ l, (srt l).Perm l)
    (a : PyGraph.Args) :
    ∃ G' i, pg.getMaxClique srt a =
        .ok ({ pg with G := some G', currentVertex := i, finishedAll := decide (i ≥ n) },
          if a.lowerBound > (G'.cliqueAt G'.curLoc).length then .raise
          else .ret (G'.cliqueAt G'.curLoc)) ∧
      Ok G' ∧ Imp (bounded G a) G' ∧
      ((a.timeLimit = none ∨ a.timeLimit = some none) → McsOk G → McsOk G' ∧
        (a.useDfs = true → (a.timeLimit = none ∨ a.continueSearch = false ∨ pg.currentVertex = 0) →
          Best G' ∧ i = G.nVert)) := by
  obtain ⟨G', i, h1, h2, h3, h4⟩ := findMax_spec hsrt (bounded_ok h.ok a)
    (if a.continueSearch = true then pg.currentVertex else 0)
    (if a.continueSearch = true ∧ pg.currentVertex ≠ 0 then false else a.useHeuristic)
    a.useDfs a.timeLimit
  refine ⟨G', i, ?_, h2, h3, fun ht hm => ?_⟩
  · unfold PyGraph.getMaxClique
    simp only
    have hl : PyGraph.checkLoaded { pg with
        currentVertex := if a.continueSearch = true then pg.currentVertex else 0 } = some G :=
      h.loaded
    rw [hl]
    simp only
    unfold bounded at h1
    rw [h1, ok_bind]
    simp only
    rw [getClique_ok h2.wf h2.pad h2.loc, ok_bind, h.nv]
    simp only
    split <;> rfl
  · obtain ⟨c1, c2⟩ := h4 ht (bounded_mcs hm a)
    refine ⟨c1, fun hd hsv => ?_⟩
    apply c2 hd
    rcases hsv with h | h | h
    · exact Or.inl h
    · right; rw [h]; simp
    · right; rw [h]; simp

theorem getMaxClique_pyok {pg : PyGraph} {n : Nat} {S : SimpleGraph Nat} {G G' : Graph} {i : Nat}
    (h : PyOk pg n S G) {a : PyGraph.Args} (h2 : Ok G') (h3 : Imp (bounded G a) G') (b : Bool) :
    PyOk { pg with G := some G', currentVertex := i, finishedAll := b } n S G' :=
  ⟨rfl, h.nv, h.pos, h2, (h.of.frame (bounded_frame G a)).frame h3.frame⟩

/-- The location of the stored clique moves only to a clique of two or more vertices. -/
theorem imp_loc' {n : Nat} {S : SimpleGraph Nat} {G G' : Graph} (hO : Of G n S) (w : Str G)
    (h : Imp G G') (w' : WF G') (hcl : IsCl G' 0 (bset G'.eb (G'.vb 0))) (h1 : 1 ≤ G.curMax)
    (h0 : G.curLoc ≠ 0) : G'.curLoc ≠ 0 := by
  rcases h.best with ⟨_, h2, _⟩ | ⟨h2, h3, h4⟩
  · rw [h2]; exact h0
  · intro hz
    rw [hz] at h4
    have hn0 : 0 < G'.nVert := w'.npos
    have hO' := hO.frame h.frame
    have hsub : ∀ i ∈ bset G'.eb (G'.vb 0), i = (G'.V 0).spos := by
      intro i hi
      apply e_inj w' hn0 (hcl.2.1 i hi) (w'.spos 0 hn0)
      rw [w'.self 0 hn0]
      exact hO'.zero ⟨i, hcl.2.1 i hi, rfl⟩
    have hle : (bset G'.eb (G'.vb 0)).card ≤ 1 := by
      rw [Finset.card_le_one]
      intro i hi j hj
      rw [hsub i hi, hsub j hj]
    rw [h.frame.vb] at hle
    omega

theorem imp_loc {n : Nat} {S : SimpleGraph Nat} {G G' : Graph} (hO : Of G n S) (w : Str G)
    (h : Imp G G') (hok : Ok G') (h1 : 1 ≤ G.curMax) (h0 : G.curLoc ≠ 0) : G'.curLoc ≠ 0 :=
  imp_loc' hO w h hok.wf (hok.cliq 0 hok.wf.npos) h1 h0

/-- Cliques of the specified graph are no larger than the record, once the record is best. -/
theorem best_spec {n : Nat} {S : SimpleGraph Nat} {G : Graph} (hO : Of G n S) (w : Str G)
    (hb : Best G) {l : List Nat} (hl : IsCliqueList S n l) (h2 : 2 ≤ l.length) :
    l.length ≤ G.curMax ∨ G.limit ≤ G.curMax := by
  obtain ⟨r, T, h1, h3, h4, h5, _⟩ := spec_rooted hO w hl (by rintro rfl; simp at h2)
  rw [← h5] at h2 ⊢
  exact hb r h3 T h4 h2

/-- The largest bound is at least the size of every clique. -/
theorem bounds_spec {n : Nat} {S : SimpleGraph Nat} {G : Graph} (hO : Of G n S) (w : Str G)
    (B : Bounds G) {l : List Nat} (hl : IsCliqueList S n l) : l.length ≤ G.limit := by
  by_cases hne : l = []
  · subst hne; simp
  obtain ⟨r, T, h1, h3, h4, h5, _⟩ := spec_rooted hO w hl hne
  rw [← h5]
  exact Nat.le_trans (rooted_card_le w h3 h4) (B.le r h3)

theorem pair_clique {n : Nat} {S : SimpleGraph Nat} {u v : Nat} (h : S.Adj u v)
    (hr : (1 ≤ u ∧ u ≤ n) ∧ (1 ≤ v ∧ v ≤ n)) : ∃ l, IsCliqueList S n l ∧ l.length = 2 := by
  have hne := h.ne
  rcases Nat.lt_or_gt_of_ne hne with hlt | hlt
  · refine ⟨[u, v], ⟨by simp [hlt], ?_, ?_⟩, rfl⟩
    · intro x hx; simp at hx; rcases hx with rfl | rfl <;> omega
    · intro x hx y hy hxy
      simp at hx hy
      rcases hx with rfl | rfl <;> rcases hy with rfl | rfl
      · exact absurd rfl hxy
      · exact h
      · exact h.symm
      · exact absurd rfl hxy
  · refine ⟨[v, u], ⟨by simp [hlt], ?_, ?_⟩, rfl⟩
    · intro x hx; simp at hx; rcases hx with rfl | rfl <;> omega
    · intro x hx y hy hxy
      simp at hx hy
      rcases hx with rfl | rfl <;> rcases hy with rfl | rfl
      · exact absurd rfl hxy
      · exact h.symm
      · exact h
      · exact absurd rfl hxy

/-- In a graph with an edge the constructor's starting point is not the sentinel. -/
theorem bounds_loc {n : Nat} {S : SimpleGraph Nat} {G : Graph} (hO : Of G n S) (w : Str G)
    (B : Bounds G) (he : ∃ u v, S.Adj u v) : G.curLoc ≠ 0 ∧ 2 ≤ G.limit := by
  obtain ⟨u, v, huv⟩ := he
  obtain ⟨l, h1, h2⟩ := pair_clique huv (hO.rng _ _ huv)
  have h3 := bounds_spec hO w B h1
  refine ⟨?_, by omega⟩
  intro hz
  have h4 := B.eq
  rw [hz] at h4
  have hpos : 0 < (G.rootCand 0).card := by omega
  obtain ⟨i, hi⟩ := Finset.card_pos.1 hpos
  rw [mem_rootCand] at hi
  have hn0 := w.npos
  have he0 := hO.zero ⟨i, hi.1, rfl⟩
  have hs0 := w.self 0 hn0
  have hsp := w.spos 0 hn0
  rcases hi.2 with h5 | h5
  · have := w.sorted 0 hn0 i _ h5.1 hsp; omega
  · have := w.sorted 0 hn0 _ i h5.1 hi.1; omega

end CM
