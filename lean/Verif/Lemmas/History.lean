import Verif.Lemmas.AllCliques
import Verif.Lemmas.AdjList
import Verif.Model.History

/-! # Sequences of calls -/

namespace CM

open Spec Graph

theorem Loaded.as {pg : PyGraph} {n : Nat} {S : SimpleGraph Nat} (h : Loaded pg n S) :
    n < 2 ^ 31 ∧ ∃ cap m G, LoadedAs cap n m S pg G := by
  cases h with
  | @edgelist argLR cap rows n pg hn hl he =>
    obtain ⟨h1, h2⟩ := fromEdgelist_spec argLR cap (rows := rows) hn hl
    by_cases hv : ValidRows rows n
    · obtain ⟨pg', G, h3, h4⟩ := h1 hv
      rw [he] at h3
      cases h3
      exact ⟨hn, cap, _, G, h4⟩
    · rw [h2 hv] at he; cases he
  | @matrix argLR cap n A pg hn he =>
    obtain ⟨pg', G, h3, h4⟩ := fromMatrix_spec argLR cap (A := A) hn
    rw [he] at h3
    cases h3
    exact ⟨by omega, cap, _, G, h4⟩
  | @adjlist argLR cap n m sets pg hn hs hl he =>
    obtain ⟨h1, h2⟩ := fromAdjList_spec argLR cap (n := n) (m := m) (sets := sets) hn hs hl
    by_cases hv : ValidSets sets n ∧ entries sets / 2 = m
    · obtain ⟨pg', G, h3, h4⟩ := h1 hv
      rw [he] at h3
      cases h3
      exact ⟨hn, cap, _, G, h4⟩
    · rw [h2 hv] at he; cases he
  | @built argLR cap n m edges pg S hn hl hD he =>
    obtain ⟨pg', G, h3, h4⟩ := loadGraph_spec hD hn hl argLR cap m
    rw [he] at h3
    cases h3
    exact ⟨hn, cap, m, G, h4⟩

/-- A usable object: a fresh load together with its invariant. -/
structure Fresh (pg : PyGraph) (n : Nat) (S : SimpleGraph Nat) (G : Graph) : Prop where
  pyok : PyOk pg n S G
  bounds : Bounds G
  cm : G.curMax = 0
  sing : ∀ v, v < G.nVert → bset G.eb (G.vb v) = {(G.V v).spos}
  edge : ∃ u v, S.Adj u v
  cv : pg.currentVertex = 0
  fin : pg.finishedAll = false
  small : n < 2 ^ 31

theorem Usable.fresh {pg : PyGraph} {n : Nat} {S : SimpleGraph Nat} (h : Usable pg n S) :
    ∃ G, Fresh pg n S G := by
  obtain ⟨hn, cap, m, G, hL⟩ := h.loaded.as
  have hg : pg.G = some G := by rw [hL.eq]
  refine ⟨G, ⟨hg, by rw [hL.eq], ?_, hL.ok h.edge (h.kept G hg), hL.of⟩, hL.bounds, hL.cm,
    hL.sing h.edge, h.edge, by rw [hL.eq], by rw [hL.eq], hn⟩
  obtain ⟨u, v, huv⟩ := h.edge
  have := (hL.of.rng _ _ huv).1
  omega

theorem Usable.holds {pg : PyGraph} {n : Nat} {S : SimpleGraph Nat} (h : Usable pg n S) :
    n ≠ 0 ∧ ∃ G, Holds pg n S G := by
  obtain ⟨G, hG⟩ := h.fresh
  exact ⟨hG.pyok.pos, G, hG.pyok.holds⟩

theorem reset_frame (G : Graph) (c : Nat) : Frame G { G with curMax := c } :=
  ⟨rfl, rfl, fun _ => ⟨rfl, rfl, rfl, rfl⟩, rfl, rfl, rfl, rfl, rfl, rfl, rfl⟩

theorem reset_ok {G : Graph} (h : Ok G) (c : Nat) : Ok { G with curMax := c } :=
  ⟨(reset_frame G c).wf h.wf, h.cur, h.zero, h.pad,
    fun v hv => ((reset_frame G c).isCl v _).2 (h.cliq v hv), h.loc⟩

/-- What a complete iteration does to the object. -/
theorem listCliques_at {pg : PyGraph} {n : Nat} {S : SimpleGraph Nat} {G : Graph} {b : Nat}
    (h : PyAt b pg n S G) {Q : Nat → Prop} {k : Nat} (hQ : Q k) :
    ∃ G' cs, pg.listCliques k = .ok ({ pg with G := some G' }, cs) ∧ OkAt b G' ∧ CoreAt Q b G G' ∧
      cs.Nodup ∧
      (∀ l ∈ cs, IsCliqueList S n l ∧ l.length = k) ∧
      (2 ≤ k → ∀ l ∈ cs, ¬ First S n 1 l) ∧
      (k = 1 → cs = (List.range' 1 n).map fun v => [v]) ∧
      (k = 0 → cs = []) ∧
      (McsOk G → k ≤ G.limit → 2 ≤ k → ∀ l, IsCliqueList S n l → l.length = k → ¬ First S n 1 l →
        l ∈ cs) := by
  unfold PyGraph.listCliques PyGraph.allCliques
  rw [h.loaded]
  simp only
  rw [ok_bind, h.g]
  simp only
  have hnv := h.of.nv
  have hp : 0 < 2 ^ G.maxDeg := Nat.pos_of_ne_zero (by simp)
  have hle : G.nVert ≤ G.nVert * 2 ^ G.maxDeg := Nat.le_mul_of_pos_right _ hp
  rcases Nat.lt_or_ge k 2 with hk | hk
  · have hk' : k = 0 ∨ k = 1 := by omega
    rcases hk' with rfl | rfl
    · obtain ⟨E', h1, hE⟩ := allCliques_zero h (fuel := G.nVert * 2 ^ G.maxDeg + 1) (by omega)
      rw [h1, ok_bind]
      refine ⟨G, [], ?_, h.ok, CoreAt.refl _ _ _, by simp, by simp, by simp, by simp, by simp,
        by omega⟩
      simp only [← h.g]
    · obtain ⟨G', E', h1, h2, h3, hE⟩ := allCliques_one hQ h (fuel := G.nVert * 2 ^ G.maxDeg + 1)
        (by omega)
      rw [h1, ok_bind]
      refine ⟨G', _, rfl, h2, h3, ?_, ?_, by omega, fun _ => rfl, by omega, by omega⟩
      · rw [List.nodup_map_iff_inj_on List.nodup_range']
        intro x _ y _ hxy
        simpa using hxy
      · intro l hl
        obtain ⟨v, hv, rfl⟩ := List.mem_map.1 hl
        rw [List.mem_range'_1] at hv
        refine ⟨⟨by simp, ?_, ?_⟩, rfl⟩
        · intro x hx
          rw [List.mem_singleton] at hx
          omega
        · intro x hx y hy hxy
          simp only [List.mem_singleton, Set.mem_setOf_eq] at hx hy
          exact absurd (hx.trans hy.symm) hxy
  · obtain ⟨G', E', cs, h1, h2, h3, h4, hE, h5, h6⟩ := allCliques_spec h hQ hk
      (fuel := G.nVert * 2 ^ G.maxDeg + 1) (by omega)
    rw [h1, ok_bind]
    exact ⟨G', cs, rfl, h2, h3, h4, fun l hl => ⟨(h5 l hl).1, (h5 l hl).2.1⟩,
      fun _ l hl => (h5 l hl).2.2, by omega, by omega, fun a b _ => h6 a b⟩

theorem listCliques_spec {pg : PyGraph} {n : Nat} {S : SimpleGraph Nat} {G : Graph}
    (h : PyOk pg n S G) (k : Nat) :
    ∃ G' cs, pg.listCliques k = .ok ({ pg with G := some G' }, cs) ∧ Ok G' ∧
      CoreAt (· = k) G.searchStart G G' ∧ cs.Nodup ∧
      (∀ l ∈ cs, IsCliqueList S n l ∧ l.length = k) ∧
      (2 ≤ k → ∀ l ∈ cs, ¬ First S n 1 l) ∧
      (k = 1 → cs = (List.range' 1 n).map fun v => [v]) ∧
      (k = 0 → cs = []) ∧
      (McsOk G → k ≤ G.limit → 2 ≤ k → ∀ l, IsCliqueList S n l → l.length = k → ¬ First S n 1 l →
        l ∈ cs) := by
  obtain ⟨G', cs, a1, a2, a3, a4⟩ := listCliques_at h.at (Q := (· = k)) rfl
  exact ⟨G', cs, a1, a2.ok h.ok a3.frame a3.low, a3, a4⟩

/-- Iterating to the end leaves the iterator past the last vertex. -/
theorem listCliques_end {pg : PyGraph} {n : Nat} {S : SimpleGraph Nat} {G : Graph}
    (h : PyOk pg n S G) (k : Nat) :
    ∃ fuel G' E' cs, pg.allCliques k = .ok (Enum.new k) ∧
      pg.consume fuel (Enum.new k) = .ok ({ pg with G := some G' }, E', cs) ∧
      pg.listCliques k = .ok ({ pg with G := some G' }, cs) ∧
      E'.cur = G'.nVert ∧ G'.nVert = pg.nvert + 1 := by
  unfold PyGraph.listCliques PyGraph.allCliques
  rw [h.loaded]
  simp only
  rw [ok_bind, h.g]
  simp only
  have hnv := h.of.nv
  have hn := h.nv
  have hp : 0 < 2 ^ G.maxDeg := Nat.pos_of_ne_zero (by simp)
  have hle : G.nVert ≤ G.nVert * 2 ^ G.maxDeg := Nat.le_mul_of_pos_right _ hp
  refine ⟨G.nVert * 2 ^ G.maxDeg + 1, ?_⟩
  rcases Nat.lt_or_ge k 2 with hk | hk
  · have hk' : k = 0 ∨ k = 1 := by omega
    rcases hk' with rfl | rfl
    · obtain ⟨E', h1, hE⟩ := allCliques_zero h.at (fuel := G.nVert * 2 ^ G.maxDeg + 1) (by omega)
      have hpg : pg = { pg with G := some G } := by rw [← h.g]
      rw [h1, ok_bind]
      refine ⟨G, E', [], trivial, ?_, ?_, hE, by omega⟩
      · rw [← hpg]
      · rw [← hpg]
    · obtain ⟨G', E', h1, h2, h3, hE⟩ := allCliques_one (Q := fun _ => True) trivial h.at (fuel := G.nVert * 2 ^ G.maxDeg + 1)
        (by omega)
      rw [h1, ok_bind]
      exact ⟨G', E', _, trivial, rfl, rfl, by rw [hE, h3.frame.nVert],
        by rw [h3.frame.nVert]; omega⟩
  · obtain ⟨G', E', cs, h1, h2, h3, h4, hE, h5, h6⟩ := allCliques_spec h.at (Q := fun _ => True) trivial hk
      (fuel := G.nVert * 2 ^ G.maxDeg + 1) (by omega)
    rw [h1, ok_bind]
    exact ⟨G', E', _, trivial, rfl, rfl, by rw [hE, h3.frame.nVert], by rw [h3.frame.nVert]; omega⟩

/-- One call keeps the object's invariant and the graph it stores. -/
theorem op_spec {pg : PyGraph} {n : Nat} {S : SimpleGraph Nat} {G : Graph} (h : PyOk pg n S G)
    {op : Op} (hl : op.Legal) :
    ∃ pg' G', op.run pg = .ok pg' ∧ PyOk pg' n S G' ∧ Frame G G' ∧ pg'.nedges = pg.nedges ∧
      (op.Positive → G.curLoc ≠ 0 → G'.curLoc ≠ 0) ∧
      (op.Exact S n → McsOk G → (∀ l, IsCliqueList S n l → l.length ≤ G.limit) →
        McsOk G' ∧ (∀ l, IsCliqueList S n l → l.length ≤ G'.limit)) := by
  cases op with
  | search srt a =>
    obtain ⟨G', i, h1, h2, h3, h4⟩ := getMaxClique_spec h hl a
    have hP := getMaxClique_pyok (i := i) h h2 h3 (decide (i ≥ n))
    have hpos : (Op.search srt a).Positive → 1 ≤ (bounded G a).curMax := by
      intro hp
      have hp' : 1 ≤ a.lowerBound := hp
      simp only [bounded]; split <;> omega
    refine ⟨_, G', ?_, hP, (bounded_frame G a).trans h3.frame, rfl, ?_, ?_⟩
    · show (pg.getMaxClique srt a >>= _) = _
      rw [h1, ok_bind]
    · intro hp h0
      exact imp_loc (h.of.frame (bounded_frame G a)) (bounded_ok h.ok a).wf.str h3 h2 (hpos hp) h0
    · rintro ⟨ht, hu⟩ hm hlim
      refine ⟨(h4 ht hm).1, fun l hl => ?_⟩
      rw [h3.lim]
      have e1 := hu l hl
      have e2 := hlim l hl
      simp only [bounded]; split <;> omega
  | reset =>
    refine ⟨{ pg with G := some { G with curMax := 1 }, finishedAll := false, currentVertex := 0 },
      { G with curMax := 1 }, ?_, ⟨rfl, h.nv, h.pos, reset_ok h.ok 1,
      h.of.frame (reset_frame G 1)⟩, reset_frame G 1, rfl, ?_, ?_⟩
    · simp only [Op.run, PyGraph.resetSearch, h.g]
    · intro _ h0; exact h0
    · intro _ hm hlim
      exact ⟨McsOk.congr (reset_frame G 1) (Nat.le_refl _) (fun _ => rfl) hm, hlim⟩
  | list k =>
    obtain ⟨G', cs, h1, h2, h3, _⟩ := listCliques_spec h k
    refine ⟨{ pg with G := some G' }, G', ?_, ⟨rfl, h.nv, h.pos, h2, h.of.frame h3.frame⟩,
      h3.frame, rfl, ?_, ?_⟩
    · show (pg.listCliques k >>= _) = _
      rw [h1, ok_bind]
    · intro _ h0; rw [h3.loc]; exact h0
    · intro _ hm hlim
      refine ⟨McsOk.congr h3.frame (by rw [h3.lim]) (fun v => by simp only [V, h3.vs]) hm, ?_⟩
      rw [h3.lim]; exact hlim

theorem runs_nil (pg : PyGraph) : runs [] pg = .ok pg := rfl

theorem runs_cons (op : Op) (ops : List Op) (pg : PyGraph) :
    runs (op :: ops) pg = (op.run pg >>= runs ops) := by
  unfold runs
  rw [List.foldlM_cons]

theorem runs_append (ops ops' : List Op) (pg : PyGraph) :
    runs (ops ++ ops') pg = (runs ops pg >>= runs ops') := by
  unfold runs
  rw [List.foldlM_append]

theorem runs_spec : ∀ (ops : List Op) {pg : PyGraph} {n : Nat} {S : SimpleGraph Nat} {G : Graph},
    PyOk pg n S G → (∀ op ∈ ops, op.Legal) →
    ∃ pg' G', runs ops pg = .ok pg' ∧ PyOk pg' n S G' ∧ Frame G G' ∧ pg'.nedges = pg.nedges ∧
      ((∀ op ∈ ops, op.Positive) → G.curLoc ≠ 0 → G'.curLoc ≠ 0) ∧
      ((∀ op ∈ ops, op.Exact S n) → McsOk G → (∀ l, IsCliqueList S n l → l.length ≤ G.limit) →
        McsOk G' ∧ (∀ l, IsCliqueList S n l → l.length ≤ G'.limit)) := by
  intro ops
  induction ops with
  | nil =>
    intro pg n S G h _
    exact ⟨pg, G, rfl, h, Frame.refl _, rfl, fun _ h0 => h0, fun _ hm hl => ⟨hm, hl⟩⟩
  | cons op ops ih =>
    intro pg n S G h hleg
    obtain ⟨pg1, G1, a1, a2, a3, a4, a5, a6⟩ := op_spec h (hleg op (by simp))
    obtain ⟨pg2, G2, b1, b2, b3, b4, b5, b6⟩ := ih a2 (fun o ho => hleg o (by simp [ho]))
    refine ⟨pg2, G2, ?_, b2, a3.trans b3, b4.trans a4, ?_, ?_⟩
    · rw [runs_cons, a1, ok_bind, b1]
    · intro hp h0
      exact b5 (fun o ho => hp o (by simp [ho])) (a5 (hp op (by simp)) h0)
    · intro he hm hl
      obtain ⟨c1, c2⟩ := a6 (he op (by simp)) hm hl
      exact b6 (fun o ho => he o (by simp [ho])) c1 c2

theorem length_bset {G : Graph} (v : Nat) : (G.cliqueAt v).length = (bset G.eb (G.vb v)).card :=
  cliqueAt_length v

/-- Position of the first clique: a result of a search. -/
theorem imp_cases {G G' : Graph} {a : PyGraph.Args} (h3 : Imp (bounded G a) G') :
    (G'.curMax = (bounded G a).curMax ∧ G'.cliqueAt G'.curLoc = G.cliqueAt G.curLoc) ∨
    ((bounded G a).curMax < G'.curMax ∧ (G'.cliqueAt G'.curLoc).length = G'.curMax) := by
  have F := (bounded_frame G a).trans h3.frame
  rcases h3.best with ⟨b1, b2, b3⟩ | ⟨b1, b2, b3⟩
  · left
    refine ⟨b1, ?_⟩
    have hl : G'.curLoc = G.curLoc := b2
    rw [hl, cliqueAt_listAt F, cliqueAt_listAt (Frame.refl G)]
    congr 1
    apply bset_congr rfl
    intro i _
    exact b3 _
  · right
    refine ⟨b1, ?_⟩
    rw [cliqueAt_length, ← b3, h3.frame.vb]

end CM
