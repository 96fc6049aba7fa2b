import Verif.Lemmas.StackVertex

/-! # Effect of whole-graph searches on a graph object -/

namespace CM

namespace Graph

variable {G G' : Graph}

theorem Ok.ready (h : Ok G) : Ready G := by
  obtain ⟨L, h1, h2⟩ := h.wf.arena
  have hs := h.wf.start
  refine ⟨h.wf, by rw [h.cur]; exact hs, ⟨L, h1, by rw [h.cur]; exact h2⟩, ?_, h.pad⟩
  intro a ha
  rw [h.cur] at ha
  exact h.zero a (by omega)

/-- The record only improves: either nothing changed, or a larger clique was stored. -/
structure Imp (G G' : Graph) : Prop where
  frame : Frame G G'
  lim : G'.limit = G.limit
  best : (G'.curMax = G.curMax ∧ G'.curLoc = G.curLoc ∧ ∀ a, bitAt G'.eb a = bitAt G.eb a) ∨
    (G.curMax < G'.curMax ∧ G'.curLoc < G.nVert ∧
      (bset G'.eb (G.vb G'.curLoc)).card = G'.curMax)

theorem Imp.refl (G : Graph) : Imp G G :=
  ⟨Frame.refl G, rfl, Or.inl ⟨rfl, rfl, fun _ => rfl⟩⟩

theorem Imp.mono (h : Imp G G') : G.curMax ≤ G'.curMax := by
  rcases h.best with h | h <;> omega

theorem Imp.trans {G1 G2 G3 : Graph} (h : Imp G1 G2) (h' : Imp G2 G3) : Imp G1 G3 := by
  refine ⟨h.frame.trans h'.frame, h'.lim.trans h.lim, ?_⟩
  have hm := h.mono
  rcases h'.best with ⟨a1, a2, a3⟩ | ⟨a1, a2, a3⟩
  · rcases h.best with ⟨b1, b2, b3⟩ | ⟨b1, b2, b3⟩
    · exact Or.inl ⟨a1.trans b1, a2.trans b2, fun a => (a3 a).trans (b3 a)⟩
    · right
      refine ⟨by omega, by rw [a2]; exact b2, ?_⟩
      rw [a1, ← b3, a2]
      congr 1
      exact bset_congr rfl (fun i _ => a3 _)
  · right
    refine ⟨by omega, by rw [← h.frame.nVert]; exact a2, ?_⟩
    rw [← h.frame.vb]; exact a3

theorem vb_disj (w : WF G) {u v : Nat} (hu : u < G.nVert) (hv : v < G.nVert) (h : u ≠ v) {a : Nat}
    (h1 : 64 * (G.V u).ebo ≤ a) (h2 : a < 64 * ((G.V u).ebo + dlen (G.V u).N)) :
    ¬ (64 * (G.V v).ebo ≤ a ∧ a < 64 * ((G.V v).ebo + dlen (G.V v).N)) := by
  rcases Nat.lt_or_gt_of_ne h with h | h
  · have := w.ebo u v h hv; omega
  · have := w.ebo v u h hu; omega

/-- The invariant of a graph object whose scratch space below `b` is in use. -/
structure OkAt (b : Nat) (G : Graph) : Prop where
  wf : WF G
  cur : G.searchCur = b
  bot : G.ebSize < b
  room : ∃ L, (∀ v, v < G.nVert → (G.rootCand v).card + 1 ≤ L) ∧
    b + (L + 2) * dlen G.maxDeg ≤ G.eb.length
  zero : ∀ a, 64 * b ≤ a → bitAt G.eb a = false
  pad : ∀ v, v < G.nVert → PadZero G.eb (G.vb v)
  cliq : ∀ v, v < G.nVert → IsCl G v (bset G.eb (G.vb v))
  loc : G.curLoc < G.nVert

theorem Ok.at {G : Graph} (h : Ok G) : OkAt G.searchStart G := by
  obtain ⟨L, h1, h2⟩ := h.wf.arena
  have hs := h.wf.start
  refine ⟨h.wf, h.cur, hs, ⟨L, h1, ?_⟩, fun a ha => h.zero a (by omega), h.pad, h.cliq, h.loc⟩
  have : (L + 2) * dlen G.maxDeg ≤ 2 * (L + 1) * dlen G.maxDeg :=
    Nat.mul_le_mul_right _ (by omega)
  omega

theorem OkAt.ready {b : Nat} {G : Graph} (h : OkAt b G) : ReadyS G := by
  have hc := h.cur
  exact ⟨h.wf, by rw [hc]; exact h.bot, by rw [hc]; exact h.room, by rw [hc]; exact h.zero, h.pad⟩

/-- Between calls nothing is in use. -/
theorem OkAt.ok {G G' : Graph} (h : OkAt G.searchStart G') (ok : Ok G) (F : Frame G G')
    (hl : ∀ a, 64 * G.ebSize ≤ a → a < 64 * G.searchStart → bitAt G'.eb a = bitAt G.eb a) :
    Ok G' := by
  refine ⟨h.wf, by rw [h.cur, F.searchStart], fun a ha => ?_, h.pad, h.cliq, h.loc⟩
  rw [F.ebSize] at ha
  by_cases h1 : 64 * G.searchStart ≤ a
  · exact h.zero a h1
  · rw [hl a ha (by omega)]; exact ok.zero a ha

/-- `Imp`, and the memory between the stored cliques and `b` is the same. -/
structure ImpAt (b : Nat) (G G' : Graph) : Prop extends Imp G G' where
  low : ∀ a, 64 * G.ebSize ≤ a → a < 64 * b → bitAt G'.eb a = bitAt G.eb a

theorem ImpAt.refl (b : Nat) (G : Graph) : ImpAt b G G := ⟨Imp.refl G, fun _ _ _ => rfl⟩

theorem ImpAt.trans {b : Nat} {G1 G2 G3 : Graph} (h : ImpAt b G1 G2) (h' : ImpAt b G2 G3) :
    ImpAt b G1 G3 :=
  ⟨h.toImp.trans h'.toImp, fun a h1 h2 => by
    rw [h'.low a (by rw [h.frame.ebSize]; exact h1) h2, h.low a h1 h2]⟩

/-- Searching one root preserves the object invariant. -/
theorem VDone.okAt {b r : Nat} (h : OkAt b G) (hr : r < G.nVert) (d : VDone r G G') :
    OkAt b G' ∧ ImpAt b G G' := by
  have w := h.wf
  have F := d.upd.frame
  have hs := h.bot
  have hcur := h.cur
  have hE := w.eboEnd
  have hwin : ∀ v, v < G.nVert → v ≠ r → ∀ i, i < 64 * dlen (G.V v).N →
      bitAt G'.eb (64 * (G.V v).ebo + i) = bitAt G.eb (64 * (G.V v).ebo + i) := by
    intro v hv hvr i hi
    have := hE v hv
    exact d.upd.out _ (by omega) (vb_disj w hv hr hvr (by omega) (by omega))
  have hset : ∀ v, v < G.nVert → v ≠ r → bset G'.eb (G.vb v) = bset G.eb (G.vb v) := by
    intro v hv hvr
    apply bset_congr rfl
    intro i hi
    have := @dlen_le (G.V v).N
    exact hwin v hv hvr i (by simp only [vb] at hi; omega)
  obtain ⟨L, hL, hroom⟩ := h.room
  refine ⟨⟨F.wf w, d.cur.trans hcur, by rw [F.ebSize]; exact hs, ⟨L, ?_, ?_⟩, ?_, ?_, ?_, ?_⟩,
    ⟨F, d.upd.lim, ?_⟩, ?_⟩
  · intro v hv
    rw [F.nVert] at hv
    rw [F.rootCand]; exact hL v hv
  · rw [F.maxDeg, F.ebl]; exact hroom
  · intro a ha
    exact d.zero a (by omega)
  · intro v hv
    rw [F.nVert] at hv
    rw [F.vb]
    by_cases hvr : v = r
    · rw [hvr]; exact d.upd.pad
    · intro i h1 h2
      simp only [vb] at h1 h2 ⊢
      rw [hwin v hv hvr i h2]
      exact h.pad v hv i h1 h2
  · intro v hv
    rw [F.nVert] at hv
    rw [F.isCl, F.vb]
    by_cases hvr : v = r
    · subst hvr
      rcases d.upd.res with ⟨h1, _⟩ | h1
      · have : bset G'.eb (G.vb v) = bset G.eb (G.vb v) := by
          apply bset_congr rfl
          intro i hi
          have := hE v hv
          have := @dlen_le (G.V v).N
          simp only [vb] at hi ⊢
          exact h1 _ (by omega)
        rw [this]; exact h.cliq v hv
      · exact h1.1.1
    · rw [hset v hv hvr]; exact h.cliq v hv
  · rw [F.nVert]
    rcases d.upd.res with ⟨_, _, h1, _⟩ | ⟨_, _, _, h1, _⟩
    · rw [h1]; exact h.loc
    · rw [h1]; exact hr
  · rcases d.upd.res with ⟨h0, h1, h2, _⟩ | ⟨h0, h1, h2, h3, _⟩
    · refine Or.inl ⟨h1, h2, ?_⟩
      intro a
      by_cases ha : a < 64 * G.searchCur
      · exact h0 a ha
      · rw [d.zero a (by omega), h.zero a (by omega)]
    · right
      exact ⟨h2, by rw [h3]; exact hr, by rw [h3]; exact h1⟩
  · intro a h1 h2
    have := hE r hr
    exact d.upd.out a (by omega) (by omega)

theorem VDone.ok {r : Nat} (h : Ok G) (hr : r < G.nVert) (d : VDone r G G') :
    Ok G' ∧ Imp G G' := by
  obtain ⟨h1, h2⟩ := d.okAt h.at hr
  exact ⟨h1.ok h h2.frame h2.low, h2.toImp⟩

/-- The per-vertex bound is an upper bound for the cliques rooted there, unless the
search may stop at that size anyway. -/
def McsOk (G : Graph) : Prop := ∀ v, v < G.nVert → ∀ S, Rooted G v S → 2 ≤ S.card →
  S.card ≤ (G.V v).mcs ∨ G.limit ≤ (G.V v).mcs

/-- No rooted clique beats the record, unless the limit was reached. -/
def Best (G : Graph) : Prop := ∀ v, v < G.nVert → ∀ S, Rooted G v S → 2 ≤ S.card →
  S.card ≤ G.curMax ∨ G.limit ≤ G.curMax

theorem VDone.mcs {r : Nat} (hr : r < G.nVert) (d : VDone r G G') (hm : McsOk G)
    (hc : ∀ S, Rooted G r S → 2 ≤ S.card → S.card ≤ G'.curMax ∨ G'.limit ≤ G'.curMax) :
    McsOk G' := by
  have F := d.upd.frame
  intro v hv S hS h2
  rw [F.nVert] at hv
  rw [F.rooted] at hS
  rw [d.upd.lim]
  by_cases hvr : v = r
  · subst hvr
    rcases d.upd.res with ⟨_, _, _, h1⟩ | ⟨_, _, _, _, h1⟩
    · rw [h1]; exact hm v hv S hS h2
    · rcases h1 with h1 | h1
      · rw [h1]; exact hm v hv S hS h2
      · rw [h1, ← d.upd.lim]; exact hc S hS h2
  · rw [d.upd.other v hvr]; exact hm v hv S hS h2

theorem stackGraph_at {b : Nat} (h : OkAt b G) :
    ∃ G', G.stackGraph = .ok (G', G.nVert) ∧ OkAt b G' ∧ ImpAt b G G' ∧
      (McsOk G → McsOk G' ∧ Best G') := by
  obtain ⟨G1, a1, a2, a3⟩ := stackVertex_at h.ready h.loc
  obtain ⟨o1, i1⟩ := a2.okAt h h.loc
  unfold stackGraph
  rw [a1, ok_bind]
  obtain ⟨G2, b1, b2, b3, b4⟩ := forRange_rule (lo := 0) (hi := G1.nVert) (s := G1)
    (body := fun i G => do
      let V ← G.vtx i
      if V.mcs ≤ G.curMax ∨ G.curMax ≥ G.limit then .ok G
      else G.stackVertex i)
    (fun i X => OkAt b X ∧ ImpAt b G X ∧ (McsOk G → McsOk X ∧ ∀ v, v < i → ∀ S, Rooted G v S →
      2 ≤ S.card → S.card ≤ X.curMax ∨ X.limit ≤ X.curMax))
    (Nat.zero_le _) ⟨o1, i1, fun hm => ⟨a2.mcs h.loc hm a3, by intro v hv; omega⟩⟩
    (by
      rintro k X _ hk ⟨c1, c2, c34⟩
      have hkX : k < X.nVert := by rw [c2.frame.nVert, ← i1.frame.nVert]; exact hk
      rw [vtx_ok c1.wf hkX, ok_bind]
      by_cases hc : (X.V k).mcs ≤ X.curMax ∨ X.curMax ≥ X.limit
      · rw [if_pos hc]
        refine ⟨_, rfl, c1, c2, fun hm => ?_⟩
        obtain ⟨c3, c4⟩ := c34 hm
        refine ⟨c3, ?_⟩
        intro v hv S hS h2
        by_cases hvk : v = k
        · subst hvk
          have := c3 v hkX S (by rw [c2.frame.rooted]; exact hS) h2
          omega
        · exact c4 v (by omega) S hS h2
      · rw [if_neg hc]
        obtain ⟨Y, d1, d2, d3⟩ := stackVertex_at c1.ready hkX
        obtain ⟨o2, i2⟩ := d2.okAt c1 hkX
        refine ⟨Y, d1, o2, c2.trans i2, fun hm => ?_⟩
        obtain ⟨c3, c4⟩ := c34 hm
        refine ⟨d2.mcs hkX c3 d3, ?_⟩
        intro v hv S hS h2
        by_cases hvk : v = k
        · subst hvk
          exact d3 S (by rw [c2.frame.rooted]; exact hS) h2
        · have := c4 v (by omega) S hS h2
          have := i2.mono
          have := i2.lim
          omega)
  rw [b1, ok_bind]
  refine ⟨G2, ?_, b2, b3, fun hm => ⟨(b4 hm).1, ?_⟩⟩
  · rw [b3.frame.nVert]
  · intro v hv S hS h2
    rw [b3.frame.nVert] at hv
    exact (b4 hm).2 v (by rw [i1.frame.nVert]; exact hv) S (by rwa [b3.frame.rooted] at hS) h2

theorem stackGraph_spec (h : Ok G) :
    ∃ G', G.stackGraph = .ok (G', G.nVert) ∧ Ok G' ∧ Imp G G' ∧
      (McsOk G → McsOk G' ∧ Best G') := by
  obtain ⟨G', a1, a2, a3, a4⟩ := stackGraph_at h.at
  exact ⟨G', a1, a2.ok h a3.frame a3.low, a3.toImp, a4⟩

end Graph

end CM
