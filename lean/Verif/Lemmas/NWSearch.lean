import Verif.Lemmas.NWVertex
import Verif.Lemmas.Search

/-! # Effect of whole-graph weighted searches on a graph object -/

namespace CM

open Graph

namespace NWG

open ExactNum

set_option linter.unusedSectionVars false

variable {R : Type} [Zero R] [Add R] [Sub R] [NatCast R] [LT R] [LE R] [DecidableLT R]
  [DecidableLE R] [ExactNum R] {H H' : NWG R}

/-- The object invariant of a weighted graph. -/
structure WOk {R : Type} (H : NWG R) : Prop where
  ok : Ok H.g
  l : Lens H
  loc : H.curLoc < H.g.nVert

/-- The invariant of a weighted graph object whose scratch space below `b` is in use. -/
structure WOkAt {R : Type} (b : Nat) (H : NWG R) : Prop where
  ok : OkAt b H.g
  l : Lens H
  loc : H.curLoc < H.g.nVert

theorem WOk.at {R : Type} {H : NWG R} (h : WOk H) : WOkAt H.g.searchStart H :=
  ⟨h.ok.at, h.l, h.loc⟩

/-- Between calls nothing is in use. -/
theorem WOkAt.wok {R : Type} {H H' : NWG R} (h : WOkAt H.g.searchStart H') (ok : WOk H)
    (F : Frame H.g H'.g) (hl : ∀ a, 64 * H.g.ebSize ≤ a → a < 64 * H.g.searchStart →
      bitAt H'.g.eb a = bitAt H.g.eb a) : WOk H' :=
  ⟨h.ok.ok ok.ok F hl, h.l, h.loc⟩

/-- Either the record is unchanged, or a clique was stored and its weight recorded. -/
structure WImp (H H' : NWG R) : Prop where
  frame : WFrame H H'
  lim : H'.limit = H.limit
  best : (H'.curMax = H.curMax ∧ H'.curLoc = H.curLoc ∧ ∀ a, bitAt H'.g.eb a = bitAt H.g.eb a) ∨
    (H'.curLoc < H.g.nVert ∧ fin (H.wsum H'.curLoc (bset H'.g.eb (H.g.vb H'.curLoc))) = H'.curMax)

theorem WImp.refl (H : NWG R) : WImp H H :=
  ⟨WFrame.refl H, rfl, Or.inl ⟨rfl, rfl, fun _ => rfl⟩⟩

theorem WImp.trans {H1 H2 H3 : NWG R} (h : WImp H1 H2) (h' : WImp H2 H3) : WImp H1 H3 := by
  refine ⟨h.frame.trans h'.frame, h'.lim.trans h.lim, ?_⟩
  rcases h'.best with ⟨a1, a2, a3⟩ | ⟨a2, a3⟩
  · rcases h.best with ⟨b1, b2, b3⟩ | ⟨b2, b3⟩
    · exact Or.inl ⟨a1.trans b1, a2.trans b2, fun a => (a3 a).trans (b3 a)⟩
    · right
      refine ⟨by rw [a2]; exact b2, ?_⟩
      rw [a1, ← b3, a2]
      congr 2
      exact bset_congr rfl (fun i _ => a3 _)
  · right
    refine ⟨by rw [← h.frame.frame.nVert]; exact a2, ?_⟩
    rw [← h.frame.frame.vb, ← h.frame.wsum]; exact a3

/-- `WImp`, and the memory between the stored cliques and `b` is the same. -/
structure WImpAt (b : Nat) (H H' : NWG R) : Prop extends WImp H H' where
  low : ∀ a, 64 * H.g.ebSize ≤ a → a < 64 * b → bitAt H'.g.eb a = bitAt H.g.eb a

theorem WImpAt.refl (b : Nat) (H : NWG R) : WImpAt b H H := ⟨WImp.refl H, fun _ _ _ => rfl⟩

theorem WImpAt.trans {b : Nat} {H1 H2 H3 : NWG R} (h : WImpAt b H1 H2) (h' : WImpAt b H2 H3) :
    WImpAt b H1 H3 :=
  ⟨h.toWImp.trans h'.toWImp, fun a h1 h2 => by
    rw [h'.low a (by rw [h.frame.frame.ebSize]; exact h1) h2, h.low a h1 h2]⟩

/-- Searching one root preserves the object invariant. -/
theorem wupd_okAt {b r : Nat} (h : WOkAt b H) (hr : r < H.g.nVert)
    (U : WUpd r b H H') (hcur : H'.g.searchCur = b)
    (hzero : ∀ a, 64 * b ≤ a → bitAt H'.g.eb a = false) :
    WOkAt b H' ∧ WImpAt b H H' := by
  have w := h.ok.wf
  have F := U.frame.frame
  have hE := w.eboEnd
  have hB := h.ok.bot
  have hwin : ∀ v, v < H.g.nVert → v ≠ r → ∀ i, i < 64 * dlen (H.g.V v).N →
      bitAt H'.g.eb (64 * (H.g.V v).ebo + i) = bitAt H.g.eb (64 * (H.g.V v).ebo + i) := by
    intro v hv hvr i hi
    have := hE v hv
    exact U.out _ (by omega) (vb_disj w hv hr hvr (by omega) (by omega))
  have hset : ∀ v, v < H.g.nVert → v ≠ r →
      bset H'.g.eb (H.g.vb v) = bset H.g.eb (H.g.vb v) := by
    intro v hv hvr
    apply bset_congr rfl
    intro i hi
    have := @dlen_le (H.g.V v).N
    exact hwin v hv hvr i (by simp only [vb] at hi; omega)
  obtain ⟨L, hL, hroom⟩ := h.ok.room
  refine ⟨⟨⟨F.wf w, hcur, by rw [F.ebSize]; exact hB, ⟨L, ?_, ?_⟩, hzero, ?_, ?_, ?_⟩,
    U.frame.lens h.l, ?_⟩, ⟨U.frame, U.lim, ?_⟩, ?_⟩
  · intro v hv
    rw [F.nVert] at hv
    rw [F.rootCand]; exact hL v hv
  · rw [F.maxDeg, F.ebl]; exact hroom
  · intro v hv
    rw [F.nVert] at hv
    rw [F.vb]
    by_cases hvr : v = r
    · rw [hvr]; exact U.pad
    · intro i h1 h2
      simp only [vb] at h1 h2 ⊢
      rw [hwin v hv hvr i h2]
      exact h.ok.pad v hv i h1 h2
  · intro v hv
    rw [F.nVert] at hv
    rw [F.isCl, F.vb]
    by_cases hvr : v = r
    · subst hvr
      rcases U.res with ⟨h1, _⟩ | h1
      · have : bset H'.g.eb (H.g.vb v) = bset H.g.eb (H.g.vb v) := by
          apply bset_congr rfl
          intro i hi
          have := hE v hv
          have := @dlen_le (H.g.V v).N
          simp only [vb] at hi ⊢
          exact h1 _ (by omega)
        rw [this]; exact h.ok.cliq v hv
      · exact h1.1
    · rw [hset v hv hvr]; exact h.ok.cliq v hv
  · rw [F.nVert, U.frame.cl]; exact h.ok.loc
  · rw [F.nVert]
    rcases U.res with ⟨_, _, h1, _⟩ | ⟨_, _, h1, _⟩
    · rw [h1]; exact h.loc
    · rw [h1]; exact hr
  · rcases U.res with ⟨h0, h1, h2, _⟩ | ⟨h0, h1, h2, _⟩
    · refine Or.inl ⟨h1, h2, ?_⟩
      intro a
      by_cases ha : a < 64 * b
      · exact h0 a ha
      · rw [hzero a (by omega), h.ok.zero a (by omega)]
    · right
      exact ⟨by rw [h2]; exact hr, by rw [h2]; exact h1⟩
  · intro a h1 h2
    have := hE r hr
    exact U.out a h2 (by omega)

theorem VDone.okAt {b r : Nat} (h : WOkAt b H) (hr : r < H.g.nVert) (d : VDone r H H') :
    WOkAt b H' ∧ WImpAt b H H' := by
  have hc := h.ok.cur
  exact wupd_okAt h hr (hc ▸ d.upd) (d.cur.trans hc) (hc ▸ d.zero)

/-- The per-vertex bound is an upper bound for the cliques rooted there, unless the
search may stop at that weight anyway. -/
def McsOk (H : NWG R) : Prop := ∀ v, v < H.g.nVert → ∀ S, WRooted H v S → 2 ≤ S.card →
  H.wsum v S ≤ H.mq v ∨ H.lm ≤ H.mq v

/-- No rooted clique beats the record, unless the limit was reached. -/
def Best (H : NWG R) : Prop := ∀ v, v < H.g.nVert → ∀ S, WRooted H v S → 2 ≤ S.card →
  H.wsum v S ≤ H.cm ∨ H.lm ≤ H.cm

theorem VDone.mcs {r : Nat} (d : VDone r H H') (hm : McsOk H)
    (hc : ∀ S, WRooted H r S → 2 ≤ S.card → H.wsum r S ≤ H'.cm ∨ H'.lm ≤ H'.cm) :
    McsOk H' := by
  have F := d.upd.frame
  intro v hv S hS h2
  rw [F.frame.nVert] at hv
  rw [F.rooted] at hS
  have hlm : H'.lm = H.lm := by unfold lm; rw [d.upd.lim]
  rw [hlm, F.wsum]
  unfold mq
  by_cases hvr : v = r
  · subst hvr
    rcases d.upd.res with ⟨_, _, _, h1⟩ | ⟨_, _, _, h1⟩
    · rw [h1]; exact hm v hv S hS h2
    · rcases h1 with h1 | h1
      · rw [h1]; exact hm v hv S hS h2
      · rw [h1, ← hlm]; exact hc S hS h2
  · rw [d.upd.other v hvr]; exact hm v hv S hS h2

theorem stackGraph_at (X : XN H) {b : Nat} (h : WOkAt b H) (junk : Nat → R) :
    ∃ H', H.stackGraph junk = .ok (H', H.g.nVert) ∧ WOkAt b H' ∧ WImpAt b H H' ∧ XN H' ∧ H.cm ≤ H'.cm ∧
      ((∀ v, 0 ≤ val (H.w v)) → McsOk H → McsOk H' ∧ Best H') := by
  obtain ⟨H1, ws1, a1, aw, a2, am, a3⟩ := stackVertex_spec X h.ok.ready h.l h.loc
    (ws := (List.range H.g.maxDeg).map junk) (by simp)
  obtain ⟨o1, i1⟩ := a2.okAt h h.loc
  unfold stackGraph
  rw [a1, ok_bind]
  obtain ⟨⟨H2, ws2⟩, b1, b2, b3, bx, b4, b5, b6⟩ := forRange_rule (lo := 0) (hi := H1.g.nVert)
    (s := (H1, ws1))
    (body := fun i (s : NWG R × List R) => do
      let m ← rd s.1.mcs i
      if m ≤ s.1.curMax ∨ s.1.curMax ≥ s.1.limit then .ok s
      else stackVertex s i)
    (fun i s => WOkAt b s.1 ∧ WImpAt b H s.1 ∧ XN s.1 ∧ H.cm ≤ s.1.cm ∧ s.2.length = H.g.maxDeg ∧
      ((∀ v, 0 ≤ val (H.w v)) → McsOk H → McsOk s.1 ∧ ∀ v, v < i → ∀ S, WRooted H v S →
        2 ≤ S.card → H.wsum v S ≤ s.1.cm ∨ s.1.lm ≤ s.1.cm))
    (Nat.zero_le _) ⟨o1, i1, a2.upd.xn X, am, aw, fun hnn hm => ⟨a2.mcs hm (a3 hnn), by intro v hv; omega⟩⟩
    (by
      rintro k ⟨Y, ws⟩ _ hk ⟨c1, c2, cx, cm, cw, c34⟩
      simp only at c1 c2 cx cm cw c34 ⊢
      have hkY : k < Y.g.nVert := by rw [c2.frame.frame.nVert, ← i1.frame.frame.nVert]; exact hk
      rw [rd_mcs c1.l hkY, ok_bind]
      have hcv : (Y.mc k ≤ Y.curMax ∨ Y.curMax ≥ Y.limit) ↔ (Y.mq k ≤ Y.cm ∨ Y.lm ≤ Y.cm) := by
        rw [(cx.mc k hkY).le cx.cm, ge_iff_le, cx.lim.le cx.cm]; rfl
      by_cases hc : Y.mc k ≤ Y.curMax ∨ Y.curMax ≥ Y.limit
      · rw [if_pos hc]
        rw [hcv] at hc
        refine ⟨_, rfl, c1, c2, cx, cm, cw, fun hnn hm => ?_⟩
        obtain ⟨c3, c4⟩ := c34 hnn hm
        refine ⟨c3, ?_⟩
        intro v hv S hS h2
        by_cases hvk : v = k
        · subst hvk
          have h3 := c3 v hkY S (by rw [c2.frame.rooted]; exact hS) h2
          rw [c2.frame.wsum] at h3
          rcases hc with hc | hc
          · rcases h3 with h3 | h3
            · left; exact le_trans h3 hc
            · right; exact le_trans h3 hc
          · right; exact hc
        · exact c4 v (by omega) S hS h2
      · rw [if_neg hc]
        obtain ⟨Z, ws', d1, dw, d2, dm, d3⟩ := stackVertex_spec cx c1.ok.ready c1.l hkY (ws := ws)
          (by rw [cw]; exact c2.frame.frame.maxDeg.symm)
        obtain ⟨o2, i2⟩ := d2.okAt c1 hkY
        refine ⟨_, d1, o2, c2.trans i2, d2.upd.xn cx, le_trans cm dm,
          by rw [dw]; exact c2.frame.frame.maxDeg, fun hnn hm => ?_⟩
        obtain ⟨c3, c4⟩ := c34 hnn hm
        have hnnY : ∀ v, 0 ≤ val (Y.w v) := fun v => by rw [c2.frame.w]; exact hnn v
        refine ⟨d2.mcs c3 (d3 hnnY), ?_⟩
        intro v hv S hS h2
        simp only
        by_cases hvk : v = k
        · subst hvk
          rw [← c2.frame.wsum]
          exact d3 hnnY S (by rw [c2.frame.rooted]; exact hS) h2
        · rcases c4 v (by omega) S hS h2 with h3 | h3
          · left; exact le_trans h3 dm
          · right; unfold lm; rw [i2.lim]; exact le_trans h3 dm)
  rw [b1, ok_bind]
  simp only at b2 b3 bx b4 b5 b6 ⊢
  refine ⟨H2, by rw [b3.frame.frame.nVert], b2, b3, bx, b4, fun hnn hm => ⟨(b6 hnn hm).1, ?_⟩⟩
  intro v hv S hS h2
  rw [b3.frame.frame.nVert] at hv
  rw [b3.frame.wsum]
  exact (b6 hnn hm).2 v (by rw [i1.frame.frame.nVert]; exact hv) S
    (by rwa [b3.frame.rooted] at hS) h2

end NWG

end CM
