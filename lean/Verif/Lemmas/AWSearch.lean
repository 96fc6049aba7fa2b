import Verif.Lemmas.AWVertex
import Verif.Lemmas.NWSearch

/-! # Arbitrary arithmetic: effect of whole-graph weighted searches on a graph object -/

namespace CM

open Graph

namespace NWG

namespace AW

set_option linter.unusedSectionVars false

variable {R : Type} [Zero R] [Add R] [Sub R] [NatCast R] [LT R] [LE R] [DecidableLT R]
  [DecidableLE R]

variable {H H' : NWG R}

/-- What a search leaves alone. -/
structure WImp (H H' : NWG R) : Prop where
  frame : WFrame H H'
  lim : H'.limit = H.limit

theorem WImp.refl (H : NWG R) : WImp H H :=
  ⟨WFrame.refl H, rfl⟩

theorem WImp.trans {H1 H2 H3 : NWG R} (h : WImp H1 H2) (h' : WImp H2 H3) : WImp H1 H3 :=
  ⟨h.frame.trans h'.frame, h'.lim.trans h.lim⟩

/-- `WImp`, and the memory between the stored cliques and `b` is the same. -/
structure WImpAt (b : Nat) (H H' : NWG R) : Prop extends WImp H H' where
  low : ∀ a, 64 * H.g.ebSize ≤ a → a < 64 * b → bitAt H'.g.eb a = bitAt H.g.eb a

theorem WImpAt.refl (b : Nat) (H : NWG R) : WImpAt b H H := ⟨WImp.refl H, fun _ _ _ => rfl⟩

theorem WImpAt.trans {b : Nat} {H1 H2 H3 : NWG R} (h : WImpAt b H1 H2) (h' : WImpAt b H2 H3) :
    WImpAt b H1 H3 :=
  ⟨h.toWImp.trans h'.toWImp, fun a h1 h2 => by
    rw [h'.low a (by rw [h.frame.frame.ebSize]; exact h1) h2, h.low a h1 h2]⟩

/-- Searching one root preserves the object invariant. -/
theorem wupd_okAt {b r : Nat} (h : WOkAt b H) (hr : r < H.g.nVert)
    (U : WUpd r b H H') (hcur : H'.g.searchCur = b)
    (hzero : ∀ a, 64 * b ≤ a → bitAt H'.g.eb a = false) :
    WOkAt b H' ∧ WImpAt b H H' := by
  have w := h.ok.wf
  have F := U.frame.frame
  have hE := w.eboEnd
  have hB := h.ok.bot
  have hwin : ∀ v, v < H.g.nVert → v ≠ r → ∀ i, i < 64 * dlen (H.g.V v).N →
      bitAt H'.g.eb (64 * (H.g.V v).ebo + i) = bitAt H.g.eb (64 * (H.g.V v).ebo + i) := by
    intro v hv hvr i hi
    have := hE v hv
    exact U.out _ (by omega) (vb_disj w hv hr hvr (by omega) (by omega))
  have hset : ∀ v, v < H.g.nVert → v ≠ r →
      bset H'.g.eb (H.g.vb v) = bset H.g.eb (H.g.vb v) := by
    intro v hv hvr
    apply bset_congr rfl
    intro i hi
    have := @dlen_le (H.g.V v).N
    exact hwin v hv hvr i (by simp only [vb] at hi; omega)
  obtain ⟨L, hL, hroom⟩ := h.ok.room
  refine ⟨⟨⟨F.wf w, hcur, by rw [F.ebSize]; exact hB, ⟨L, ?_, ?_⟩, hzero, ?_, ?_, ?_⟩,
    U.frame.lens h.l, ?_⟩, ⟨U.frame, U.lim⟩, ?_⟩
  · intro v hv
    rw [F.nVert] at hv
    rw [F.rootCand]; exact hL v hv
  · rw [F.maxDeg, F.ebl]; exact hroom
  · intro v hv
    rw [F.nVert] at hv
    rw [F.vb]
    by_cases hvr : v = r
    · rw [hvr]; exact U.pad
    · intro i h1 h2
      simp only [vb] at h1 h2 ⊢
      rw [hwin v hv hvr i h2]
      exact h.ok.pad v hv i h1 h2
  · intro v hv
    rw [F.nVert] at hv
    rw [F.isCl, F.vb]
    by_cases hvr : v = r
    · subst hvr
      rcases U.res with ⟨h1, _⟩ | h1
      · have : bset H'.g.eb (H.g.vb v) = bset H.g.eb (H.g.vb v) := by
          apply bset_congr rfl
          intro i hi
          have := hE v hv
          have := @dlen_le (H.g.V v).N
          simp only [vb] at hi ⊢
          exact h1 _ (by omega)
        rw [this]; exact h.ok.cliq v hv
      · exact h1.1
    · rw [hset v hv hvr]; exact h.ok.cliq v hv
  · rw [F.nVert, U.frame.cl]; exact h.ok.loc
  · rw [F.nVert]
    rcases U.res with ⟨_, _, h1, _⟩ | ⟨_, h1, _⟩
    · rw [h1]; exact h.loc
    · rw [h1]; exact hr
  · intro a h1 h2
    have := hE r hr
    exact U.out a h2 (by omega)

theorem VDone.okAt {b r : Nat} (h : WOkAt b H) (hr : r < H.g.nVert) (d : VDone r H H') :
    WOkAt b H' ∧ WImpAt b H H' := by
  have hc := h.ok.cur
  exact wupd_okAt h hr (hc ▸ d.upd) (d.cur.trans hc) (hc ▸ d.zero)

theorem stackGraph_at {b : Nat} (h : WOkAt b H) (junk : Nat → R) :
    ∃ H', H.stackGraph junk = .ok (H', H.g.nVert) ∧ WOkAt b H' ∧ WImpAt b H H' := by
  obtain ⟨H1, ws1, a1, aw, a2⟩ := stackVertex_spec h.ok.ready h.l h.loc
    (ws := (List.range H.g.maxDeg).map junk) (by simp)
  obtain ⟨o1, i1⟩ := a2.okAt h h.loc
  unfold stackGraph
  rw [a1, ok_bind]
  obtain ⟨⟨H2, ws2⟩, b1, b2, b3, b5⟩ := forRange_rule (lo := 0) (hi := H1.g.nVert)
    (s := (H1, ws1))
    (body := fun i (s : NWG R × List R) => do
      let m ← rd s.1.mcs i
      if m ≤ s.1.curMax ∨ s.1.curMax ≥ s.1.limit then .ok s
      else stackVertex s i)
    (fun _ s => WOkAt b s.1 ∧ WImpAt b H s.1 ∧ s.2.length = H.g.maxDeg)
    (Nat.zero_le _) ⟨o1, i1, aw⟩
    (by
      rintro k ⟨X, ws⟩ _ hk ⟨c1, c2, cw⟩
      simp only at c1 c2 cw ⊢
      have hkX : k < X.g.nVert := by rw [c2.frame.frame.nVert, ← i1.frame.frame.nVert]; exact hk
      rw [rd_mcs c1.l hkX, ok_bind]
      by_cases hc : X.mc k ≤ X.curMax ∨ X.curMax ≥ X.limit
      · rw [if_pos hc]
        exact ⟨_, rfl, c1, c2, cw⟩
      · rw [if_neg hc]
        obtain ⟨Y, ws', d1, dw, d2⟩ := stackVertex_spec c1.ok.ready c1.l hkX (ws := ws)
          (by rw [cw]; exact c2.frame.frame.maxDeg.symm)
        obtain ⟨o2, i2⟩ := d2.okAt c1 hkX
        exact ⟨_, d1, o2, c2.trans i2, by rw [dw]; exact c2.frame.frame.maxDeg⟩)
  rw [b1, ok_bind]
  simp only at b2 b3 b5 ⊢
  exact ⟨H2, by rw [b3.frame.frame.nVert], b2, b3⟩

end AW

end NWG

end CM
