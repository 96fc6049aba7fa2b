import Verif.Lemmas.History

/-! # Other work on the graph while an iterator is paused -/

namespace CM

open Spec

namespace Graph

theorem Lv_frame {G G' : Graph} (F : Frame G G') (p : SPar) (m : Mem) : ∀ states : List SState,
    Lv G p m states → Lv G' p m states := by
  intro states
  induction states with
  | nil => intro _; trivial
  | cons s rest ih =>
    intro h
    unfold Lv at h ⊢
    obtain ⟨l1, l2, l3, l4, l5, l6, l7, l8, l9, l10, l11⟩ := h
    refine ⟨by rw [F.N]; exact l1, ?_, by rw [F.N]; exact l3, l4, ?_, by rw [F.sp]; exact l6,
      by rw [F.N]; exact l7, l8, ?_, l10, ih l11⟩
    · rw [l2]
      unfold candOff SPar.req
      rw [F.N]
    · intro t ht
      have := l5 t ht
      simpa only [A, F.nadj, F.e] using this
    · intro c hc
      obtain ⟨d1, d2, d3⟩ := l9 c hc
      refine ⟨d1, d2, fun t ht => ?_⟩
      simpa only [A, F.nadj, F.e] using d3 t ht

/-- The graph object as it would be without what is in the scratch space from `b`. -/
theorem OkAt.without {b c : Nat} {G : Graph} (h : OkAt c G) (hb : G.ebSize < b) (hbc : b ≤ c)
    (hr : ∃ L, (∀ v, v < G.nVert → (G.rootCand v).card + 1 ≤ L) ∧
      b + (L + 2) * dlen G.maxDeg ≤ G.eb.length) :
    ∃ m, m.length = G.eb.length ∧ (∀ a, a < 64 * b → bitAt m a = bitAt G.eb a) ∧
      OkAt b { G with eb := m, searchCur := b } := by
  obtain ⟨L, hL, hroom⟩ := h.room
  obtain ⟨m, _, m2, m3⟩ := zeroRange_spec G.eb b (c - b) (by omega)
  have hlow : ∀ a, a < 64 * b → bitAt m a = bitAt G.eb a := by
    intro a ha
    rw [m3, if_neg (by omega)]
  have F : Frame G { G with eb := m, searchCur := b } := Frame.mk' G m b G.curMax G.curLoc m2
  have hset : ∀ v, v < G.nVert → bset m (G.vb v) = bset G.eb (G.vb v) := by
    intro v hv
    apply bset_congr rfl
    intro i hi
    have := h.wf.eboEnd v hv
    have := @dlen_le (G.V v).N
    simp only [vb] at hi ⊢
    exact hlow _ (by omega)
  refine ⟨m, m2, hlow, F.wf h.wf, rfl, hb, ?_, ?_, ?_, ?_, h.loc⟩
  · obtain ⟨L, h1, h2⟩ := hr
    exact ⟨L, h1, by show _ ≤ m.length; rw [m2]; exact h2⟩
  · intro a ha
    show bitAt m a = false
    rw [m3]
    split
    · rfl
    · exact h.zero a (by omega)
  · intro v hv i h1 h2
    have := h.wf.eboEnd v hv
    show bitAt m _ = false
    simp only [vb, V] at h1 h2 this ⊢
    rw [hlow _ (by omega)]
    exact h.pad v hv i h1 h2
  · intro v hv
    show IsCl G v (bset m (G.vb v))
    rw [hset v hv]; exact h.cliq v hv

/-- A paused iterator over cliques of size `k` uses at most `k` sets of neighbours. -/
theorem EInv.top {Q : Nat → Prop} {b k : Nat} {Gs G : Graph} {E : Enum}
    (h : EInv Q b Gs k G E) (hs : E.states ≠ []) :
    G.searchCur ≤ b + k * dlen Gs.maxDeg := by
  obtain ⟨_, hc, h⟩ := h
  rcases h with ⟨h1, _⟩ | ⟨h1, _⟩ | ⟨_, _, a3, a4, a6, G0, p, ok, hc0, p1, p2, g, I, p3, p4⟩
  · exact absurd h1 hs
  · exact absurd h1 hs
  · have e2 : (E.states.length + 1) * p.req G0 ≤ k * dlen Gs.maxDeg := by
      refine Nat.mul_le_mul a3 ?_
      unfold SPar.req
      rw [hc0.frame.N, ← hc0.frame.maxDeg]
      apply dlen_mono
      rw [← hc0.frame.N]
      exact g.wf.maxd _ g.hr
    rw [I.sc, p2]
    omega

/-- The scratch space that is left while an iterator is paused. -/
theorem EInv.paused {Q : Nat → Prop} {b k : Nat} {Gs G : Graph} {E : Enum}
    (h : EInv Q b Gs k G E) (hs : E.states ≠ [])
    (hr : ∃ L, (∀ v, v < Gs.nVert → (Gs.rootCand v).card + 1 ≤ L) ∧
      (b + 2 * (L + 1) * dlen Gs.maxDeg ≤ Gs.eb.length ∨
        b + (k + L + 2) * dlen Gs.maxDeg ≤ Gs.eb.length)) :
    OkAt G.searchCur G ∧ b ≤ G.searchCur := by
  have htop := h.top hs
  obtain ⟨_, hc, h⟩ := h
  rcases h with ⟨h1, _⟩ | ⟨h1, _⟩ | ⟨_, _, a3, a4, a6, G0, p, ok, hc0, p1, p2, g, I, p3, p4⟩
  · exact absurd h1 hs
  · exact absurd h1 hs
  · have F := I.upd.frame
    have w := g.wf
    have hsc := I.sc
    have hbot := ok.bot
    have hBr : E.cur < Gs.nVert := by rw [← p1, ← hc0.frame.nVert]; exact g.hr
    refine ⟨⟨F.wf w, rfl, by rw [F.ebSize]; omega, ?_, I.zero, ?_, ?_, ?_⟩, by omega⟩
    · obtain ⟨L, r1, r2⟩ := hr
      refine ⟨L, fun v hv => ?_, ?_⟩
      · rw [hc.frame.rootCand]; exact r1 v (by rw [← hc.frame.nVert]; exact hv)
      · rw [hc.frame.maxDeg, hc.frame.ebl, hsc, p2]
        have e1 := r1 E.cur hBr
        have e2 : (E.states.length + 1) * p.req G0 ≤ L * dlen Gs.maxDeg := by
          refine Nat.mul_le_mul (by omega) ?_
          unfold SPar.req
          rw [hc0.frame.N, ← hc0.frame.maxDeg]
          apply dlen_mono
          rw [← hc0.frame.N]
          exact w.maxd _ g.hr
        have e3 : 2 * (L + 1) * dlen Gs.maxDeg = L * dlen Gs.maxDeg + (L + 2) * dlen Gs.maxDeg := by
          rw [← Nat.add_mul]; congr 1; omega
        have e4 : (k + L + 2) * dlen Gs.maxDeg = k * dlen Gs.maxDeg + (L + 2) * dlen Gs.maxDeg := by
          rw [← Nat.add_mul]; congr 1
        rw [hsc, p2] at htop
        omega
    · intro v hv
      rw [F.nVert] at hv
      have U := I.upd
      rw [p2] at U
      exact (U.mid ok g.hr v hv).1
    · intro v hv
      rw [F.nVert] at hv
      have U := I.upd
      rw [p2] at U
      exact (U.mid ok g.hr v hv).2
    · rw [F.nVert, I.upd.loc]; exact ok.loc

/-- Work in the scratch space above a paused iterator does not affect it. -/
theorem EInv.resume {Q : Nat → Prop} {b k : Nat} {Gs Gs' G G' : Graph} {E : Enum}
    (h : EInv Q b Gs k G E) (hs : E.states ≠ []) (ok' : OkAt G.searchCur G') (F : Frame G G')
    (hlow : ∀ a, 64 * G.ebSize ≤ a → a < 64 * G.searchCur → bitAt G'.eb a = bitAt G.eb a)
    (hc' : CoreAt Q b Gs' G') :
    EInv Q b Gs' k G' E ∧
      ∀ C, PendC Gs' (par E.cur) G'.eb k C E.states ↔ PendC Gs (par E.cur) G.eb k C E.states := by
  obtain ⟨hk, hc, h⟩ := h
  rcases h with ⟨h1, _⟩ | ⟨h1, _⟩ | ⟨_, a2, a3, a4, a6, G0, p, ok, hc0, p1, p2, g, I, p3, p4⟩
  · exact absurd h1 hs
  · exact absurd h1 hs
  · have FG := I.upd.frame
    have hsc := I.sc
    have hbot := ok.bot
    have hbG : G.ebSize < b := by rw [FG.ebSize]; exact hbot
    obtain ⟨m, m1, m2, m3⟩ := ok'.without (b := b) (by rw [F.ebSize]; exact hbG) (by omega)
      (by
        obtain ⟨L, r1, r2⟩ := ok.room
        have F2 := FG.trans F
        refine ⟨L, fun v hv => ?_, by rw [F2.maxDeg, F2.ebl]; exact r2⟩
        rw [F2.rootCand]; exact r1 v (by rw [← F2.nVert]; exact hv))
    have F0 : Frame G0 { G' with eb := m, searchCur := b } :=
      (FG.trans F).trans (Frame.mk' G' m b G'.curMax G'.curLoc m1)
    have hwin : ∀ l, l < E.states.length → ∀ i, i < 64 * p.req G0 →
        bitAt G'.eb (64 * candOff G0 p l + i) = bitAt G.eb (64 * candOff G0 p l + i) := by
      intro l hl i hi
      have e1 := candOff_end g l
      have e2 := candOff_ge g l
      have e3 : (l + 2) * p.req G0 ≤ (E.states.length + 1) * p.req G0 :=
        Nat.mul_le_mul_right _ (by omega)
      exact hlow _ (by omega) (by omega)
    obtain ⟨v1, v2, v3⟩ := Lv_congr G.eb G'.eb E.states hwin I.lv
    have hreq : p.req { G' with eb := m, searchCur := b } = p.req G0 := by
      unfold SPar.req; rw [F0.N]
    have hr' : p.r < G'.nVert := by
      have := (FG.trans F).nVert
      rw [this]; exact g.hr
    have hEr := ok'.wf.eboEnd p.r hr'
    have hset : ∀ v, v < G'.nVert → bset m (G'.vb v) = bset G'.eb (G'.vb v) := by
      intro v hv
      apply bset_congr rfl
      intro i hi
      have := ok'.wf.eboEnd v hv
      have := @dlen_le (G'.V v).N
      have := F.ebSize
      simp only [vb] at hi ⊢
      exact m2 _ (by omega)
    have hne : E.cur < Gs'.nVert := by
      rw [← hc'.frame.nVert, ← p1]; exact hr'
    refine ⟨⟨hk, hc', Or.inr (Or.inr ⟨hs, a2, a3, ?_, ?_, { G' with eb := m, searchCur := b }, p,
      m3, ?_, p1, p2, ?_, ?_, by rw [hreq]; exact p3,
      by rw [← hc'.frame.rootCand, F.rootCand, hc.frame.rootCand]; exact p4⟩)⟩, ?_⟩
    · rw [v3, ← hc'.frame.maxDeg, F.maxDeg, hc.frame.maxDeg]; exact a4
    · rw [← hc'.frame.rootCand, F.rootCand, hc.frame.rootCand]; exact a6
    · refine ⟨⟨hc'.frame.trans (Frame.mk' G' m b G'.curMax G'.curLoc m1), hc'.lim, hc'.vs, hc'.cm,
        hc'.loc⟩, fun v hv => ?_, fun a h1 h2 => ?_⟩
      · have e := hset v (by rw [hc'.frame.nVert]; exact hv)
        rw [hc'.frame.vb] at e
        show bset m _ = _ ∨ Q (bset m _).card
        rw [e]; exact hc'.keep v hv
      · show bitAt m a = _
        rw [m2 a h2]; exact hc'.low a h1 h2
    · refine ⟨m3.wf, hr', ?_, ?_, ?_, m3.pad _ hr'⟩
      · show G'.ebSize < p.B
        rw [F.ebSize, p2]; exact hbG
      · rw [hreq]; exact g.hrc
      · rw [hreq, F0.ebl]; exact g.room
    · have hw : bset m (G'.vb p.r) = bset G'.eb (G'.vb p.r) := hset _ hr'
      have hF' : Frame { G' with eb := m, searchCur := b } G' :=
        ⟨rfl, rfl, fun _ => ⟨rfl, rfl, rfl, rfl⟩, m1.symm, rfl, rfl, rfl, rfl, rfl, rfl⟩
      refine ⟨⟨⟨hF', rfl, rfl, rfl, rfl, ?_, ok'.pad _ hr', ok'.cliq _ hr'⟩, Or.inl hw.symm⟩, ?_,
        Lv_frame F0 p _ _ v1, (PendC_congr G.eb G'.eb k ∅ E.states hwin I.lv).2 I.ord, ?_, ?_⟩
      · intro a ha _
        show _ = bitAt m a
        rw [m2 a (by rw [← p2]; exact ha)]
      · rw [hreq, ok'.cur]; exact hsc
      · intro i hi
        rw [hreq] at hi
        rw [← I.res i hi]
        have e1 := g.hrc
        have e2 : 2 * p.req G0 ≤ (E.states.length + 1) * p.req G0 :=
          Nat.mul_le_mul_right _ (by
            have : E.states.length ≠ 0 := fun h => hs (List.length_eq_zero_iff.1 h)
            omega)
        exact hlow _ (by omega) (by omega)
      · intro a ha
        rw [ok'.cur] at ha
        exact ok'.zero a ha
    · intro C
      have e1 := PendC_iff hc0.frame (p := par E.cur) (p' := p) p1.symm G.eb k C E.states
      have e2 := (PendC_congr G.eb G'.eb k C E.states hwin I.lv).1
      have e3 := PendC_iff hc'.frame (p := par E.cur) (p' := p) p1.symm G'.eb k C E.states
      have e4 := PendC_iff (FG.trans F) (p := p) (p' := p) rfl G'.eb k C E.states
      rw [← e1, ← e2, ← e3, e4]

end Graph

end CM
