import Verif.Lemmas.Nested
import Verif.Lemmas.NWEnum
import Verif.Lemmas.AWEnum

/-! # Other work on a weighted graph while an iterator is paused -/

namespace CM

open Graph

/-- The scratch space that is left while an iterator is paused. -/
theorem Graph.EUpdS.paused {P : Nat → Finset Nat → Prop} {r b len : Nat} {G0 G : Graph}
    (U : EUpdS P r b G0 G) (ok : OkAt b G0) (hr : r < G0.nVert)
    (hsc : G.searchCur = b + (len + 1) * dlen (G0.V r).N)
    (hz : ∀ a, 64 * G.searchCur ≤ a → bitAt G.eb a = false)
    (hlen : len + 1 ≤ (bset G.eb (G0.vb r)).card)
    (room : ∃ L, (∀ v, v < G0.nVert → (G0.rootCand v).card + 1 ≤ L) ∧
      b + 2 * (L + 1) * dlen G0.maxDeg ≤ G0.eb.length) :
    OkAt G.searchCur G ∧ b ≤ G.searchCur := by
  have F := U.frame
  have w := ok.wf
  have hbot := ok.bot
  obtain ⟨L, r1, r2⟩ := room
  refine ⟨⟨F.wf w, rfl, by rw [F.ebSize]; omega, ⟨L, fun v hv => ?_, ?_⟩, hz, ?_, ?_, ?_⟩, by omega⟩
  · rw [F.rootCand]; exact r1 v (by rw [← F.nVert]; exact hv)
  · rw [F.maxDeg, F.ebl, hsc]
    have e1 := NWG.isCl_card_le w r1 hr U.cl
    have e2 : (len + 1) * dlen (G0.V r).N ≤ L * dlen G0.maxDeg :=
      Nat.mul_le_mul (by omega) (dlen_mono (w.maxd _ hr))
    have e3 : 2 * (L + 1) * dlen G0.maxDeg = L * dlen G0.maxDeg + (L + 2) * dlen G0.maxDeg := by
      rw [← Nat.add_mul]; congr 1; omega
    omega
  · intro v hv
    rw [F.nVert] at hv
    exact (U.mid ok hr v hv).1
  · intro v hv
    rw [F.nVert] at hv
    exact (U.mid ok hr v hv).2
  · rw [F.nVert, U.loc]; exact ok.loc

namespace NWG

section

set_option linter.unusedSectionVars false

variable {R : Type} [Zero R] [Add R] [Sub R] [NatCast R] [LT R] [LE R] [DecidableLT R]
  [DecidableLE R]

theorem Lv_frame {H H' : NWG R} (F : WFrame H H') (p : SPar) (m : Mem) :
    ∀ states : List (WState R), Lv H p m states → Lv H' p m states := by
  intro states
  induction states with
  | nil => intro _; trivial
  | cons s rest ih =>
    intro h
    unfold Lv at h ⊢
    obtain ⟨l1, l2, l3, l4, l5, l6, l7, l8, l9, l10, l11⟩ := h
    refine ⟨by rw [F.V]; exact l1, ?_, by rw [F.V]; exact l3, l4, ?_, by rw [F.V]; exact l6,
      by rw [F.V]; exact l7, l8, ?_, by rw [F.wCand]; exact l10, ih l11⟩
    · rw [l2]
      unfold candOff SPar.req
      rw [F.V]
    · intro t ht
      have := l5 t ht
      simpa only [A, F.frame.nadj, F.frame.e] using this
    · intro c hc
      obtain ⟨d1, d2, d3, d4⟩ := l9 c hc
      refine ⟨d1, by rw [F.wCand]; exact d2, d3, fun t ht => ?_⟩
      simpa only [A, F.frame.nadj, F.frame.e] using d4 t ht

/-- The state in which a paused rooted enumeration could have been started, given the memory
`m` before it. -/
def before (H : NWG R) (m : Mem) (b : Nat) : NWG R :=
  { H with g := { H.g with eb := m, searchCur := b } }

/-- Work in the scratch space above a paused rooted enumeration does not affect it. -/
theorem resumed {Al : Nat → Finset Nat → Prop} {b : Nat} {H0 H H' : NWG R} {p : SPar}
    {states : List (WState R)} (Wg : WGood H0 p) (ok : OkAt b H0.g) (p2 : p.B = b)
    (F0 : WFrame H0 H) (hsc : H.g.searchCur = p.B + (states.length + 1) * p.req H0.g)
    (lv : Lv H0 p H.g.eb states) (ord : Ordd H.g.eb states)
    (res : ∀ i, i < 64 * p.req H0.g →
      bitAt H.g.eb (64 * p.ro + i) = decide (i ∈ states.map WState.id))
    (hs : states ≠ []) (ok' : OkAt H.g.searchCur H'.g) (F : WFrame H H')
    (hlow : ∀ a, 64 * H.g.ebSize ≤ a → a < 64 * H.g.searchCur →
      bitAt H'.g.eb a = bitAt H.g.eb a) :
    ∃ m, WFrame H0 (before H' m b) ∧ OkAt b (before H' m b).g ∧
      WCoreS Al b (before H' m b) H' ∧ WGood (before H' m b) p ∧
      EUpdS Al p.r b (before H' m b).g H'.g ∧
      H'.g.searchCur = p.B + (states.length + 1) * p.req (before H' m b).g ∧
      p.req (before H' m b).g = p.req H0.g ∧
      Lv (before H' m b) p H'.g.eb states ∧ Ordd H'.g.eb states ∧
      (∀ i, i < 64 * p.req (before H' m b).g →
        bitAt H'.g.eb (64 * p.ro + i) = decide (i ∈ states.map WState.id)) ∧
      (∀ a, 64 * H'.g.searchCur ≤ a → bitAt H'.g.eb a = false) ∧
      (∀ s ∈ states, bset H'.g.eb s.cand = bset H.g.eb s.cand) ∧
      nodes H'.g.eb states = nodes H.g.eb states ∧
      ∀ v, v < H'.g.nVert → bset m (H'.g.vb v) = bset H'.g.eb (H'.g.vb v) := by
  have g := Wg.g
  have FG := F0.frame
  have hbot := ok.bot
  have hbG : H.g.ebSize < b := by rw [FG.ebSize]; exact hbot
  obtain ⟨m, m1, m2, m3⟩ := ok'.without (b := b) (by rw [F.frame.ebSize]; exact hbG) (by omega)
    (by
      obtain ⟨L, r1, r2⟩ := ok.room
      have F2 := FG.trans F.frame
      refine ⟨L, fun v hv => ?_, by rw [F2.maxDeg, F2.ebl]; exact r2⟩
      rw [F2.rootCand]; exact r1 v (by rw [← F2.nVert]; exact hv))
  have Fm : WFrame H' (before H' m b) :=
    ⟨Frame.mk' H'.g m b H'.g.curMax H'.g.curLoc m1, rfl, rfl, rfl, rfl, rfl, rfl⟩
  have FF : WFrame H0 (before H' m b) := (F0.trans F).trans Fm
  have hwin : ∀ l, l < states.length → ∀ i, i < 64 * p.req H0.g →
      bitAt H'.g.eb (64 * candOff H0.g p l + i) = bitAt H.g.eb (64 * candOff H0.g p l + i) := by
    intro l hl i hi
    have e1 := candOff_end g l
    have e2 := candOff_ge g l
    have e3 : (l + 2) * p.req H0.g ≤ (states.length + 1) * p.req H0.g :=
      Nat.mul_le_mul_right _ (by omega)
    exact hlow _ (by omega) (by omega)
  have hbl := bset_low hwin lv
  obtain ⟨v1, v3⟩ := AW.Lv_congr H.g.eb H'.g.eb states hwin lv
  have hreq : p.req (before H' m b).g = p.req H0.g := by
    unfold SPar.req; rw [FF.V]
  have hr' : p.r < H'.g.nVert := by
    rw [F.frame.nVert, FG.nVert]; exact g.hr
  have hset : ∀ v, v < H'.g.nVert → bset m (H'.g.vb v) = bset H'.g.eb (H'.g.vb v) := by
    intro v hv
    apply bset_congr rfl
    intro i hi
    have := ok'.wf.eboEnd v hv
    have := @dlen_le (H'.g.V v).N
    have := F.frame.ebSize
    simp only [vb] at hi ⊢
    exact m2 _ (by omega)
  have hF' : Frame (before H' m b).g H'.g :=
    ⟨rfl, rfl, fun _ => ⟨rfl, rfl, rfl, rfl⟩, m1.symm, rfl, rfl, rfl, rfl, rfl, rfl⟩
  refine ⟨m, FF, m3, ⟨rfl, ⟨⟨hF', rfl, rfl, rfl, rfl⟩, fun v hv => Or.inl (hset v hv).symm,
    fun a _ h => (m2 a h).symm⟩⟩, ⟨⟨m3.wf, hr', ?_, ?_, ?_, m3.pad _ hr'⟩, FF.lens Wg.l, ?_⟩,
    ⟨⟨hF', rfl, rfl, rfl, rfl, fun a ha _ => (m2 a ha).symm, ok'.pad _ hr', ?_⟩,
      Or.inl (hset _ hr').symm⟩, by rw [hreq, ok'.cur]; exact hsc, hreq, Lv_frame FF p _ _ v1,
    Ordd_congr hbl ord, ?_, ?_, hbl, v3, hset⟩
  · show H'.g.ebSize < p.B
    rw [F.frame.ebSize, p2]; exact hbG
  · rw [hreq]; exact g.hrc
  · rw [hreq, FF.frame.ebl]; exact g.room
  · intro S hS
    exact Wg.hL S ((FF.frame.isCl p.r S).1 hS)
  · exact (hF'.isCl p.r _).1 (ok'.cliq _ hr')
  · intro i hi
    rw [hreq] at hi
    rw [← res i hi]
    have e1 := g.hrc
    have e2 : 2 * p.req H0.g ≤ (states.length + 1) * p.req H0.g :=
      Nat.mul_le_mul_right _ (by
        have : states.length ≠ 0 := fun h => hs (List.length_eq_zero_iff.1 h)
        omega)
    exact hlow _ (by omega) (by omega)
  · intro a ha
    rw [ok'.cur] at ha
    exact ok'.zero a ha

end

section

variable {R : Type} [Zero R] [Add R] [Sub R] [NatCast R] [LT R] [LE R] [DecidableLT R]
  [DecidableLE R] {b : Nat}

theorem AW.WEInv.paused {Hs H : NWG R} {E : WEnum R} (h : AW.WEInv b Hs H E)
    (hs : E.states ≠ []) (hlen : E.states.length + 1 ≤ (bset H.g.eb (Hs.g.vb E.cur)).card)
    (hr : ∃ L, (∀ v, v < Hs.g.nVert → (Hs.g.rootCand v).card + 1 ≤ L) ∧
      b + 2 * (L + 1) * dlen Hs.g.maxDeg ≤ Hs.g.eb.length) :
    OkAt H.g.searchCur H.g ∧ b ≤ H.g.searchCur := by
  obtain ⟨hc, hl, hw, h⟩ := h
  rcases h with ⟨h1, _⟩ | ⟨h1, _⟩ | ⟨_, _, H0, p, ok, hc0, p1, p2, Wg, I, p3, _⟩
  · exact absurd h1 hs
  · exact absurd h1 hs
  · have F := hc0.frame.frame
    refine (I.updS p2).paused ok Wg.g.hr (len := E.states.length) (by rw [← p2]; exact I.sc) I.zero
      (by rw [F.vb, p1]; exact hlen) ?_
    obtain ⟨L, r1, r2⟩ := hr
    refine ⟨L, fun v hv => ?_, by rw [F.maxDeg, F.ebl]; exact r2⟩
    rw [F.rootCand]; exact r1 v (by rw [← F.nVert]; exact hv)

theorem AW.WEInv.resume {Hs H H' : NWG R} {E : WEnum R} (h : AW.WEInv b Hs H E)
    (hs : E.states ≠ []) (ok' : OkAt H.g.searchCur H'.g) (F : WFrame H H')
    (hlow : ∀ a, 64 * H.g.ebSize ≤ a → a < 64 * H.g.searchCur →
      bitAt H'.g.eb a = bitAt H.g.eb a) :
    ∃ Hs', WFrame Hs Hs' ∧ AW.WEInv b Hs' H' E ∧
      ∀ C, AW.PendS Hs' (par E.cur) H'.g.eb C E.states ↔
        AW.PendS Hs (par E.cur) H.g.eb C E.states := by
  obtain ⟨hc, hl, hw, h⟩ := h
  rcases h with ⟨h1, _⟩ | ⟨h1, _⟩ | ⟨_, a2, H0, p, ok, hc0, p1, p2, Wg, I, p3, a3⟩
  · exact absurd h1 hs
  · exact absurd h1 hs
  · have F0 : WFrame H0 H := (I.core p2 ok Wg.g.hr).frame
    obtain ⟨m, b1, b2, b3, b4, b5, b6, b7, b8, b9, b10, b11, b12, b13, b14⟩ :=
      resumed (Al := anyCl) Wg ok p2 F0 I.sc I.lv I.ord I.res hs ok' F hlow
    have FS := hc0.frame.trans b1
    refine ⟨before H' m b, FS, ⟨b3, FS.lens hl, by rw [FS.frame.maxDeg]; exact hw,
      Or.inr (Or.inr ⟨hs, by rw [b13, FS.frame.maxDeg]; exact a2, before H' m b, p, b2,
        WCoreS.refl _ _ _, p1, p2, b4, ⟨rfl, ?_, b6, b8, b9, b10, b11⟩, by rw [b7]; exact p3,
        by rw [b1.V]; exact a3⟩)⟩, fun C => ?_⟩
    · rw [p2]; exact b5.toEUpd
    · rw [AW.PendS_iff FS (p := par E.cur) (p' := par E.cur) rfl, AW.PendS_congr C b12]

end

section

open ExactNum

set_option linter.unusedSectionVars false

variable {R : Type} [Zero R] [Add R] [Sub R] [NatCast R] [LT R] [LE R] [DecidableLT R]
  [DecidableLE R] [ExactNum R] {Al : Nat → Finset Nat → Prop} {b : Nat}

theorem WEInv.paused {Hs H : NWG R} {E : WEnum R} {W : Rat} (h : WEInv Al b Hs W H E)
    (hs : E.states ≠ []) (hlen : E.states.length + 1 ≤ (bset H.g.eb (Hs.g.vb E.cur)).card)
    (hr : ∃ L, (∀ v, v < Hs.g.nVert → (Hs.g.rootCand v).card + 1 ≤ L) ∧
      b + 2 * (L + 1) * dlen Hs.g.maxDeg ≤ Hs.g.eb.length) :
    OkAt H.g.searchCur H.g ∧ b ≤ H.g.searchCur := by
  obtain ⟨_, hc, hl, hw, h⟩ := h
  rcases h with ⟨h1, _⟩ | ⟨h1, _⟩ | ⟨_, _, H0, p, ok, hc0, p1, p2, Wg, I, p3, _⟩
  · exact absurd h1 hs
  · exact absurd h1 hs
  · have F := hc0.frame.frame
    have U := I.upd
    rw [p2] at U
    refine U.paused ok Wg.g.hr (len := E.states.length) (by rw [← p2]; exact I.sc) I.zero
      (by rw [F.vb, p1]; exact hlen) ?_
    obtain ⟨L, r1, r2⟩ := hr
    refine ⟨L, fun v hv => ?_, by rw [F.maxDeg, F.ebl]; exact r2⟩
    rw [F.rootCand]; exact r1 v (by rw [← F.nVert]; exact hv)

theorem WEInv.resume {Hs H H' : NWG R} {E : WEnum R} {W : Rat} (h : WEInv Al b Hs W H E)
    (hs : E.states ≠ []) (ok' : OkAt H.g.searchCur H'.g) (F : WFrame H H')
    (hlow : ∀ a, 64 * H.g.ebSize ≤ a → a < 64 * H.g.searchCur →
      bitAt H'.g.eb a = bitAt H.g.eb a) :
    ∃ Hs' m, Hs' = before H' m b ∧
      (∀ v, v < H'.g.nVert → bset m (H'.g.vb v) = bset H'.g.eb (H'.g.vb v)) ∧
      WFrame Hs Hs' ∧ WEInv Al b Hs' W H' E ∧
      ∀ C, PendW Hs' (par E.cur) H'.g.eb W C E.states ↔
        PendW Hs (par E.cur) H.g.eb W C E.states := by
  obtain ⟨hk, hc, hl, hw, h⟩ := h
  rcases h with ⟨h1, _⟩ | ⟨h1, _⟩ | ⟨_, a2, H0, p, ok, hc0, p1, p2, Wg, I, p3, a3, a4⟩
  · exact absurd h1 hs
  · exact absurd h1 hs
  · have F0 : WFrame H0 H := (I.core p2 ok Wg.g.hr).frame
    obtain ⟨m, b1, b2, b3, b4, b5, b6, b7, b8, b9, b10, b11, b12, b13, b14⟩ :=
      resumed (Al := Al) Wg ok p2 F0 I.sc I.lv I.ord I.res hs ok' F hlow
    have FS := hc0.frame.trans b1
    refine ⟨before H' m b, m, rfl, b14, FS, ⟨hk, b3, FS.lens hl, by rw [FS.frame.maxDeg]; exact hw,
      Or.inr (Or.inr ⟨hs, by rw [b13, FS.frame.maxDeg]; exact a2, before H' m b, p, b2,
        WCoreS.refl _ _ _, p1, p2, b4, ⟨rfl, ?_, b6, b8, b9, ?_, b10, b11⟩, by rw [b7]; exact p3,
        ?_, ?_⟩)⟩, fun C => ?_⟩
    · rw [p2]; exact b5
    · intro s hs'
      obtain ⟨P, q1, q2, q3⟩ := I.pot s hs'
      refine ⟨P, fun i hi => by rw [b1.V]; exact q1 i hi, by rw [b12 s hs']; exact q2, ?_⟩
      rw [b1.wsum]; exact q3
    · refine ⟨by rw [b1.V]; exact a3.len, fun i hi => ?_⟩
      rw [b1.we]; exact a3.val i (by rw [← b1.wCand]; exact hi)
    · rw [a4, lw_eq b1 (p := p) (p' := p) rfl]
    · rw [PendW_iff FS (p := par E.cur) (p' := par E.cur) rfl, PendW_congr W C b12]

end

end NWG

end CM
