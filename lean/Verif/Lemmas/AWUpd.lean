import Verif.Lemmas.NWUpd

/-! # Weighted graphs with arbitrary arithmetic: saving a clique

The `AW` files repeat the part of the weighted development that does not speak about weights, for
a number type `R` about whose operations nothing is assumed. -/

namespace CM

open Graph

namespace NWG

namespace AW

set_option linter.unusedSectionVars false

variable {R : Type} [Zero R] [Add R] [Sub R] [NatCast R] [LT R] [LE R] [DecidableLT R]
  [DecidableLE R]

variable {H : NWG R}

/-- What filling the candidate set has done when the positions below `j` are handled. -/
def FillInv (H : NWG R) (r : Nat) (cand : GBits) (eb : Mem) (ws : List R) (j : Nat)
    (s : Mem × List R × R) : Prop :=
  s.1.length = eb.length ∧ s.2.1.length = ws.length ∧
    ∀ a, bitAt s.1 a =
      (decide (64 * cand.off ≤ a ∧ a - 64 * cand.off ∈ (H.wCand r).filter (· < j)) || bitAt eb a)

theorem fill_step (wf : WF H.g) (l : Lens H) {r : Nat} (hr : r < H.g.nVert) (cand : GBits)
    (eb : Mem) (ws : List R) (hin : cand.off + dlen (H.g.V r).N ≤ eb.length)
    (hws : (H.g.V r).N ≤ ws.length) {k : Nat} (hk : k < (H.g.V r).N) {s : Mem × List R × R}
    (I : FillInv H r cand eb ws k s) (hm : k ∈ H.wCand r) :
    ∃ s', (do
      let eb ← cand.set s.1 k
      let w ← rd H.wt (H.g.e r k)
      let ws ← wr s.2.1 k w
      .ok (eb, ws, s.2.2 + w) : M (Mem × List R × R)) = .ok s' ∧
      FillInv H r cand eb ws (k + 1) s' := by
  obtain ⟨m, u, c⟩ := s
  obtain ⟨a1, a2, a5⟩ := I
  simp only at a1 a2 a5 ⊢
  obtain ⟨m', b1, b2, b3⟩ := cand.set_spec m k (by have := div_lt_dlen hk; omega)
  rw [b1, ok_bind, rd_wt l (e_lt wf hr hk), ok_bind, wr_ok _ (by omega), ok_bind]
  refine ⟨_, rfl, b2.trans a1, by simpa using a2, ?_⟩
  · intro a
    simp only
    rw [b3, a5, filter_take hm, ← Bool.or_assoc]
    congr 1
    rw [← Bool.decide_or]
    apply decide_eq_decide.2
    simp only [Finset.mem_insert]
    constructor
    · rintro (h | h)
      · exact ⟨by omega, Or.inl (by omega)⟩
      · exact ⟨h.1, Or.inr h.2⟩
    · rintro ⟨h, h' | h'⟩
      · exact Or.inl (by omega)
      · exact Or.inr ⟨h, h'⟩

theorem FillInv.skip {r : Nat} {cand : GBits} {eb : Mem} {ws : List R} {k : Nat}
    {s : Mem × List R × R} (I : FillInv H r cand eb ws k s) (hm : k ∉ H.wCand r) :
    FillInv H r cand eb ws (k + 1) s := by
  unfold FillInv at I ⊢
  rw [filter_skip hm]; exact I

theorem fillCand_spec (wf : WF H.g) (l : Lens H) {r : Nat} (hr : r < H.g.nVert) (cand : GBits)
    (eb : Mem) (ws : List R) (hin : cand.off + dlen (H.g.V r).N ≤ eb.length)
    (hws : (H.g.V r).N ≤ ws.length) :
    ∃ eb' ws' c, H.fillCand r (H.g.V r) cand eb ws = .ok (eb', ws', c) ∧
      eb'.length = eb.length ∧ ws'.length = ws.length ∧
      ∀ a, bitAt eb' a =
        (decide (64 * cand.off ≤ a ∧ a - 64 * cand.off ∈ H.wCand r) || bitAt eb a) := by
  have hsp := wf.spos r hr
  unfold fillCand
  obtain ⟨s1, h1, h2⟩ := forRange_rule (lo := 0) (hi := (H.g.V r).spos) (s := (eb, ws, (0 : R)))
    (body := fun j (s : Mem × List R × R) => do
      let vert ← H.g.nbr (H.g.V r) j
      let dv ← rd H.deg vert
      let d ← rd H.deg r
      if dv ≤ d then .ok s
      else do
        let eb ← cand.set s.1 j
        let w ← rd H.wt vert
        let ws ← wr s.2.1 j w
        .ok (eb, ws, s.2.2 + w))
    (FillInv H r cand eb ws) (Nat.zero_le _)
    ⟨rfl, rfl, by simp⟩
    (by
      intro k s _ hk I
      have hkN : k < (H.g.V r).N := by omega
      have hek := e_lt wf hr hkN
      rw [nbr_ok wf hr hkN, ok_bind, rd_deg l hek, ok_bind, rd_deg l hr, ok_bind]
      by_cases hc : H.d (H.g.e r k) ≤ H.d r
      · rw [if_pos hc]
        refine ⟨_, rfl, I.skip ?_⟩
        rw [mem_wCand']
        rintro ⟨_, h | h⟩
        · exact h.2 hc
        · omega
      · rw [if_neg hc]
        exact fill_step wf l hr cand eb ws hin hws hkN I
          (mem_wCand'.2 ⟨hkN, Or.inl ⟨hk, hc⟩⟩))
  rw [h1, ok_bind]
  obtain ⟨⟨m, u, c⟩, k1, k2⟩ := forRange_rule (lo := (H.g.V r).spos + 1) (hi := (H.g.V r).N)
    (s := s1)
    (body := fun j (s : Mem × List R × R) => do
      let vert ← H.g.nbr (H.g.V r) j
      let dv ← rd H.deg vert
      let d ← rd H.deg r
      if dv < d then .ok s
      else do
        let eb ← cand.set s.1 j
        let w ← rd H.wt vert
        let ws ← wr s.2.1 j w
        .ok (eb, ws, s.2.2 + w))
    (FillInv H r cand eb ws) (by omega)
    (h2.skip (by rw [mem_wCand']; omega))
    (by
      intro k s hlo hk I
      have hek := e_lt wf hr hk
      rw [nbr_ok wf hr hk, ok_bind, rd_deg l hek, ok_bind, rd_deg l hr, ok_bind]
      by_cases hc : H.d (H.g.e r k) < H.d r
      · rw [if_pos hc]
        refine ⟨_, rfl, I.skip ?_⟩
        rw [mem_wCand']
        rintro ⟨_, h | h⟩
        · omega
        · exact h.2 hc
      · rw [if_neg hc]
        exact fill_step wf l hr cand eb ws hin hws hk I
          (mem_wCand'.2 ⟨hk, Or.inr ⟨by omega, hc⟩⟩))
  have hall : (H.wCand r).filter (· < (H.g.V r).N) = H.wCand r := by
    ext x; simp only [Finset.mem_filter]
    exact ⟨fun h => h.1, fun h => ⟨h, (mem_wCand'.1 h).1⟩⟩
  obtain ⟨a1, a2, a5⟩ := k2
  rw [hall] at a5
  simp only at a1 a2 a5
  rw [k1]
  exact ⟨m, u, c, rfl, a1, a2, a5⟩

/-- What a weighted search rooted at `r` may have done between `H0` and `H`, `B` being the
bottom of the scratch memory it uses. -/
structure WUpd (r B : Nat) (H0 H : NWG R) : Prop where
  frame : WFrame H0 H
  lim : H.limit = H0.limit
  other : ∀ v, v ≠ r → H.mc v = H0.mc v
  out : ∀ a, a < 64 * B →
    ¬ (64 * (H0.g.V r).ebo ≤ a ∧ a < 64 * ((H0.g.V r).ebo + dlen (H0.g.V r).N)) →
    bitAt H.g.eb a = bitAt H0.g.eb a
  pad : PadZero H.g.eb (H0.g.vb r)
  res : ((∀ a, a < 64 * B → bitAt H.g.eb a = bitAt H0.g.eb a) ∧ H.curMax = H0.curMax ∧
      H.curLoc = H0.curLoc ∧ H.mc r = H0.mc r) ∨
    (IsCl H0.g r (bset H.g.eb (H0.g.vb r)) ∧ H.curLoc = r ∧ (H.mc r = H0.mc r ∨ H.mc r = H.curMax))

namespace WUpd

variable {r B : Nat} {H0 : NWG R}

theorem refl (hp : PadZero H0.g.eb (H0.g.vb r)) : WUpd r B H0 H0 :=
  ⟨WFrame.refl _, rfl, fun _ _ => rfl, fun _ _ _ => rfl, hp,
    Or.inl ⟨fun _ _ => rfl, rfl, rfl, rfl⟩⟩

/-- Changing only scratch memory. -/
theorem scratch (h : WUpd r B H0 H) (hB : (H0.g.V r).ebo + dlen (H0.g.V r).N ≤ B)
    (eb : Mem) (sc : Nat) (hl : eb.length = H.g.eb.length)
    (hb : ∀ a, a < 64 * B → bitAt eb a = bitAt H.g.eb a) :
    WUpd r B H0 { H with g := { H.g with eb := eb, searchCur := sc } } := by
  have hd := @dlen_le (H0.g.V r).N
  have hwin : bset eb (H0.g.vb r) = bset H.g.eb (H0.g.vb r) := by
    apply bset_congr rfl
    intro i hi
    simp only [vb] at hi ⊢
    rw [hb _ (by omega)]
  refine ⟨h.frame.trans (WFrame.mk' H eb sc H.limit H.curMax H.curLoc hl), h.lim, h.other, ?_, ?_, ?_⟩
  · intro a ha hna
    show bitAt eb a = _
    rw [hb a ha]; exact h.out a ha hna
  · intro i h1 h2
    show bitAt eb _ = _
    simp only [vb] at h1 h2
    rw [hb _ (by simp only [vb]; omega)]; exact h.pad i h1 h2
  · rcases h.res with ⟨h1, h2⟩ | h1
    · refine Or.inl ⟨?_, h2⟩
      intro a ha
      show bitAt eb a = _
      rw [hb a ha]; exact h1 a ha
    · refine Or.inr ?_
      show IsCl H0.g r (bset eb _) ∧ _
      rw [hwin]; exact h1

/-- Popping scratch memory down to the bottom of a search. -/
theorem pop {n : Nat} (h : WUpd r B H0 H) (wf : WF H0.g) (hr : r < H0.g.nVert)
    (hB : H0.g.ebSize < B)
    (hn : H.g.searchCur = B + n) (hlen : H.g.searchCur ≤ H0.g.eb.length) :
    ∃ g', H.g.clearMemory n = .ok g' ∧ WUpd r B H0 { H with g := g' } ∧ g'.searchCur = B ∧
      (∀ a, 64 * B ≤ a → a < 64 * H.g.searchCur → bitAt g'.eb a = false) ∧
      ∀ a, ¬ (64 * B ≤ a ∧ a < 64 * H.g.searchCur) → bitAt g'.eb a = bitAt H.g.eb a := by
  have hebl := h.frame.frame.ebl
  have hebb := wf.eblen
  have hebo := wf.eboEnd r hr
  obtain ⟨m1, d1, d2, d3⟩ := clearMemory_spec (G := H.g) n (by omega) (by omega) (by omega)
  have : H.g.searchCur - n = B := by omega
  rw [this] at d1 d3
  refine ⟨_, d1, ?_, rfl, ?_, ?_⟩
  · exact h.scratch (by omega) m1 _ d2 (fun a ha => by rw [d3, if_neg (by omega)])
  · intro a h1 h2; simp only; rw [d3, if_pos ⟨h1, h2⟩]
  · intro a h1; simp only; rw [d3, if_neg h1]

end WUpd

/-- Storing a clique as the record, with or without changing the bound. -/
theorem store_spec {r B : Nat} {H0 : NWG R} (wf : WF H0.g) (hr : r < H0.g.nVert)
    (h : WUpd r B H0 H) (hB : H0.g.ebSize < B) {res : GBits} {size : R}
    (hB2 : B ≤ res.off)
    (hin : res.off + dlen (H0.g.V r).N ≤ H.g.eb.length)
    (hpad : ∀ i, (H0.g.V r).N ≤ i → i < 64 * dlen (H0.g.V r).N →
      bitAt H.g.eb (64 * res.off + i) = false)
    (hcl : IsCl H0.g r (bset H.g.eb ⟨res.off, (H0.g.V r).N⟩)) :
    ∃ eb, (H.g.vb r).copyData res.off H.g.eb = .ok eb ∧ eb.length = H.g.eb.length ∧
      H.g.vbits (H0.g.V r) = .ok (H.g.vb r) ∧
      (∀ a, 64 * B ≤ a → bitAt eb a = bitAt H.g.eb a) ∧
      ∀ mcs, mcs.length = H.mcs.length → (∀ v, v ≠ r → mcs.getD v 0 = H.mc v) →
        (mcs.getD r 0 = H0.mc r ∨ mcs.getD r 0 = size) →
        WUpd r B H0 { H with
          g := { H.g with eb := eb }, mcs := mcs, curMax := size, curLoc := r } := by
  have wG := h.frame.frame.wf wf
  have hebo := wf.eboEnd r hr
  have hV := h.frame.V r
  obtain ⟨eb, c1, c2, c3⟩ := (H.g.vb r).copyData_spec res.off H.g.eb
    (by simp only [vb]; rw [hV]; omega) (by simp only [vb]; rw [hV]; omega)
    (by simp only [vb]; rw [hV]; omega)
  simp only [vb, hV] at c3
  have hvb : H.g.vbits (H0.g.V r) = .ok (H.g.vb r) := by
    unfold vbits vb; rw [wG.dang, hV]; rfl
  have hwin : bset eb (H0.g.vb r) = bset H.g.eb ⟨res.off, (H0.g.V r).N⟩ := by
    apply bset_congr
    · rfl
    · intro i hi
      simp only [vb] at hi ⊢
      have := @dlen_le (H0.g.V r).N
      rw [c3, if_pos (by omega)]
      congr 1; omega
  refine ⟨eb, c1, c2, hvb, ?_, ?_⟩
  · intro a ha
    rw [c3, if_neg (by omega)]
  · intro mcs m1 m2 m3
    refine ⟨⟨h.frame.frame.trans ⟨rfl, rfl, fun _ => ⟨rfl, rfl, rfl, rfl⟩, c2, rfl, rfl, rfl, rfl,
      rfl, rfl⟩, h.frame.vs, h.frame.cl, h.frame.wt, h.frame.deg, m1.trans h.frame.mlen,
      h.frame.depth⟩, h.lim, ?_, ?_, ?_,
      Or.inr ⟨?_, rfl, m3⟩⟩
    · intro v hv
      exact (m2 v hv).trans (h.other v hv)
    · intro a ha hna
      show bitAt eb a = _
      rw [c3, if_neg hna]; exact h.out a ha hna
    · intro i h1 h2
      show bitAt eb _ = _
      simp only [vb] at h1 h2 ⊢
      rw [c3, if_pos (by omega)]
      rw [← hpad i h1 h2]; congr 1; omega
    · show IsCl H0.g r (bset eb _)
      rw [hwin]; exact hcl

/-- nw_dfs.cpp:127-131. -/
theorem saveClique_spec {r B : Nat} {H0 : NWG R} (wf : WF H0.g) (l : Lens H0) (hr : r < H0.g.nVert)
    (h : WUpd r B H0 H) (hB : H0.g.ebSize < B) {res : GBits} {size : R}
    (hlen : res.len = (H0.g.V r).N) (hB2 : B ≤ res.off)
    (hin : res.off + dlen (H0.g.V r).N ≤ H.g.eb.length) (hpad : PadZero H.g.eb res)
    (hcl : IsCl H0.g r (bset H.g.eb res)) :
    ∃ H', H.saveClique r (H0.g.V r) res size = .ok H' ∧ WUpd r B H0 H' ∧ H'.curMax = size ∧
      H'.g.searchCur = H.g.searchCur ∧ (∀ a, 64 * B ≤ a → bitAt H'.g.eb a = bitAt H.g.eb a) := by
  have hres : res = ⟨res.off, (H0.g.V r).N⟩ := by rw [← hlen]
  obtain ⟨eb, c1, c2, c3, c4, c5⟩ := store_spec wf hr h hB (res := res) (size := size)
    hB2 hin (fun i h1 h2 => hpad i (by omega) (by rw [hlen]; exact h2))
    (by rw [← hres]; exact hcl)
  have hrm : r < H.mcs.length := by
    rw [h.frame.mlen, l.mcs]; exact hr
  unfold saveClique
  rw [c3, ok_bind, c1, ok_bind, wr_ok _ hrm, ok_bind]
  refine ⟨_, rfl, c5 _ (by simp) ?_ ?_, rfl, rfl, c4⟩
  · intro v hv
    rw [getD_set _ hrm, if_neg hv]; rfl
  · right; rw [getD_set _ hrm, if_pos rfl]

end AW

end NWG

end CM
