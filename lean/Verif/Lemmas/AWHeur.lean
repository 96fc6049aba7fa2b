import Verif.Lemmas.AWSearch
import Verif.Lemmas.NWHeur

/-! # Arbitrary arithmetic: `NWHeuristic` (nw_heuristic.cpp) -/

namespace CM

open Graph

namespace NWG

namespace AW

set_option linter.unusedSectionVars false

variable {R : Type} [Zero R] [Add R] [Sub R] [NatCast R] [LT R] [LE R] [DecidableLT R]
  [DecidableLE R]

variable {H : NWG R}

/-- The records the heuristic collects for the positions below `n`. -/
noncomputable def nbOf (H : NWG R) (r n : Nat) : List (WData R) :=
  ((List.range n).filter (fun i => i ∈ H.wCand r)).map
    (fun i => ⟨H.g.e r i, (H.g.V (H.g.e r i)).N, i, H.d (H.g.e r i)⟩)

theorem nbOf_succ (r n : Nat) : nbOf H r (n + 1) = nbOf H r n ++
    (if n ∈ H.wCand r then [⟨H.g.e r n, (H.g.V (H.g.e r n)).N, n, H.d (H.g.e r n)⟩] else []) := by
  unfold nbOf
  rw [List.range_succ, List.filter_append, List.map_append]
  congr 1
  by_cases h : n ∈ H.wCand r <;> simp [h]

theorem mem_nbOf {r n : Nat} {x : WData R} (h : x ∈ nbOf H r n) :
    x.pos ∈ H.wCand r ∧ x.id = H.g.e r x.pos := by
  unfold nbOf at h
  rw [List.mem_map] at h
  obtain ⟨i, hi, rfl⟩ := h
  rw [List.mem_filter] at hi
  exact ⟨by simpa using hi.2, rfl⟩

theorem nbOf_mem {r n i : Nat} (h : i ∈ H.wCand r) (hn : i < n) :
    ∃ x ∈ nbOf H r n, x.pos = i := by
  unfold nbOf
  refine ⟨⟨H.g.e r i, (H.g.V (H.g.e r i)).N, i, H.d (H.g.e r i)⟩, ?_, rfl⟩
  rw [List.mem_map]
  exact ⟨i, by rw [List.mem_filter]; exact ⟨List.mem_range.2 hn, by simpa using h⟩, rfl⟩

/-- The array `neighbors` between calls. -/
structure NbOk (H : NWG R) (nb : List (WData R)) : Prop where
  len : nb.length = H.g.maxDeg
  ids : ∀ y ∈ nb, y.id < H.g.nVert

theorem NbOk.set {nb : List (WData R)} (h : NbOk H nb) {j : Nat} {y : WData R} (hy : y.id < H.g.nVert) :
    NbOk H (nb.set j y) := by
  refine ⟨by simpa using h.len, ?_⟩
  intro z hz
  rcases List.mem_or_eq_of_mem_set hz with hz | hz
  · exact h.ids z hz
  · rw [hz]; exact hy

/-- Invariant of the two loops of `heurCollect` before position `k`. -/
structure CollInv (H : NWG R) (r : Nat) (cand : GBits) (eb : Mem) (k : Nat)
    (s : Mem × List (WData R) × Nat × Nat × R) : Prop where
  len : s.1.length = eb.length
  nb : NbOk H s.2.1
  take : s.2.1.take s.2.2.1 = nbOf H r k
  cnt : s.2.2.1 = ((H.wCand r).filter (· < k)).card
  left : s.2.2.2.1 = s.2.2.1
  bits : ∀ a, bitAt s.1 a =
      (decide (64 * cand.off ≤ a ∧ a - 64 * cand.off ∈ (H.wCand r).filter (· < k))
        || bitAt eb a)

theorem heurLoad_spec (wf : WF H.g) (l : Lens H) {r : Nat} (hr : r < H.g.nVert) {cand : GBits}
    {eb : Mem} (hin : cand.off + dlen (H.g.V r).N ≤ eb.length) {ok : R → Bool} {k : Nat}
    (hk : k < (H.g.V r).N) (hok : ok (H.d (H.g.e r k)) = true ↔ k ∈ H.wCand r)
    {s : Mem × List (WData R) × Nat × Nat × R} (I : CollInv H r cand eb k s) :
    ∃ s', H.heurLoad (H.g.V r) cand ok k s = .ok s' ∧ CollInv H r cand eb (k + 1) s' := by
  obtain ⟨m, nb, j, left, cp⟩ := s
  obtain ⟨i1, i2, i3, i4, i5, i6⟩ := I
  simp only at i1 i2 i3 i4 i5 i6
  have hek := e_lt wf hr hk
  have hmax := wf.maxd r hr
  have hcl := wCand_card_lt wf hr
  have hjle : j ≤ (H.wCand r).card := by
    rw [i4]; exact Finset.card_filter_le _ _
  have hjl : j < nb.length := by rw [i2.len]; omega
  unfold heurLoad
  simp only
  rw [nbr_ok wf hr hk, ok_bind, wr_ok _ hjl, ok_bind, rd_deg l hek, ok_bind]
  by_cases hc : ok (H.d (H.g.e r k)) = true
  · rw [if_pos hc]
    have hm := hok.1 hc
    have hj1 : j + 1 < nb.length := by
      rw [i2.len]
      have : insert k ((H.wCand r).filter (· < k)) ⊆ H.wCand r := by
        intro x hx
        rcases Finset.mem_insert.1 hx with rfl | hx
        · exact hm
        · exact (Finset.mem_filter.1 hx).1
      have := Finset.card_le_card this
      rw [Finset.card_insert_of_notMem (by simp)] at this
      omega
    rw [vtx_ok wf hek, ok_bind, wr_ok _ (by simpa using hjl), ok_bind]
    obtain ⟨m', b1, b2, b3⟩ := cand.set_spec m k (by have := div_lt_dlen hk; omega)
    rw [b1, ok_bind]
    have hnb2 : NbOk H ((nb.set j ⟨H.g.e r k, 0, k, 0⟩).set j
        ⟨H.g.e r k, (H.g.V (H.g.e r k)).N, k, H.d (H.g.e r k)⟩) := (i2.set hek).set hek
    rw [rd_ok (by simpa using hj1), ok_bind,
      rd_wt l (hnb2.ids _ (List.getElem_mem _)), ok_bind]
    refine ⟨_, rfl, ⟨b2.trans i1, hnb2, ?_, ?_, ?_, ?_⟩⟩
    · simp only
      rw [take_set_succ _ _ _ (by simpa using hjl), take_set_ge, i3, nbOf_succ, if_pos hm]
    · simp only
      rw [filter_take hm, Finset.card_insert_of_notMem (by simp), i4]
    · simp only; rw [i5]
    · intro a
      simp only
      rw [b3, i6, filter_take hm, ← Bool.or_assoc]
      congr 1
      rw [← Bool.decide_or]
      apply decide_eq_decide.2
      simp only [Finset.mem_insert]
      constructor
      · rintro (h | h)
        · exact ⟨by omega, Or.inl (by omega)⟩
        · exact ⟨h.1, Or.inr h.2⟩
      · rintro ⟨h, h' | h'⟩
        · exact Or.inl (by omega)
        · exact Or.inr ⟨h, h'⟩
  · rw [if_neg hc]
    have hm : k ∉ H.wCand r := fun h => hc (hok.2 h)
    refine ⟨_, rfl, ⟨i1, i2.set hek, ?_, ?_, i5, ?_⟩⟩
    · simp only
      rw [take_set_ge, i3, nbOf_succ, if_neg hm, List.append_nil]
    · simp only
      rw [filter_skip hm]; exact i4
    · simp only
      rw [filter_skip hm]; exact i6

theorem heurCollect_spec (wf : WF H.g) (l : Lens H) {r : Nat} (hr : r < H.g.nVert) (cand : GBits)
    (eb : Mem) (hin : cand.off + dlen (H.g.V r).N ≤ eb.length) {nb : List (WData R)}
    (hnb : NbOk H nb) :
    ∃ eb' nb' j cp, H.heurCollect r (H.g.V r) cand eb nb
        = .ok (eb', nb', j, (H.wCand r).card, cp) ∧
      eb'.length = eb.length ∧ NbOk H nb' ∧
      nb'.take (H.wCand r).card = nbOf H r (H.g.V r).N ∧
      ∀ a, bitAt eb' a =
        (decide (64 * cand.off ≤ a ∧ a - 64 * cand.off ∈ H.wCand r) || bitAt eb a) := by
  have hsp := wf.spos r hr
  unfold heurCollect
  rw [rd_deg l hr, ok_bind]
  obtain ⟨s1, h1, h2⟩ := forRange_rule (lo := 0) (hi := (H.g.V r).spos)
    (s := ((eb, nb, 0, 0, 0) : Mem × List (WData R) × Nat × Nat × R))
    (body := H.heurLoad (H.g.V r) cand (fun dv => !decide (dv ≤ H.d r)))
    (CollInv H r cand eb) (Nat.zero_le _)
    ⟨rfl, hnb, by simp [nbOf], by simp, rfl, by simp⟩
    (by
      intro k s _ hk I
      refine heurLoad_spec wf l hr hin (by omega) ?_ I
      rw [mem_wCand', Bool.not_eq_true', decide_eq_false_iff_not]
      constructor
      · intro h; exact ⟨by omega, Or.inl ⟨hk, h⟩⟩
      · rintro ⟨_, h | h⟩
        · exact h.2
        · omega)
  rw [h1, ok_bind]
  have h3 : CollInv H r cand eb ((H.g.V r).spos + 1) s1 := by
    have hm : (H.g.V r).spos ∉ H.wCand r := by rw [mem_wCand']; omega
    obtain ⟨i1, i2, i3, i4, i5, i6⟩ := h2
    refine ⟨i1, i2, ?_, ?_, i5, ?_⟩
    · rw [i3, nbOf_succ, if_neg hm, List.append_nil]
    · rw [filter_skip hm]; exact i4
    · rw [filter_skip hm]; exact i6
  obtain ⟨⟨eb', nb', j, left, cp⟩, k1, k2⟩ := forRange_rule (lo := (H.g.V r).spos + 1)
    (hi := (H.g.V r).N) (s := s1)
    (body := H.heurLoad (H.g.V r) cand (fun dv => !decide (dv < H.d r)))
    (CollInv H r cand eb) (by omega) h3
    (by
      intro k s hlo hk I
      refine heurLoad_spec wf l hr hin hk ?_ I
      rw [mem_wCand', Bool.not_eq_true', decide_eq_false_iff_not]
      constructor
      · intro h; exact ⟨hk, Or.inr ⟨by omega, h⟩⟩
      · rintro ⟨_, h | h⟩
        · omega
        · exact h.2)
  have hall : (H.wCand r).filter (· < (H.g.V r).N) = H.wCand r := by
    ext x; simp only [Finset.mem_filter]
    exact ⟨fun h => h.1, fun h => ⟨h, (mem_wCand'.1 h).1⟩⟩
  obtain ⟨i1, i2, i3, i4, i5, i6⟩ := k2
  simp only at i1 i2 i3 i4 i5 i6
  rw [hall] at i4 i6
  rw [i5] at k1
  rw [i4] at k1 i3
  rw [k1]
  exact ⟨eb', nb', _, cp, rfl, i1, i2, i3, i6⟩

/-- The scan removes from the candidates what is not adjacent to `x`. -/
theorem heurScan_spec (wf : WF H.g) (l : Lens H) {r : Nat} (hr : r < H.g.nVert)
    {nb Rs : List (WData R)} {i : Nat}
    {x : WData R} {cand : GBits} {eb : Mem} {left : Nat} {cp : R}
    (hnb : ∀ y ∈ nb, y.pos < (H.g.V r).N ∧ y.id = H.g.e r y.pos) (hx : x ∈ nb)
    (hi : i < nb.length)
    (hin : cand.off + dlen (H.g.V r).N ≤ eb.length)
    (hleft : left = (bset eb ⟨cand.off, (H.g.V r).N⟩).card)
    (hidx : ∀ c ∈ bset eb ⟨cand.off, (H.g.V r).N⟩, ∃ k, i < k ∧ ∃ y, nb[k]? = some y ∧ y.pos = c) :
    ∃ eb' left' cp', H.heurScan (nb ++ Rs) nb.length i x cand (eb, left, cp)
        = .ok (eb', left', cp') ∧ eb'.length = eb.length ∧
      left' = (bset eb' ⟨cand.off, (H.g.V r).N⟩).card ∧
      bset eb' ⟨cand.off, (H.g.V r).N⟩ ⊆ bset eb ⟨cand.off, (H.g.V r).N⟩ ∧
      (∀ c ∈ bset eb' ⟨cand.off, (H.g.V r).N⟩, H.g.A r c x.pos) ∧
      ∀ a, ¬ (64 * cand.off ≤ a ∧ a < 64 * cand.off + (H.g.V r).N) → bitAt eb' a = bitAt eb a := by
  have hNb := N_lt wf hr
  unfold heurScan
  obtain ⟨⟨eb', left', cp'⟩, h1, h2, h3, h4, h5, h6⟩ := forRange_rule (lo := i + 1)
    (hi := nb.length)
    (s := (eb, left, cp))
    (body := fun j (s : Mem × Nat × R) => do
      let y ← rd (nb ++ Rs) j
      if ← cand.test s.1 y.pos then do
        let (f, _) ← H.g.findIfNeighbors y.id x.id
        if f then .ok s
        else do
          let eb ← cand.reset s.1 y.pos
          let w ← rd H.wt y.id
          .ok (eb, usub s.2.1 1, s.2.2 - w)
      else .ok s)
    (fun j s => s.1.length = eb.length ∧ s.2.1 = (bset s.1 ⟨cand.off, (H.g.V r).N⟩).card ∧
      bset s.1 ⟨cand.off, (H.g.V r).N⟩ ⊆ bset eb ⟨cand.off, (H.g.V r).N⟩ ∧
      (∀ c ∈ bset s.1 ⟨cand.off, (H.g.V r).N⟩, H.g.A r c x.pos ∨
        ∃ k, j ≤ k ∧ ∃ y, nb[k]? = some y ∧ y.pos = c) ∧
      ∀ a, ¬ (64 * cand.off ≤ a ∧ a < 64 * cand.off + (H.g.V r).N) → bitAt s.1 a = bitAt eb a)
    (by omega)
    ⟨rfl, hleft, Finset.Subset.refl _, fun c hc => Or.inr (hidx c hc), fun _ _ => rfl⟩
    (by
      rintro j ⟨m, lf, c0⟩ hlo hj ⟨a1, a2, a3, a4, a5⟩
      simp only at a1 a2 a3 a4 a5
      have hy : nb[j]? = some nb[j] := List.getElem?_eq_getElem hj
      rw [rd_append hj, ok_bind]
      generalize hyd : nb[j] = y at hy
      have hymem : y ∈ nb := hyd ▸ List.getElem_mem hj
      have hyp := hnb y hymem
      have hxp := hnb x hx
      simp only
      rw [cand.test_spec m y.pos (by have := div_lt_dlen hyp.1; omega), ok_bind]
      by_cases hb : bitAt m (64 * cand.off + y.pos) = true
      · rw [if_pos hb]
        have hyl : y.id < H.g.nVert := by rw [hyp.2]; exact e_lt wf hr hyp.1
        obtain ⟨f, loc, f1, f2⟩ := findIfNeighbors_spec wf (u := y.id) (v := x.id) hyl
        rw [f1, ok_bind]
        simp only
        have hmem : y.pos ∈ bset m ⟨cand.off, (H.g.V r).N⟩ := mem_bset.2 ⟨hyp.1, hb⟩
        by_cases hf : f = true
        · rw [if_pos hf]
          refine ⟨_, rfl, a1, a2, a3, ?_, a5⟩
          intro c hc
          rcases a4 c hc with h | ⟨k, hk, z, hz, hzc⟩
          · exact Or.inl h
          · by_cases hkj : k = j
            · left
              subst hkj
              rw [hy] at hz
              injection hz with hz
              rw [← hzc, ← hz]
              have := f2.1 hf
              rw [hyp.2, hxp.2] at this
              exact this
            · exact Or.inr ⟨k, by omega, z, hz, hzc⟩
        · rw [if_neg hf]
          obtain ⟨m', r1, r2, r3⟩ := cand.reset_spec m y.pos
            (by have := div_lt_dlen hyp.1; omega)
          rw [r1, ok_bind, rd_wt l hyl, ok_bind]
          have hset : bset m' ⟨cand.off, (H.g.V r).N⟩
              = (bset m ⟨cand.off, (H.g.V r).N⟩).erase y.pos := by
            ext c
            rw [Finset.mem_erase, mem_bset, mem_bset]
            simp only
            rw [r3]
            simp only [Bool.and_eq_true, Bool.not_eq_true', decide_eq_false_iff_not]
            constructor
            · rintro ⟨h1, h2, h3⟩; exact ⟨by omega, h1, h3⟩
            · rintro ⟨h1, h2, h3⟩; exact ⟨h2, by omega, h3⟩
          have hpos := Finset.card_pos.2 ⟨_, hmem⟩
          have hcN : (bset m ⟨cand.off, (H.g.V r).N⟩).card ≤ (H.g.V r).N := by
            have : bset m ⟨cand.off, (H.g.V r).N⟩ ⊆ Finset.range (H.g.V r).N := by
              intro c hc; rw [Finset.mem_range]; exact (mem_bset.1 hc).1
            simpa using Finset.card_le_card this
          refine ⟨_, rfl, r2.trans a1, ?_, ?_, ?_, ?_⟩
          · simp only
            rw [hset, Finset.card_erase_of_mem hmem, a2, usub_eq (by omega) (by omega)]
          · simp only
            rw [hset]
            exact fun c hc => a3 (Finset.mem_of_mem_erase hc)
          · simp only
            rw [hset]
            intro c hc
            rw [Finset.mem_erase] at hc
            rcases a4 c hc.2 with h | ⟨k, hk, z, hz, hzc⟩
            · exact Or.inl h
            · refine Or.inr ⟨k, ?_, z, hz, hzc⟩
              by_contra hlt
              have : k = j := by omega
              subst this
              rw [hy] at hz
              injection hz with hz
              exact hc.1 (by rw [← hzc, ← hz])
          · intro a ha
            simp only
            rw [r3, a5 a ha]
            have : ¬ (a = 64 * cand.off + y.pos) := by have := hyp.1; omega
            simp [this]
      · rw [if_neg hb]
        refine ⟨_, rfl, a1, a2, a3, ?_, a5⟩
        intro c hc
        rcases a4 c hc with h | ⟨k, hk, z, hz, hzc⟩
        · exact Or.inl h
        · refine Or.inr ⟨k, ?_, z, hz, hzc⟩
          by_contra hlt
          have : k = j := by omega
          subst this
          rw [hy] at hz
          injection hz with hz
          exact hb (by rw [hz, hzc]; exact (mem_bset.1 hc).2))
  simp only at h2 h3 h4 h5 h6
  refine ⟨eb', left', cp', h1, h2, h3, h4, ?_, h6⟩
  intro c hc
  rcases h5 c hc with h | ⟨k, hk, y, hy, _⟩
  · exact h
  · have := (List.getElem?_eq_some_iff.1 hy).1
    omega

/-- Invariant of the greedy loop of the heuristic. -/
structure HInv (H0 : NWG R) (r B q : Nat) (nb : List (WData R)) (s : NWG R × Nat × R × Nat × R) :
    Prop where
  upd : WUpd r B H0 s.1
  sc : s.1.g.searchCur = H0.g.searchCur
  mcs : s.1.mcs = H0.mcs
  above : ∀ a, 64 * (B + 2 * q) ≤ a → bitAt s.1.g.eb a = bitAt H0.g.eb a
  cl : IsCl H0.g r (bset s.1.g.eb ⟨B, (H0.g.V r).N⟩)
  padr : PadZero s.1.g.eb ⟨B, (H0.g.V r).N⟩
  left : s.2.2.2.1 = (bset s.1.g.eb ⟨B + q, (H0.g.V r).N⟩).card
  adj : ∀ c ∈ bset s.1.g.eb ⟨B + q, (H0.g.V r).N⟩, c ∉ bset s.1.g.eb ⟨B, (H0.g.V r).N⟩ ∧
    (∀ t ∈ bset s.1.g.eb ⟨B, (H0.g.V r).N⟩, H0.g.A r t c) ∧
    ∃ k, s.2.1 ≤ k ∧ ∃ y, nb[k]? = some y ∧ y.pos = c

/-- What the heuristic leaves behind after one vertex. -/
structure HDone (r B q : Nat) (H0 H : NWG R) : Prop where
  upd : WUpd r B H0 H
  sc : H.g.searchCur = H0.g.searchCur
  mcs : H.mcs = H0.mcs
  above : ∀ a, 64 * (B + 2 * q) ≤ a → bitAt H.g.eb a = bitAt H0.g.eb a

theorem HInv.done {H0 : NWG R} {r B q : Nat} {nb : List (WData R)} {s : NWG R × Nat × R × Nat × R}
    (h : HInv H0 r B q nb s) : HDone r B q H0 s.1 := ⟨h.upd, h.sc, h.mcs, h.above⟩

theorem heurGrow_spec {H0 : NWG R} (w : WF H0.g) (l : Lens H0) {r B q M : Nat}
    (hr : r < H0.g.nVert)
    (hB : H0.g.ebSize < B) (hq : dlen (H0.g.V r).N ≤ q) (hlen : B + 2 * q ≤ H0.g.eb.length)
    {nb Rs : List (WData R)} (hnb : ∀ y ∈ nb, y.pos < (H0.g.V r).N ∧ y.id = H0.g.e r y.pos)
    {s : NWG R × Nat × R × Nat × R} (I : HInv H0 r B q nb s) (hi : s.2.1 ≤ nb.length) :
    (∃ s', heurGrow r (H0.g.V r) (nb ++ Rs) nb.length ⟨B, M⟩ ⟨B + q, M⟩ s = .ok (.inl s') ∧
      (HInv H0 r B q nb s' ∧ s'.2.1 ≤ nb.length) ∧ nb.length - s'.2.1 < nb.length - s.2.1) ∨
    (∃ H', heurGrow r (H0.g.V r) (nb ++ Rs) nb.length ⟨B, M⟩ ⟨B + q, M⟩ s = .ok (.inr H') ∧
      HDone r B q H0 H') := by
  obtain ⟨H, i, cw, left, cp⟩ := s
  have WFr : WFrame H0 H := I.upd.frame
  have F : Frame H0.g H.g := WFr.frame
  have hebl : H.g.eb.length = H0.g.eb.length := F.ebl
  have hdl := @dlen_le (H0.g.V r).N
  have hNb := N_lt w hr
  unfold heurGrow
  simp only at hi ⊢
  by_cases hin : i < nb.length
  swap
  · rw [if_neg hin]
    exact Or.inr ⟨_, rfl, I.done⟩
  rw [if_pos hin, rd_append hin, ok_bind]
  have hx? : nb[i]? = some nb[i] := List.getElem?_eq_getElem hin
  generalize hxd : nb[i] = x at hx?
  have hxm : x ∈ nb := hxd ▸ List.getElem_mem hin
  have hx := hnb x hxm
  have hdx := div_lt_dlen hx.1
  rw [GBits.test_spec ⟨B + q, M⟩ H.g.eb x.pos (by simp only; omega), ok_bind]
  simp only
  by_cases hb : bitAt H.g.eb (64 * (B + q) + x.pos) = true
  swap
  · rw [if_neg hb]
    refine Or.inl ⟨_, rfl, ⟨⟨I.upd, I.sc, I.mcs, I.above, I.cl, I.padr, I.left, ?_⟩,
      by simp only; omega⟩, by simp only; omega⟩
    intro c hc
    obtain ⟨c1, c2, k, hk, y, hy, hyc⟩ := I.adj c hc
    refine ⟨c1, c2, k, ?_, y, hy, hyc⟩
    simp only at hk ⊢
    by_contra hlt
    have : k = i := by omega
    subst this
    rw [hx?] at hy
    injection hy with hy
    exact hb (by rw [hy, hyc]; exact (mem_bset.1 hc).2)
  rw [if_pos hb]
  have hxC : x.pos ∈ bset H.g.eb ⟨B + q, (H0.g.V r).N⟩ := mem_bset.2 ⟨hx.1, hb⟩
  obtain ⟨m1, a1, a2, a3⟩ := GBits.set_spec ⟨B, M⟩ H.g.eb x.pos (by simp only; omega)
  rw [a1, ok_bind]
  have hxl : x.id < H.g.nVert := by rw [F.nVert, hx.2]; exact e_lt w hr hx.1
  rw [rd_wt (WFr.lens l) hxl, ok_bind]
  have hwx : H.w x.id = H0.we r x.pos := by rw [WFr.w, hx.2]; rfl
  rw [hwx]
  obtain ⟨m2, b1, b2, b3⟩ := GBits.reset_spec ⟨B + q, M⟩ m1 x.pos (by simp only; omega)
  rw [b1, ok_bind]
  simp only at a3 b3 ⊢
  have hR : bset m2 ⟨B, (H0.g.V r).N⟩ = insert x.pos (bset H.g.eb ⟨B, (H0.g.V r).N⟩) := by
    ext c
    rw [Finset.mem_insert, mem_bset, mem_bset]
    simp only
    rw [b3, a3]
    constructor
    · rintro ⟨h1, h2⟩
      simp only [Bool.and_eq_true, Bool.or_eq_true, decide_eq_true_eq] at h2
      rcases h2.2 with h | h
      · left; omega
      · exact Or.inr ⟨h1, h⟩
    · have hne : ∀ c, c < (H0.g.V r).N → ¬ (64 * B + c = 64 * (B + q) + x.pos) := by
        intro c hc; omega
      rintro (h | ⟨h1, h2⟩)
      · subst h
        refine ⟨hx.1, ?_⟩
        rw [decide_eq_false (hne _ hx.1)]; simp
      · refine ⟨h1, ?_⟩
        simp [hne _ h1, h2]
  have hC : bset m2 ⟨B + q, (H0.g.V r).N⟩ = (bset H.g.eb ⟨B + q, (H0.g.V r).N⟩).erase x.pos := by
    ext c
    rw [Finset.mem_erase, mem_bset, mem_bset]
    simp only
    rw [b3, a3]
    constructor
    · rintro ⟨h1, h2⟩
      simp only [Bool.and_eq_true, Bool.or_eq_true, decide_eq_true_eq, Bool.not_eq_true',
        decide_eq_false_iff_not] at h2
      rcases h2.2 with h | h
      · omega
      · exact ⟨by omega, h1, h⟩
    · rintro ⟨h1, h2, h3⟩
      refine ⟨h2, ?_⟩
      have : ¬ (64 * (B + q) + c = 64 * (B + q) + x.pos) := by omega
      rw [decide_eq_false this, h3]; simp
  have hlpos : 0 < left := by
    have := I.left
    simp only at this
    rw [this]; exact Finset.card_pos.2 ⟨_, hxC⟩
  have hleftN : left ≤ (H0.g.V r).N := by
    have := I.left
    simp only at this
    rw [this]
    have : bset H.g.eb ⟨B + q, (H0.g.V r).N⟩ ⊆ Finset.range (H0.g.V r).N := by
      intro c hc; rw [Finset.mem_range]; exact (mem_bset.1 hc).1
    simpa using Finset.card_le_card this
  rw [usub_eq (by omega : 1 ≤ left) (by omega)]
  obtain ⟨xa, xb, _⟩ := I.adj x.pos hxC
  have wG := F.wf w
  obtain ⟨m3, left3, cp3, c1, c2, c3, c4, c5, c6⟩ := heurScan_spec (H := H) wG (WFr.lens l) (r := r)
    (nb := nb) (Rs := Rs)
    (i := i) (x := x) (cand := ⟨B + q, M⟩) (eb := m2) (left := left - 1)
    (cp := cp - H0.we r x.pos)
    (by rw [F.nVert]; exact hr) (by intro y hy; rw [F.N, F.e]; exact hnb y hy) hxm hin
    (by rw [F.N]; simp only; omega)
    (by
      rw [F.N]; simp only
      rw [hC, Finset.card_erase_of_mem hxC]
      have := I.left
      simp only at this
      omega)
    (by
      rw [F.N]; simp only
      rw [hC]
      intro c hc
      rw [Finset.mem_erase] at hc
      obtain ⟨_, _, k, hk, y, hy, hyc⟩ := I.adj c hc.2
      simp only at hk
      refine ⟨k, ?_, y, hy, hyc⟩
      by_contra hlt
      have : k = i := by omega
      subst this
      rw [hx?] at hy
      injection hy with hy
      exact hc.1 (by rw [← hyc, hy]))
  rw [F.N] at c3 c4 c5 c6
  simp only at c3 c4 c5 c6
  rw [c1, ok_bind]
  simp only
  have hR3 : bset m3 ⟨B, (H0.g.V r).N⟩ = insert x.pos (bset H.g.eb ⟨B, (H0.g.V r).N⟩) := by
    rw [← hR]
    apply bset_congr rfl
    intro c hc
    simp only at hc ⊢
    exact c6 _ (by omega)
  have hbits : ∀ a, a < 64 * B ∨ 64 * (B + 2 * q) ≤ a → bitAt m3 a = bitAt H.g.eb a := by
    intro a ha
    rw [c6 a (by omega), b3, a3]
    have h1 : ¬ (a = 64 * (B + q) + x.pos) := by omega
    have h2 : ¬ (a = 64 * B + x.pos) := by omega
    simp [h1, h2]
  have hebo := w.eboEnd r hr
  have hl3 : m3.length = H.g.eb.length := c2.trans (b2.trans a2)
  have U3 : WUpd r B H0 { H with g := { H.g with eb := m3 } } :=
    I.upd.scratch (by omega) m3 H.g.searchCur hl3 (fun a ha => hbits a (Or.inl ha))
  have hcl3 : IsCl H0.g r (bset m3 ⟨B, (H0.g.V r).N⟩) := by
    rw [hR3]
    obtain ⟨k1, k2, k3⟩ := I.cl
    refine ⟨Finset.mem_insert_of_mem k1, ?_, ?_⟩
    · intro c hc
      rcases Finset.mem_insert.1 hc with rfl | hc
      · exact hx.1
      · exact k2 c hc
    · intro c hc d hd
      rcases Finset.mem_insert.1 hc with hc | hc <;> rcases Finset.mem_insert.1 hd with hd | hd
      · rw [hc, hd]; exact A_refl w hr hx.1
      · rw [hc]; exact A_symm w hr (k2 d hd) (xb d hd)
      · rw [hd]; exact xb c hc
      · exact k3 c hc d hd
  have hpad3 : PadZero m3 ⟨B, (H0.g.V r).N⟩ := by
    intro j h1 h2
    simp only at h1 h2 ⊢
    rw [c6 _ (by omega), b3, a3]
    have e1 : ¬ (64 * B + j = 64 * (B + q) + x.pos) := by omega
    have e2 : ¬ (64 * B + j = 64 * B + x.pos) := by have := hx.1; omega
    simp only [e1, e2, decide_false, Bool.not_false, Bool.true_and, Bool.false_or]
    exact I.padr j h1 h2
  have hab3 : ∀ a, 64 * (B + 2 * q) ≤ a → bitAt m3 a = bitAt H0.g.eb a := by
    intro a ha
    rw [hbits a (Or.inr ha)]; exact I.above a ha
  by_cases hpot : cw + H0.we r x.pos + cp3 ≤ H.curMax
  · rw [if_pos hpot]
    exact Or.inr ⟨_, rfl, U3, I.sc, I.mcs, hab3⟩
  rw [if_neg hpot]
  by_cases hl0 : left3 = 0
  · rw [if_pos hl0]
    obtain ⟨m4, v1, v2, v3, v4, v5⟩ := store_spec w hr U3 hB (res := ⟨B, M⟩)
      (size := cw + H0.we r x.pos) (Nat.le_refl _) (by simp only; omega)
      (fun j h1 h2 => hpad3 j h1 h2) hcl3
    simp only at v1 v3
    rw [v3, ok_bind, v1, ok_bind]
    have hmr : H.mcs.getD r 0 = H0.mc r := by
      unfold mc
      rw [show H.mcs = H0.mcs from I.mcs]
    refine Or.inr ⟨_, rfl, v5 H.mcs rfl (fun v _ => rfl) (Or.inl hmr), I.sc, I.mcs, ?_⟩
    intro a ha
    show bitAt m4 a = _
    rw [v4 a (by omega)]; exact hab3 a ha
  · rw [if_neg hl0]
    refine Or.inl ⟨_, rfl, ⟨⟨U3, I.sc, I.mcs, hab3, hcl3, hpad3, c3, ?_⟩,
      by simp only; omega⟩, by simp only; omega⟩
    intro c hc
    simp only at hc ⊢
    have hc2 := c4 hc
    rw [hC, Finset.mem_erase] at hc2
    obtain ⟨d1, d2, k, hk, y, hy, hyc⟩ := I.adj c hc2.2
    simp only at hk d1 d2
    have hcN := (mem_bset.1 hc).1
    have hA := c5 c hc
    have hA' : H0.g.A r c x.pos := by
      unfold A at hA ⊢
      rwa [F.nadj, F.e, F.e] at hA
    refine ⟨?_, ?_, k, ?_, y, hy, hyc⟩
    · rw [hR3, Finset.mem_insert]
      rintro (h | h)
      · exact hc2.1 h
      · exact d1 h
    · rw [hR3]
      intro t ht
      rcases Finset.mem_insert.1 ht with ht | ht
      · rw [ht]; exact A_symm w hr hcN hA'
      · exact d2 t ht
    · by_contra hlt
      have : k = i := by omega
      subst this
      rw [hx?] at hy
      injection hy with hy
      exact hc2.1 (by rw [← hyc, hy])

theorem heurVertex_spec {srt : List (WData R) → List (WData R)} (hsrt : ∀ l, (srt l).Perm l)
    {H0 : NWG R} (w : WF H0.g) (l : Lens H0) {r B : Nat} (hr : r < H0.g.nVert)
    (hB : H0.g.ebSize < B) (hlen : B + 2 * dlen H0.g.maxDeg ≤ H0.g.eb.length)
    (hpad : PadZero H0.g.eb (H0.g.vb r)) {nb : List (WData R)} (hnb : NbOk H0 nb) :
    ∃ H' nb', heurVertex srt (H0, nb) r ⟨B, H0.g.maxDeg⟩
        ⟨B + dlen H0.g.maxDeg, H0.g.maxDeg⟩ = .ok (H', nb') ∧
      HDone r B (dlen H0.g.maxDeg) H0 H' ∧ NbOk H0 nb' := by
  have hmax := w.maxd r hr
  have hq := dlen_mono hmax
  have hNpos := N_pos w hr
  have hsp := w.spos r hr
  have hdl := @dlen_le (H0.g.V r).N
  have hebo := w.eboEnd r hr
  unfold heurVertex
  simp only
  rw [vtx_ok w hr, ok_bind]
  obtain ⟨m1, w1, a1, a2, a3, _, _, a6, a7⟩ := GBits.clear_spec ⟨B, H0.g.maxDeg⟩ H0.g.eb
    (H0.g.V r).N (by simp only; omega)
  rw [a1, ok_bind]
  obtain ⟨m2, w2, b1, b2, b3, _, _, b6, b7⟩ := GBits.clear_spec
    ⟨B + dlen H0.g.maxDeg, H0.g.maxDeg⟩ m1 (H0.g.V r).N (by simp only; omega)
  rw [b1, ok_bind]
  obtain ⟨m3, c1, c2, c3⟩ := GBits.set_spec ⟨B, H0.g.maxDeg⟩ m2 (H0.g.V r).spos
    (by have := div_lt_dlen hsp; simp only; omega)
  rw [c1, ok_bind, rd_wt l hr, ok_bind]
  obtain ⟨m4, nb4, jj, cp4, d1, d2, dn, dt, d3⟩ := heurCollect_spec w l hr
    ⟨B + dlen H0.g.maxDeg, H0.g.maxDeg⟩ m3 (by simp only; omega) hnb
  rw [d1, ok_bind]
  simp only at a3 a6 a7 b3 b6 b7 c3 d3 ⊢
  replace a6 := a6 hmax
  replace b6 := b6 hmax
  generalize hqd : dlen H0.g.maxDeg = q at *
  have hout : ∀ a, a < 64 * B ∨ 64 * (B + 2 * q) ≤ a → bitAt m4 a = bitAt H0.g.eb a := by
    intro a ha
    have h1 : ¬ (64 * (B + q) ≤ a ∧ a - 64 * (B + q) ∈ H0.wCand r) := by
      rintro ⟨h1, h2⟩
      have := (mem_wCand'.1 h2).1
      omega
    have h2 : ¬ (a = 64 * B + (H0.g.V r).spos) := by omega
    rw [d3, c3, b7, if_neg (by omega), a7, if_neg (by omega)]
    simp [h1, h2]
  have hres : ∀ i, i < 64 * dlen (H0.g.V r).N →
      bitAt m4 (64 * B + i) = decide (i = (H0.g.V r).spos) := by
    intro i hi
    have h1 : ¬ (64 * (B + q) ≤ 64 * B + i ∧ 64 * B + i - 64 * (B + q) ∈ H0.wCand r) := by
      omega
    rw [d3, c3, b7, if_neg (by omega), a7, if_pos (by omega), Bool.or_false]
    rw [decide_eq_false h1, Bool.false_or]
    apply decide_eq_decide.2; omega
  have hcand : ∀ i, i < 64 * dlen (H0.g.V r).N →
      bitAt m4 (64 * (B + q) + i) = decide (i ∈ H0.wCand r) := by
    intro i hi
    have h2 : ¬ (64 * (B + q) + i = 64 * B + (H0.g.V r).spos) := by omega
    rw [d3, c3, b7, if_pos (by omega), decide_eq_false h2]
    have h3 : 64 * (B + q) + i - 64 * (B + q) = i := by omega
    rw [h3]
    have h4 : 64 * (B + q) ≤ 64 * (B + q) + i := by omega
    simp [h4]
  have hl4 : m4.length = H0.g.eb.length := by rw [d2, c2, b2, a2]
  have U4 : WUpd r B H0 { H0 with g := { H0.g with eb := m4 } } :=
    (WUpd.refl hpad).scratch (by omega) m4 H0.g.searchCur hl4 (fun a ha => hout a (Or.inl ha))
  by_cases hc : ((H0.wCand r).card : R) ≤ H0.curMax
  · rw [if_pos hc]
    exact ⟨_, _, rfl, ⟨U4, rfl, rfl, fun a ha => hout a (Or.inr ha)⟩, dn⟩
  rw [if_neg hc]
  have hperm := hsrt (nb4.take (H0.wCand r).card)
  have hcl := wCand_card_lt w hr
  have hslen : (srt (nb4.take (H0.wCand r).card)).length = (H0.wCand r).card := by
    rw [hperm.length_eq, List.length_take, dn.len]; omega
  generalize hsd : srt (nb4.take (H0.wCand r).card) = L at hperm hslen
  generalize hdd : nb4.drop (H0.wCand r).card = Rs
  have hnbL : NbOk H0 (L ++ Rs) := by
    refine ⟨?_, ?_⟩
    · rw [List.length_append, hslen, ← hdd, List.length_drop, dn.len]; omega
    · intro y hy
      rcases List.mem_append.1 hy with hy | hy
      · exact dn.ids y (List.mem_of_mem_take (hperm.mem_iff.1 hy))
      · rw [← hdd] at hy; exact dn.ids y (List.mem_of_mem_drop hy)
  rw [dt] at hperm
  have hnbp : ∀ y ∈ L, y.pos < (H0.g.V r).N ∧ y.id = H0.g.e r y.pos := by
    intro y hy
    obtain ⟨h1, h2⟩ := mem_nbOf (hperm.mem_iff.1 hy)
    exact ⟨(mem_wCand'.1 h1).1, h2⟩
  have hRset : bset m4 ⟨B, (H0.g.V r).N⟩ = {(H0.g.V r).spos} := by
    ext c
    rw [mem_bset, Finset.mem_singleton]
    simp only
    constructor
    · rintro ⟨h1, h2⟩
      rw [hres c (by omega)] at h2
      simpa using h2
    · rintro rfl
      refine ⟨hsp, ?_⟩
      rw [hres _ (by omega)]; simp
  have hCset : bset m4 ⟨B + q, (H0.g.V r).N⟩ = H0.wCand r := by
    ext c
    rw [mem_bset]
    simp only
    constructor
    · rintro ⟨h1, h2⟩
      rw [hcand c (by omega)] at h2
      simpa using h2
    · intro h
      have := (mem_wCand'.1 h).1
      refine ⟨this, ?_⟩
      rw [hcand _ (by omega)]; simpa using h
  obtain ⟨H', l1, l2⟩ := loop_rule
    (body := heurGrow r (H0.g.V r) (L ++ Rs) L.length ⟨B, H0.g.maxDeg⟩ ⟨B + q, H0.g.maxDeg⟩)
    (fun s => HInv H0 r B q L s ∧ s.2.1 ≤ L.length)
    (HDone r B q H0)
    (fun s => L.length - s.2.1)
    (fun s hs => heurGrow_spec w l hr hB hq hlen hnbp hs.1 hs.2)
    (s := ({ H0 with g := { H0.g with eb := m4 } }, 0, H0.w r, (H0.wCand r).card, cp4))
    (fuel := L.length + 1)
    ⟨⟨U4, rfl, rfl, fun a ha => hout a (Or.inr ha), by
        show IsCl H0.g r (bset m4 _)
        rw [hRset]
        refine ⟨by simp, ?_, ?_⟩
        · intro i hi; rw [Finset.mem_singleton.1 hi]; exact hsp
        · intro i hi j hj
          rw [Finset.mem_singleton.1 hi, Finset.mem_singleton.1 hj]
          exact A_refl w hr hsp, by
        intro i h1 h2
        show bitAt m4 _ = false
        simp only at h1 h2 ⊢
        rw [hres i h2]
        simp only [decide_eq_false_iff_not]; omega, by
        show _ = (bset m4 _).card
        rw [hCset], by
        show ∀ c ∈ bset m4 ⟨B + q, (H0.g.V r).N⟩, c ∉ bset m4 _ ∧ (∀ t ∈ bset m4 _, _) ∧ _
        rw [hCset, hRset]
        intro c hc
        have hc' := mem_wCand'.1 hc
        refine ⟨by simp; omega, ?_, ?_⟩
        · intro t ht
          rw [Finset.mem_singleton.1 ht]
          exact A_spos w hr hc'.1
        · obtain ⟨y, hy, hyc⟩ := nbOf_mem (H := H0) hc hc'.1
          have hy' := hperm.mem_iff.2 hy
          obtain ⟨k, hk⟩ := List.getElem?_of_mem hy'
          exact ⟨k, Nat.zero_le _, y, hk, hyc⟩⟩,
      by simp only; omega⟩
    (by simp only; omega)
  rw [hslen] at l1
  rw [l1, ok_bind]
  exact ⟨H', _, rfl, l2, hnbL⟩

/-- A graph object in the middle of the heuristic: with the two scratch windows wiped
it satisfies the invariant. -/
structure HMid (b : Nat) (H X Y : NWG R) : Prop where
  ok : WOkAt b Y
  imp : WImpAt b H Y
  mcs : Y.mcs = H.mcs
  eq : Y = { X with g := { X.g with searchCur := b, eb := Y.g.eb } }
  len : Y.g.eb.length = X.g.eb.length
  sc : X.g.searchCur = b + 2 * dlen H.g.maxDeg
  bits : ∀ a, bitAt Y.g.eb a =
    (if 64 * b ≤ a ∧ a < 64 * (b + 2 * dlen H.g.maxDeg) then false
      else bitAt X.g.eb a)

theorem HMid.frame {b : Nat} {H X Y : NWG R} (h : HMid b H X Y) : WFrame Y X := by
  rw [h.eq]
  exact ⟨⟨rfl, rfl, fun _ => ⟨rfl, rfl, rfl, rfl⟩, h.len.symm, rfl, rfl, rfl, rfl, rfl, rfl⟩,
    rfl, rfl, rfl, rfl, rfl, rfl⟩

theorem HMid.step {srt : List (WData R) → List (WData R)} (hsrt : ∀ l, (srt l).Perm l)
    {b : Nat} {H X Y : NWG R} (h : HMid b H X Y) {r : Nat} (hr : r < H.g.nVert) {nb : List (WData R)}
    (hnb : NbOk X nb) :
    ∃ X' nb' Y', heurVertex srt (X, nb) r ⟨b, H.g.maxDeg⟩
        ⟨b + dlen H.g.maxDeg, H.g.maxDeg⟩ = .ok (X', nb') ∧ HMid b H X' Y' ∧
      X'.g.nVert = X.g.nVert ∧ NbOk X' nb' := by
  have FY := h.imp.frame
  have hY := h.ok
  have FXY : WFrame Y X := h.frame
  have FX := FY.trans FXY
  have wX : WF X.g := FXY.frame.wf hY.ok.wf
  have hrX : r < X.g.nVert := by rw [FX.frame.nVert]; exact hr
  have hst := hY.ok.bot
  rw [← FXY.frame.ebSize] at hst
  obtain ⟨L, _, hL⟩ := hY.ok.room
  rw [FY.frame.maxDeg, ← FXY.frame.ebl] at hL
  have hLq : 2 * dlen H.g.maxDeg ≤ (L + 2) * dlen H.g.maxDeg :=
    Nat.mul_le_mul_right _ (by omega)
  have hE := wX.eboEnd r hrX
  have hbl : ∀ a, a < 64 * b → bitAt Y.g.eb a = bitAt X.g.eb a := by
    intro a ha; rw [h.bits, if_neg (by omega)]
  have hpad : PadZero X.g.eb (X.g.vb r) := by
    have := hY.ok.pad r (by rw [FY.frame.nVert]; exact hr)
    intro i h1 h2
    have h3 := this i (by rw [← FXY.frame.vb]; exact h1) (by rw [← FXY.frame.vb]; exact h2)
    rw [← FXY.frame.vb, hbl _ (by simp only [vb] at h2 ⊢; omega)] at h3
    exact h3
  have hv := heurVertex_spec hsrt wX (FXY.lens hY.l) (r := r) (B := b) hrX hst
    (by rw [FX.frame.maxDeg]; omega) hpad hnb
  rw [FX.frame.maxDeg] at hv
  obtain ⟨X', nb', a1, a2, a3⟩ := hv
  obtain ⟨eb', b1, b2, b3⟩ := zeroRange_spec X'.g.eb b (2 * dlen H.g.maxDeg)
    (by rw [a2.upd.frame.frame.ebl]; omega)
  have U := a2.upd
  refine ⟨X', nb', { X' with g := { X'.g with searchCur := b, eb := eb' } }, a1, ?_,
    U.frame.frame.nVert,
    ⟨by rw [U.frame.frame.maxDeg]; exact a3.len, by rw [U.frame.frame.nVert]; exact a3.ids⟩⟩
  have hb' : ∀ a, a < 64 * b → bitAt eb' a = bitAt X'.g.eb a := by
    intro a ha; rw [b3, if_neg (by omega)]
  have hwin : bset eb' (X.g.vb r) = bset X'.g.eb (X.g.vb r) := by
    apply bset_congr rfl
    intro i hi
    have := @dlen_le (X.g.V r).N
    simp only [vb] at hi ⊢
    exact hb' _ (by omega)
  have hYc : Y.g.searchCur = b := by rw [h.eq]
  have hcm : Y.curMax = X.curMax ∧ Y.curLoc = X.curLoc ∧ Y.limit = X.limit ∧ Y.mcs = X.mcs := by
    rw [h.eq]; exact ⟨rfl, rfl, rfl, rfl⟩
  have hmc : ∀ v, Y.mc v = X.mc v := by intro v; unfold mc; rw [hcm.2.2.2]
  have FR : WFrame Y { X' with g := { X'.g with searchCur := b, eb := eb' } } :=
    (FXY.trans U.frame).trans
      (WFrame.mk' X' eb' b X'.limit X'.curMax X'.curLoc b2)
  have hd : VDone r Y { X' with g := { X'.g with searchCur := b, eb := eb' } } := by
    refine ⟨⟨FR, ?_, ?_, ?_, ?_, ?_⟩, by rw [hYc], ?_⟩
    · rw [hcm.2.2.1]; exact U.lim
    · intro v hv; rw [hmc]; exact U.other v hv
    · intro a ha hna
      rw [hYc] at ha
      rw [← FXY.V] at hna
      show bitAt eb' a = _
      rw [hb' a ha, hbl a ha]
      exact U.out a ha hna
    · have hp := U.pad
      rw [← FXY.frame.vb]
      intro i h1 h2
      show bitAt eb' _ = _
      rw [hb' _ (by simp only [vb] at h2 ⊢; omega)]
      exact hp i h1 h2
    · rw [← FXY.frame.vb, ← FXY.frame.isCl, hYc]
      show ((∀ a, a < 64 * b → bitAt eb' a = bitAt Y.g.eb a) ∧ X'.curMax = Y.curMax ∧
        X'.curLoc = Y.curLoc ∧ X'.mc r = Y.mc r) ∨ (IsCl X.g r (bset eb' (X.g.vb r)) ∧
        X'.curLoc = r ∧
        (X'.mc r = Y.mc r ∨ X'.mc r = X'.curMax))
      rw [hcm.1, hcm.2.1, hwin, hmc]
      rcases U.res with ⟨h1, h2⟩ | h1
      · refine Or.inl ⟨?_, h2⟩
        intro a ha
        rw [hb' a ha, hbl a ha]; exact h1 a ha
      · exact Or.inr h1
    · intro a ha
      rw [hYc] at ha
      show bitAt eb' a = false
      rw [b3]
      split
      · rfl
      · rename_i hn
        rw [a2.above a (by omega)]
        have h3 := h.bits a
        rw [if_neg hn] at h3
        rw [← h3]
        exact hY.ok.zero a ha
  obtain ⟨o1, i1⟩ := hd.okAt hY (by rw [FY.frame.nVert]; exact hr)
  refine ⟨o1, h.imp.trans i1, ?_, rfl, b2, a2.sc.trans h.sc, b3⟩
  show X'.mcs = _
  rw [← h.mcs, hcm.2.2.2, a2.mcs]

/-- The weighted heuristic keeps the invariant, records the weight of what it stores and never
touches the per-vertex bounds. -/
theorem heurGraph_at {srt : List (WData R) → List (WData R)} (hsrt : ∀ l, (srt l).Perm l)
    {b : Nat} (h : WOkAt b H) :
    ∃ H', H.heurGraph srt = .ok H' ∧ WOkAt b H' ∧ WImpAt b H H' ∧ H'.mcs = H.mcs := by
  have w := h.ok.wf
  obtain ⟨L, _, hL⟩ := h.ok.room
  have hbl := w.eblen
  have hLq : 2 * dlen H.g.maxDeg ≤ (L + 2) * dlen H.g.maxDeg :=
    Nat.mul_le_mul_right _ (by omega)
  have hs := h.ok.cur
  unfold heurGraph
  simp only
  rw [loadMemory_eq (G := H.g) _ (by omega)]
  simp only
  rw [loadMemory_eq (G := { H.g with searchCur := H.g.searchCur + dlen H.g.maxDeg }) _
    (by simp only; omega)]
  simp only
  rw [hs]
  have hm0 : HMid b H { H with g := { H.g with
      searchCur := b + dlen H.g.maxDeg + dlen H.g.maxDeg } } H := by
    refine ⟨h, WImpAt.refl b H, rfl, ?_, rfl, by simp only; omega, ?_⟩
    · show H = { H with g := { H.g with searchCur := b } }
      have : ∀ n, n = H.g.searchCur → H = { H with g := { H.g with searchCur := n } } := by
        rintro n rfl; rfl
      exact this _ hs.symm
    · intro a
      simp only
      split
      · exact h.ok.zero a (by omega)
      · rfl
  obtain ⟨X1, nb1, Y1, a1, a2, a3, a4⟩ := hm0.step hsrt h.loc
    (nb := List.replicate H.g.maxDeg { id := 0, N := 0, pos := 0, degree := 0 })
    ⟨by simp, by
      intro y hy
      rw [List.eq_of_mem_replicate hy]
      exact w.npos⟩
  rw [a1, ok_bind]
  obtain ⟨X2, b1, Y2, b2⟩ := loop_rule
    (body := fun (s : (NWG R × List (WData R)) × Nat) => do
      let ((H', nb), i) := s
      if i < H'.g.nVert ∧ H'.curMax < H'.limit then do
        let m ← rd H'.mcs i
        if m ≤ H'.curMax then .ok (.inl ((H', nb), i + 1))
        else do
          let s ← heurVertex srt (H', nb) i ⟨b, H.g.maxDeg⟩
            ⟨b + dlen H.g.maxDeg, H.g.maxDeg⟩
          .ok (.inl (s, i + 1))
      else .ok (.inr H'))
    (fun s => (∃ Y, HMid b H s.1.1 Y) ∧ NbOk s.1.1 s.1.2 ∧ s.2 ≤ H.g.nVert)
    (fun X => ∃ Y, HMid b H X Y)
    (fun s => H.g.nVert - s.2)
    (by
      rintro ⟨⟨X, nb⟩, i⟩ ⟨⟨Y, hY⟩, hnb, hi⟩
      have FX := hY.imp.frame.trans hY.frame
      have hX : X.g.nVert = H.g.nVert := FX.frame.nVert
      simp only at hi hnb ⊢
      by_cases hc : i < X.g.nVert ∧ X.curMax < X.limit
      · rw [if_pos hc, rd_mcs (hY.frame.lens hY.ok.l) hc.1, ok_bind]
        by_cases hm : X.mc i ≤ X.curMax
        · rw [if_pos hm]
          exact Or.inl ⟨_, rfl, ⟨⟨Y, hY⟩, hnb, by simp only; omega⟩, by simp only; omega⟩
        · rw [if_neg hm]
          obtain ⟨X', nb', Y', c1, c2, _, c4⟩ := hY.step hsrt (r := i) (by omega) hnb
          rw [c1, ok_bind]
          exact Or.inl ⟨_, rfl, ⟨⟨Y', c2⟩, c4, by simp only; omega⟩, by simp only; omega⟩
      · rw [if_neg hc]
        exact Or.inr ⟨_, rfl, Y, hY⟩)
    (s := ((X1, nb1), 0)) (fuel := X1.g.nVert + 1) ⟨⟨Y1, a2⟩, a4, Nat.zero_le _⟩
    (by have := a3; simp only at this ⊢; omega)
  rw [b1, ok_bind]
  have hX2l : X2.g.eb.length = H.g.eb.length := by rw [← b2.len]; exact b2.imp.frame.frame.ebl
  obtain ⟨eb', c1, c2, c3⟩ := clearMemory_spec (G := X2.g) (2 * dlen H.g.maxDeg)
    (by rw [b2.sc]; omega) (by rw [b2.sc]; omega) (by omega)
  have hebY : eb' = Y2.g.eb := by
    apply mem_ext
    · rw [c2, b2.len]
    · intro a
      rw [c3, b2.bits, b2.sc]
      have : b + 2 * dlen H.g.maxDeg - 2 * dlen H.g.maxDeg = b := by
        omega
      rw [this]
  refine ⟨Y2, ?_, b2.ok, b2.imp, b2.mcs⟩
  rw [c1, ok_bind]
  congr 1
  rw [b2.eq, hebY, b2.sc]
  have : b + 2 * dlen H.g.maxDeg - 2 * dlen H.g.maxDeg = b := by omega
  rw [this]

/-- nwclique.cpp:8-15 -/
theorem findMax_at {srt : List (WData R) → List (WData R)} (hsrt : ∀ l, (srt l).Perm l)
    (junk : Nat → R) {b : Nat} (h : WOkAt b H) (sv : Nat) (heur dfs : Bool) :
    ∃ H' i, H.findMaxCliques srt junk sv heur dfs = .ok (H', i) ∧ WOkAt b H' ∧ WImpAt b H H' ∧
      (i = if dfs then H.g.nVert else sv) := by
  have key : ∃ H1, (if heur = true then H.heurGraph srt else .ok H) = .ok H1 ∧ WOkAt b H1 ∧
      WImpAt b H H1 ∧ H1.mcs = H.mcs := by
    cases heur with
    | true =>
      obtain ⟨H1, h1, h2, h3, h4⟩ := heurGraph_at hsrt h
      exact ⟨H1, by simpa using h1, h2, h3, h4⟩
    | false => exact ⟨H, by simp, h, WImpAt.refl b H, rfl⟩
  obtain ⟨H1, a1, a2, a3, a4⟩ := key
  unfold findMaxCliques
  dsimp only
  rw [← ite_bind, a1, ok_bind]
  cases dfs with
  | false =>
    exact ⟨H1, sv, by simp, a2, a3, by simp⟩
  | true =>
    obtain ⟨H2, b1, b2, b3⟩ := stackGraph_at a2 junk
    exact ⟨H2, H1.g.nVert, by simpa using b1, b2, a3.trans b3, by simp [a3.frame.frame.nVert]⟩

theorem findMax_spec {srt : List (WData R) → List (WData R)} (hsrt : ∀ l, (srt l).Perm l)
    (junk : Nat → R) (h : WOk H) (sv : Nat) (heur dfs : Bool) :
    ∃ H' i, H.findMaxCliques srt junk sv heur dfs = .ok (H', i) ∧ WOk H' ∧ WImp H H' ∧
      (i = if dfs then H.g.nVert else sv) := by
  obtain ⟨H', i, a1, a2, a3, a4⟩ := findMax_at hsrt junk h.at sv heur dfs
  exact ⟨H', i, a1, a2.wok h a3.frame.frame a3.low, a3.toWImp, a4⟩

end AW

end NWG

end CM
