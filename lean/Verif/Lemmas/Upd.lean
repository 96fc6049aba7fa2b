import Verif.Lemmas.WF

/-! # Effects shared by the searches: scratch memory, root candidates, saving a clique -/

namespace CM

namespace Graph

variable {G : Graph}

theorem V_set {vs : List Vtx} {v : Nat} (x : Vtx) (hv : v < vs.length) (u : Nat) :
    (vs.set v x).getD u ⟨0, 0, 0, 0, 0⟩ =
      if u = v then x else vs.getD u ⟨0, 0, 0, 0, 0⟩ := by
  rw [List.getD_eq_getElem?_getD, List.getD_eq_getElem?_getD, List.getElem?_set]
  by_cases h : v = u
  · subst h; simp [hv]
  · have : ¬ u = v := fun h' => h h'.symm
    simp [h, this]

theorem setMcs_spec (v x : Nat) (hv : v < G.vs.length) :
    G.setMcs v x = .ok { G with vs := G.vs.set v { G.V v with mcs := x } } := by
  unfold setMcs
  rw [rd_getD ⟨0, 0, 0, 0, 0⟩ hv, ok_bind, wr_ok _ hv, ok_bind]; rfl

theorem clearMemory_spec (n : Nat) (h1 : n ≤ G.searchCur) (h2 : G.searchCur ≤ G.eb.length)
    (h3 : G.eb.length < 2 ^ 64) :
    ∃ eb', G.clearMemory n = .ok { G with searchCur := G.searchCur - n, eb := eb' } ∧
      eb'.length = G.eb.length ∧
      ∀ a, bitAt eb' a = (if 64 * (G.searchCur - n) ≤ a ∧ a < 64 * G.searchCur
        then false else bitAt G.eb a) := by
  obtain ⟨eb', h4, h5, h6⟩ := zeroRange_spec G.eb (G.searchCur - n) n (by omega)
  refine ⟨eb', ?_, h5, ?_⟩
  · unfold clearMemory
    simp only [usub_eq h1 (by omega : G.searchCur < 2 ^ 64)]
    rw [h4, ok_bind]
  · intro a; rw [h6]
    have : G.searchCur - n + n = G.searchCur := by omega
    rw [this]

theorem loadMemory_eq (n : Nat) (h : G.searchCur + n < 2 ^ 64) :
    G.loadMemory n = ({ G with searchCur := G.searchCur + n }, G.searchCur) := by
  unfold loadMemory; rw [uadd_eq h]

theorem mem_rootCand {r i : Nat} : i ∈ G.rootCand r ↔ i < (G.V r).N ∧
    ((i < (G.V r).spos ∧ (G.V r).N < (G.V (G.e r i)).N) ∨
    ((G.V r).spos < i ∧ (G.V r).N ≤ (G.V (G.e r i)).N)) := by
  simp [rootCand]

theorem fillCand_spec (w : WF G) {r : Nat} (hr : r < G.nVert) (cand : GBits) (eb : Mem)
    (hin : cand.off + dlen (G.V r).N ≤ eb.length) :
    ∃ eb', G.fillCand (G.V r) cand eb = .ok (eb', 1 + (G.rootCand r).card) ∧
      eb'.length = eb.length ∧
      ∀ a, bitAt eb' a =
        (decide (64 * cand.off ≤ a ∧ a - 64 * cand.off ∈ G.rootCand r) || bitAt eb a) := by
  have hsp := w.spos r hr
  unfold fillCand
  obtain ⟨⟨eb1, c1⟩, h1, h2, h3, h4⟩ := forRange_rule (lo := 0) (hi := (G.V r).spos)
    (s := (eb, 1))
    (body := fun j (s : Mem × Nat) => do
      let vert ← G.nbr (G.V r) j
      let U ← G.vtx vert
      if U.N ≤ (G.V r).N then .ok s
      else do
        let eb ← cand.set s.1 j
        .ok (eb, s.2 + 1))
    (fun j s => s.1.length = eb.length ∧
      s.2 = 1 + ((G.rootCand r).filter (· < j)).card ∧
      ∀ a, bitAt s.1 a =
        (decide (64 * cand.off ≤ a ∧ a - 64 * cand.off ∈ (G.rootCand r).filter (· < j))
          || bitAt eb a))
    (Nat.zero_le _) ⟨rfl, by simp, by simp⟩
    (by
      rintro k ⟨m, c⟩ _ hk ⟨a1, a2, a3⟩
      simp only at a1 a2 a3 ⊢
      have hkN : k < (G.V r).N := by omega
      rw [nbr_ok w hr hkN, ok_bind, vtx_ok w (e_lt w hr hkN), ok_bind]
      by_cases hc : (G.V (G.e r k)).N ≤ (G.V r).N
      · rw [if_pos hc]
        have hnot : k ∉ G.rootCand r := by rw [mem_rootCand]; omega
        have : (G.rootCand r).filter (· < k + 1) = (G.rootCand r).filter (· < k) := by
          ext x; simp only [Finset.mem_filter]
          constructor
          · rintro ⟨hx, hxk⟩
            refine ⟨hx, ?_⟩
            have : x ≠ k := fun h => hnot (h ▸ hx)
            omega
          · rintro ⟨hx, hxk⟩; exact ⟨hx, by omega⟩
        exact ⟨_, rfl, a1, by rw [this]; exact a2, by rw [this]; exact a3⟩
      · rw [if_neg hc]
        have hmem : k ∈ G.rootCand r := mem_rootCand.2 ⟨hkN, Or.inl ⟨hk, by omega⟩⟩
        have hins : (G.rootCand r).filter (· < k + 1)
            = insert k ((G.rootCand r).filter (· < k)) := by
          ext x; simp only [Finset.mem_filter, Finset.mem_insert]
          constructor
          · rintro ⟨hx, hxk⟩
            by_cases h : x = k
            · exact Or.inl h
            · exact Or.inr ⟨hx, by omega⟩
          · rintro (rfl | ⟨hx, hxk⟩)
            · exact ⟨hmem, by omega⟩
            · exact ⟨hx, by omega⟩
        obtain ⟨m', b1, b2, b3⟩ := cand.set_spec m k
          (by have := div_lt_dlen hkN; omega)
        rw [b1, ok_bind]
        refine ⟨_, rfl, b2.trans a1, ?_, ?_⟩
        · simp only
          rw [hins, Finset.card_insert_of_notMem (by simp), a2]; omega
        · intro a
          simp only
          rw [b3, a3, hins, ← Bool.or_assoc]
          congr 1
          rw [← Bool.decide_or]
          apply decide_eq_decide.2
          simp only [Finset.mem_insert]
          constructor
          · rintro (h | h)
            · exact ⟨by omega, Or.inl (by omega)⟩
            · exact ⟨h.1, Or.inr h.2⟩
          · rintro ⟨h, h' | h'⟩
            · exact Or.inl (by omega)
            · exact Or.inr ⟨h, h'⟩)
  rw [h1, ok_bind]
  have hskip : (G.rootCand r).filter (· < (G.V r).spos + 1)
      = (G.rootCand r).filter (· < (G.V r).spos) := by
    ext x; simp only [Finset.mem_filter]
    constructor
    · rintro ⟨hx, hxk⟩
      have := mem_rootCand.1 hx
      exact ⟨hx, by omega⟩
    · rintro ⟨hx, hxk⟩; exact ⟨hx, by omega⟩
  simp only at h2 h3 h4
  obtain ⟨⟨eb2, c2⟩, k1, k2, k3, k4⟩ := forRange_rule (lo := (G.V r).spos + 1) (hi := (G.V r).N)
    (s := (eb1, c1))
    (body := fun j (s : Mem × Nat) => do
      let vert ← G.nbr (G.V r) j
      let U ← G.vtx vert
      if U.N < (G.V r).N then .ok s
      else do
        let eb ← cand.set s.1 j
        .ok (eb, s.2 + 1))
    (fun j s => s.1.length = eb.length ∧
      s.2 = 1 + ((G.rootCand r).filter (· < j)).card ∧
      ∀ a, bitAt s.1 a =
        (decide (64 * cand.off ≤ a ∧ a - 64 * cand.off ∈ (G.rootCand r).filter (· < j))
          || bitAt eb a))
    (by omega) ⟨h2, by rw [hskip]; exact h3, by rw [hskip]; exact h4⟩
    (by
      rintro k ⟨m, c⟩ hlo hk ⟨a1, a2, a3⟩
      simp only at a1 a2 a3 ⊢
      have hkN : k < (G.V r).N := by omega
      rw [nbr_ok w hr hkN, ok_bind, vtx_ok w (e_lt w hr hkN), ok_bind]
      by_cases hc : (G.V (G.e r k)).N < (G.V r).N
      · rw [if_pos hc]
        have hnot : k ∉ G.rootCand r := by rw [mem_rootCand]; omega
        have : (G.rootCand r).filter (· < k + 1) = (G.rootCand r).filter (· < k) := by
          ext x; simp only [Finset.mem_filter]
          constructor
          · rintro ⟨hx, hxk⟩
            refine ⟨hx, ?_⟩
            have : x ≠ k := fun h => hnot (h ▸ hx)
            omega
          · rintro ⟨hx, hxk⟩; exact ⟨hx, by omega⟩
        exact ⟨_, rfl, a1, by rw [this]; exact a2, by rw [this]; exact a3⟩
      · rw [if_neg hc]
        have hmem : k ∈ G.rootCand r := mem_rootCand.2 ⟨hkN, Or.inr ⟨by omega, by omega⟩⟩
        have hins : (G.rootCand r).filter (· < k + 1)
            = insert k ((G.rootCand r).filter (· < k)) := by
          ext x; simp only [Finset.mem_filter, Finset.mem_insert]
          constructor
          · rintro ⟨hx, hxk⟩
            by_cases h : x = k
            · exact Or.inl h
            · exact Or.inr ⟨hx, by omega⟩
          · rintro (rfl | ⟨hx, hxk⟩)
            · exact ⟨hmem, by omega⟩
            · exact ⟨hx, by omega⟩
        obtain ⟨m', b1, b2, b3⟩ := cand.set_spec m k
          (by have := div_lt_dlen hkN; omega)
        rw [b1, ok_bind]
        refine ⟨_, rfl, b2.trans a1, ?_, ?_⟩
        · simp only
          rw [hins, Finset.card_insert_of_notMem (by simp), a2]; omega
        · intro a
          simp only
          rw [b3, a3, hins, ← Bool.or_assoc]
          congr 1
          rw [← Bool.decide_or]
          apply decide_eq_decide.2
          simp only [Finset.mem_insert]
          constructor
          · rintro (h | h)
            · exact ⟨by omega, Or.inl (by omega)⟩
            · exact ⟨h.1, Or.inr h.2⟩
          · rintro ⟨h, h' | h'⟩
            · exact Or.inl (by omega)
            · exact Or.inr ⟨h, h'⟩)
  simp only at k2 k3 k4
  have hall : (G.rootCand r).filter (· < (G.V r).N) = G.rootCand r := by
    ext x; simp only [Finset.mem_filter]
    exact ⟨fun h => h.1, fun h => ⟨h, (mem_rootCand.1 h).1⟩⟩
  rw [hall] at k3 k4
  rw [k1, k3]
  exact ⟨eb2, rfl, k2, k4⟩

theorem rootCand_card_lt (w : WF G) {r : Nat} (hr : r < G.nVert) :
    (G.rootCand r).card < (G.V r).N := by
  have h : G.rootCand r ⊆ (Finset.range (G.V r).N).erase (G.V r).spos := by
    intro x hx
    have := mem_rootCand.1 hx
    simp only [Finset.mem_erase, Finset.mem_range]
    omega
  have h2 := Finset.card_le_card h
  rw [Finset.card_erase_of_mem (Finset.mem_range.2 (w.spos r hr)), Finset.card_range] at h2
  have := N_pos w hr
  omega

/-- A clique (as positions in the list of `r`) whose smallest vertex in the order
"degree, then id" is `r`. -/
def Rooted (G : Graph) (r : Nat) (S : Finset Nat) : Prop :=
  IsCl G r S ∧ ∀ i ∈ S, i ≠ (G.V r).spos → i ∈ G.rootCand r

/-- What a search rooted at `r` may have done between `G0` and `G`, `B` being the
bottom of the scratch memory it uses. -/
structure Upd (r B : Nat) (G0 G : Graph) : Prop where
  frame : Frame G0 G
  lim : G.limit = G0.limit
  other : ∀ v, v ≠ r → G.V v = G0.V v
  out : ∀ a, a < 64 * B →
    ¬ (64 * (G0.V r).ebo ≤ a ∧ a < 64 * ((G0.V r).ebo + dlen (G0.V r).N)) →
    bitAt G.eb a = bitAt G0.eb a
  pad : PadZero G.eb (G0.vb r)
  res : ((∀ a, a < 64 * B → bitAt G.eb a = bitAt G0.eb a) ∧ G.curMax = G0.curMax ∧
      G.curLoc = G0.curLoc ∧ G.V r = G0.V r) ∨
    (Rooted G0 r (bset G.eb (G0.vb r)) ∧ (bset G.eb (G0.vb r)).card = G.curMax ∧
      G0.curMax < G.curMax ∧ G.curLoc = r ∧
      ((G.V r).mcs = (G0.V r).mcs ∨ (G.V r).mcs = G.curMax))

namespace Upd

variable {r B : Nat} {G0 G : Graph}

theorem refl (hp : PadZero G0.eb (G0.vb r)) : Upd r B G0 G0 :=
  ⟨Frame.refl _, rfl, fun _ _ => rfl, fun _ _ _ => rfl, hp, Or.inl ⟨fun _ _ => rfl, rfl, rfl, rfl⟩⟩

theorem curMax_le (h : Upd r B G0 G) : G0.curMax ≤ G.curMax := by
  rcases h.res with h | h
  · omega
  · have := h.2.2.1; omega

/-- Changing only scratch memory. -/
theorem scratch (h : Upd r B G0 G) (hB : (G0.V r).ebo + dlen (G0.V r).N ≤ B)
    (eb : Mem) (sc : Nat) (hl : eb.length = G.eb.length)
    (hb : ∀ a, a < 64 * B → bitAt eb a = bitAt G.eb a) :
    Upd r B G0 { G with eb := eb, searchCur := sc } := by
  have hd := @dlen_le (G0.V r).N
  have hwin : bset eb (G0.vb r) = bset G.eb (G0.vb r) := by
    unfold bset
    apply Finset.filter_congr
    intro x hx
    simp only [Finset.mem_range, vb] at hx ⊢
    rw [hb _ (by omega)]
  refine ⟨h.frame.trans (Frame.mk' G eb sc G.curMax G.curLoc hl), h.lim, h.other, ?_, ?_, ?_⟩
  · intro a ha hna
    show bitAt eb a = _
    rw [hb a ha]; exact h.out a ha hna
  · intro i h1 h2
    show bitAt eb _ = _
    simp only [vb] at h1 h2
    rw [hb _ (by simp only [vb]; omega)]; exact h.pad i h1 h2
  · rcases h.res with ⟨h1, h2⟩ | h1
    · refine Or.inl ⟨?_, h2⟩
      intro a ha
      show bitAt eb a = _
      rw [hb a ha]; exact h1 a ha
    · refine Or.inr ?_
      show Rooted G0 r (bset eb _) ∧ _
      rw [hwin]; exact h1

end Upd

/-- Resetting a list of positions. -/
theorem resets_spec (b : GBits) (l : List Nat) (m : Mem)
    (h : ∀ k ∈ l, b.off + k / 64 < m.length) :
    ∃ m', l.foldlM (fun m k => b.reset m k) m = .ok m' ∧ m'.length = m.length ∧
      ∀ a, bitAt m' a = (!decide (64 * b.off ≤ a ∧ a - 64 * b.off ∈ l) && bitAt m a) := by
  induction l generalizing m with
  | nil => exact ⟨m, rfl, rfl, by simp⟩
  | cons k l ih =>
    obtain ⟨m1, h1, h2, h3⟩ := b.reset_spec m k (h k (by simp))
    obtain ⟨m2, h4, h5, h6⟩ := ih m1 (fun x hx => by rw [h2]; exact h x (by simp [hx]))
    refine ⟨m2, ?_, h5.trans h2, ?_⟩
    · rw [List.foldlM_cons, h1, ok_bind, h4]
    · intro a
      rw [h6, h3, ← Bool.and_assoc, ← Bool.not_or, ← Bool.decide_or]
      congr 2
      apply decide_eq_decide.2
      simp only [List.mem_cons]
      constructor
      · rintro (h | h)
        · exact ⟨h.1, Or.inr h.2⟩
        · exact ⟨by omega, Or.inl (by omega)⟩
      · rintro ⟨h, h' | h'⟩
        · exact Or.inr (by omega)
        · exact Or.inl ⟨h, h'⟩

theorem bset_congr {m m' : Mem} {b b' : GBits} (hl : b.len = b'.len)
    (h : ∀ i, i < b.len → bitAt m (64 * b.off + i) = bitAt m' (64 * b'.off + i)) :
    bset m b = bset m' b' := by
  unfold bset
  rw [hl]
  apply Finset.filter_congr
  intro x hx
  rw [h x (by rw [hl]; exact Finset.mem_range.1 hx)]

/-- Saving an improved clique. -/
theorem saveClique_spec {r B : Nat} {G0 G : Graph} (w : WF G0) (hr : r < G0.nVert)
    (h : Upd r B G0 G) (hB : G0.ebSize < B) {res : GBits} {size : Nat}
    (hlen : res.len = (G0.V r).N) (hB2 : B ≤ res.off)
    (hin : res.off + dlen (G0.V r).N ≤ G.eb.length) (hpad : PadZero G.eb res)
    (hcl : Rooted G0 r (bset G.eb res)) (hsz : (bset G.eb res).card = size)
    (hgt : G.curMax < size) :
    ∃ G', G.saveClique r (G0.V r) res size = .ok G' ∧ Upd r B G0 G' ∧ G'.curMax = size ∧
      G'.searchCur = G.searchCur ∧ (∀ a, 64 * B ≤ a → bitAt G'.eb a = bitAt G.eb a) ∧
      (G'.V r).mcs = size := by
  have wG := h.frame.wf w
  have hebo := w.eboEnd r hr
  have hN := h.frame.N r
  have hE := h.frame.ebo r
  obtain ⟨eb, c1, c2, c3⟩ := (G.vb r).copyData_spec res.off G.eb
    (by simp only [vb]; rw [hN, hE]; omega) (by simp only [vb]; rw [hN]; omega)
    (by simp only [vb]; rw [hN, hE]; omega)
  simp only [vb, hN, hE] at c3
  have hvb : G.vbits (G0.V r) = .ok (G.vb r) := by
    unfold vbits vb; rw [wG.dang, hN, hE]; rfl
  unfold saveClique
  rw [hvb, ok_bind, c1, ok_bind]
  have hv : r < G.vs.length := by rw [h.frame.vlen, w.vlen]; exact hr
  rw [setMcs_spec (G := { G with eb := eb }) r size hv, ok_bind]
  refine ⟨_, rfl, ?_, rfl, rfl, ?_, ?_⟩
  · have hwin : bset eb (G0.vb r) = bset G.eb res := by
      apply bset_congr
      · simp only [vb, hlen]
      · intro i hi
        simp only [vb] at hi ⊢
        have := @dlen_le (G0.V r).N
        rw [c3, if_pos (by omega)]
        congr 1; omega
    have hVr : ∀ u, (({ ({ G with eb := eb } : Graph) with
        vs := G.vs.set r { G.V r with mcs := size } }) : Graph).V u
        = if u = r then { G.V r with mcs := size } else G.V u := by
      intro u; exact V_set _ hv u
    refine ⟨?_, h.lim, ?_, ?_, ?_, ?_⟩
    · refine h.frame.trans ⟨rfl, by simp, ?_, c2, rfl, rfl, rfl, rfl, rfl, rfl⟩
      intro v
      have := hVr v
      simp only [Graph.V] at this ⊢
      rw [this]
      split
      · subst_vars; exact ⟨rfl, rfl, rfl, rfl⟩
      · exact ⟨rfl, rfl, rfl, rfl⟩
    · intro v hv'
      have := hVr v
      rw [if_neg hv'] at this
      exact this.trans (h.other v hv')
    · intro a ha hna
      show bitAt eb a = _
      rw [c3, if_neg hna]; exact h.out a ha hna
    · intro i h1 h2
      show bitAt eb _ = _
      simp only [vb] at h1 h2 ⊢
      rw [c3, if_pos (by omega)]
      have := hpad i (by rw [hlen]; exact h1) (by rw [hlen]; exact h2)
      rw [← this]; congr 1; omega
    · refine Or.inr ⟨?_, ?_, ?_, rfl, Or.inr ?_⟩
      · show Rooted G0 r (bset eb _)
        rw [hwin]; exact hcl
      · show (bset eb _).card = size
        rw [hwin]; exact hsz
      · show G0.curMax < size
        have := h.curMax_le; omega
      · have := hVr r
        rw [if_pos rfl] at this
        exact congrArg Vtx.mcs this
  · intro a ha
    show bitAt eb a = _
    rw [c3, if_neg (by omega)]
  · have := V_set { G.V r with mcs := size } hv r
    rw [if_pos rfl] at this
    exact congrArg Vtx.mcs this

end Graph

end CM
