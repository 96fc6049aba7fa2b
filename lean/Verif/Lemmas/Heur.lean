import Verif.Lemmas.Search

/-! # `DegreeHeuristic` (heuristic.cpp) -/

namespace CM

namespace Graph

variable {G : Graph}

/-- The records the heuristic collects for the positions below `n`. -/
def nbOf (G : Graph) (r n : Nat) : List VData :=
  ((List.range n).filter (fun i => i ∈ G.rootCand r)).map
    (fun i => ⟨G.e r i, (G.V (G.e r i)).N, i⟩)

theorem nbOf_succ (r n : Nat) : G.nbOf r (n + 1) = G.nbOf r n ++
    (if n ∈ G.rootCand r then [⟨G.e r n, (G.V (G.e r n)).N, n⟩] else []) := by
  unfold nbOf
  rw [List.range_succ, List.filter_append, List.map_append]
  congr 1
  by_cases h : n ∈ G.rootCand r <;> simp [h]

theorem mem_nbOf {r n : Nat} {x : VData} (h : x ∈ G.nbOf r n) :
    x.pos ∈ G.rootCand r ∧ x.id = G.e r x.pos := by
  unfold nbOf at h
  rw [List.mem_map] at h
  obtain ⟨i, hi, rfl⟩ := h
  rw [List.mem_filter] at hi
  exact ⟨by simpa using hi.2, rfl⟩

theorem nbOf_mem {r n i : Nat} (h : i ∈ G.rootCand r) (hn : i < n) :
    ∃ x ∈ G.nbOf r n, x.pos = i := by
  unfold nbOf
  refine ⟨⟨G.e r i, (G.V (G.e r i)).N, i⟩, ?_, rfl⟩
  rw [List.mem_map]
  exact ⟨i, by rw [List.mem_filter]; exact ⟨List.mem_range.2 hn, by simpa using h⟩, rfl⟩

theorem filter_succ_mem {S : Finset Nat} {k : Nat} (h : k ∈ S) :
    S.filter (· < k + 1) = insert k (S.filter (· < k)) := by
  ext x; simp only [Finset.mem_filter, Finset.mem_insert]
  constructor
  · rintro ⟨hx, hxk⟩
    by_cases h : x = k
    · exact Or.inl h
    · exact Or.inr ⟨hx, by omega⟩
  · rintro (rfl | ⟨hx, hxk⟩)
    · exact ⟨h, by omega⟩
    · exact ⟨hx, by omega⟩

theorem filter_succ_notMem {S : Finset Nat} {k : Nat} (h : k ∉ S) :
    S.filter (· < k + 1) = S.filter (· < k) := by
  ext x; simp only [Finset.mem_filter]
  constructor
  · rintro ⟨hx, hxk⟩
    refine ⟨hx, ?_⟩
    have : x ≠ k := fun h' => h (h' ▸ hx)
    omega
  · rintro ⟨hx, hxk⟩; exact ⟨hx, by omega⟩

/-- Invariant of the two loops of `heurCollect` before position `j`. -/
def CollInv (G : Graph) (r : Nat) (cand : GBits) (eb : Mem) (j : Nat)
    (s : Mem × List VData × Nat) : Prop :=
  s.1.length = eb.length ∧ s.2.1 = G.nbOf r j ∧
    s.2.2 = ((G.rootCand r).filter (· < j)).card ∧
    ∀ a, bitAt s.1 a =
      (decide (64 * cand.off ≤ a ∧ a - 64 * cand.off ∈ (G.rootCand r).filter (· < j))
        || bitAt eb a)

theorem CollInv.skip {r k : Nat} {cand : GBits} {eb : Mem} {s : Mem × List VData × Nat}
    (h : CollInv G r cand eb k s) (hk : k ∉ G.rootCand r) : CollInv G r cand eb (k + 1) s := by
  obtain ⟨a1, a2, a3, a4⟩ := h
  refine ⟨a1, ?_, ?_, ?_⟩
  · rw [nbOf_succ, if_neg hk, List.append_nil]; exact a2
  · rw [filter_succ_notMem hk]; exact a3
  · rw [filter_succ_notMem hk]; exact a4

theorem CollInv.take {r k : Nat} {cand : GBits} {eb : Mem} {s : Mem × List VData × Nat}
    (h : CollInv G r cand eb k s) (hk : k ∈ G.rootCand r)
    (hin : cand.off + dlen (G.V r).N ≤ eb.length) :
    ∃ eb', cand.set s.1 k = .ok eb' ∧ CollInv G r cand eb (k + 1)
      (eb', s.2.1 ++ [⟨G.e r k, (G.V (G.e r k)).N, k⟩], s.2.2 + 1) := by
  obtain ⟨a1, a2, a3, a4⟩ := h
  have hkN := (mem_rootCand.1 hk).1
  obtain ⟨m', b1, b2, b3⟩ := cand.set_spec s.1 k (by have := div_lt_dlen hkN; omega)
  refine ⟨m', b1, b2.trans a1, ?_, ?_, ?_⟩
  · simp only; rw [nbOf_succ, if_pos hk, a2]
  · simp only
    rw [filter_succ_mem hk, Finset.card_insert_of_notMem (by simp), a3]
  · intro a
    simp only
    rw [b3, a4, filter_succ_mem hk, ← Bool.or_assoc]
    congr 1
    rw [← Bool.decide_or]
    apply decide_eq_decide.2
    simp only [Finset.mem_insert]
    constructor
    · rintro (h | h)
      · exact ⟨by omega, Or.inl (by omega)⟩
      · exact ⟨h.1, Or.inr h.2⟩
    · rintro ⟨h, h' | h'⟩
      · exact Or.inl (by omega)
      · exact Or.inr ⟨h, h'⟩

theorem heurCollect_spec (w : WF G) {r : Nat} (hr : r < G.nVert) (cand : GBits) (eb : Mem)
    (hin : cand.off + dlen (G.V r).N ≤ eb.length) :
    ∃ eb', G.heurCollect (G.V r) cand eb
        = .ok (eb', G.nbOf r (G.V r).N, (G.rootCand r).card) ∧
      eb'.length = eb.length ∧
      ∀ a, bitAt eb' a =
        (decide (64 * cand.off ≤ a ∧ a - 64 * cand.off ∈ G.rootCand r) || bitAt eb a) := by
  have hsp := w.spos r hr
  unfold heurCollect
  obtain ⟨s1, h1, h2⟩ := forRange_rule (lo := 0) (hi := (G.V r).spos)
    (s := ((eb, [], 0) : Mem × List VData × Nat))
    (body := fun i (s : Mem × List VData × Nat) => do
      let id ← G.nbr (G.V r) i
      let U ← G.vtx id
      if U.N ≤ (G.V r).N then .ok s
      else do
        let eb ← cand.set s.1 i
        .ok (eb, s.2.1 ++ [{ id := id, N := U.N, pos := i }], s.2.2 + 1))
    (CollInv G r cand eb)
    (Nat.zero_le _) ⟨rfl, by simp [nbOf], by simp, by simp⟩
    (by
      rintro k s _ hk h
      have hkN : k < (G.V r).N := by omega
      rw [nbr_ok w hr hkN, ok_bind, vtx_ok w (e_lt w hr hkN), ok_bind]
      by_cases hc : (G.V (G.e r k)).N ≤ (G.V r).N
      · rw [if_pos hc]
        exact ⟨_, rfl, h.skip (by rw [mem_rootCand]; omega)⟩
      · rw [if_neg hc]
        obtain ⟨m', b1, b2⟩ := h.take (mem_rootCand.2 ⟨hkN, Or.inl ⟨hk, by omega⟩⟩) hin
        rw [b1, ok_bind]
        exact ⟨_, rfl, b2⟩)
  rw [h1, ok_bind]
  obtain ⟨s2, k1, k2, k3, k4, k5⟩ := forRange_rule (lo := (G.V r).spos + 1) (hi := (G.V r).N)
    (s := s1)
    (body := fun i (s : Mem × List VData × Nat) => do
      let id ← G.nbr (G.V r) i
      let U ← G.vtx id
      if U.N < (G.V r).N then .ok s
      else do
        let eb ← cand.set s.1 i
        .ok (eb, s.2.1 ++ [{ id := id, N := U.N, pos := i }], s.2.2 + 1))
    (CollInv G r cand eb)
    (by omega) (h2.skip (by rw [mem_rootCand]; omega))
    (by
      rintro k s hlo hk h
      rw [nbr_ok w hr hk, ok_bind, vtx_ok w (e_lt w hr hk), ok_bind]
      by_cases hc : (G.V (G.e r k)).N < (G.V r).N
      · rw [if_pos hc]
        exact ⟨_, rfl, h.skip (by rw [mem_rootCand]; omega)⟩
      · rw [if_neg hc]
        obtain ⟨m', b1, b2⟩ := h.take (mem_rootCand.2 ⟨hk, Or.inr ⟨by omega, by omega⟩⟩) hin
        rw [b1, ok_bind]
        exact ⟨_, rfl, b2⟩)
  have hall : (G.rootCand r).filter (· < (G.V r).N) = G.rootCand r := by
    ext x; simp only [Finset.mem_filter]
    exact ⟨fun h => h.1, fun h => ⟨h, (mem_rootCand.1 h).1⟩⟩
  rw [hall] at k4 k5
  obtain ⟨e2, n2, c2⟩ := s2
  simp only at k2 k3 k4 k5
  rw [k1, k3, k4]
  exact ⟨e2, rfl, k2, k5⟩

theorem findIfNeighbors_spec (w : WF G) {u v : Nat} (hu : u < G.nVert) :
    ∃ f loc, G.findIfNeighbors u v = .ok (f, loc) ∧ (f = true ↔ G.nadj u v) := by
  unfold findIfNeighbors
  rw [vtx_ok w hu, ok_bind]
  obtain ⟨f, ans, p1, p2, _⟩ := probe w (u := u) (start := 0) (val := v) hu (Nat.zero_le _)
    (by intro i hi; omega)
  have h1 : uadd (G.V u).elo 0 = (G.V u).elo := by
    have := w.inEl u hu; have := w.ellen
    rw [uadd_eq (by omega)]; rfl
  have h2 : usub (G.V u).N 0 = (G.V u).N := by
    have := N_lt w hu
    rw [usub_eq (by omega) (by omega)]; rfl
  rw [h1, h2] at p1
  exact ⟨f, ans, p1, p2⟩

/-- The scan removes from the candidates what is not adjacent to `x`. -/
theorem heurScan_spec (w : WF G) {r : Nat} (hr : r < G.nVert) {nb : List VData} {i : Nat}
    {x : VData} {cand : GBits} {eb : Mem} {left : Nat}
    (hnb : ∀ y ∈ nb, y.pos < (G.V r).N ∧ y.id = G.e r y.pos) (hx : x ∈ nb)
    (hi : i < nb.length)
    (hin : cand.off + dlen (G.V r).N ≤ eb.length)
    (hleft : left = (bset eb ⟨cand.off, (G.V r).N⟩).card)
    (hidx : ∀ c ∈ bset eb ⟨cand.off, (G.V r).N⟩, ∃ k, i < k ∧ ∃ y, nb[k]? = some y ∧ y.pos = c) :
    ∃ eb' left', G.heurScan nb i x cand (eb, left) = .ok (eb', left') ∧ eb'.length = eb.length ∧
      left' = (bset eb' ⟨cand.off, (G.V r).N⟩).card ∧
      bset eb' ⟨cand.off, (G.V r).N⟩ ⊆ bset eb ⟨cand.off, (G.V r).N⟩ ∧
      (∀ c ∈ bset eb' ⟨cand.off, (G.V r).N⟩, G.A r c x.pos) ∧
      (∀ c ∈ bset eb ⟨cand.off, (G.V r).N⟩, c ∉ bset eb' ⟨cand.off, (G.V r).N⟩ →
        ¬ G.A r c x.pos) ∧
      ∀ a, ¬ (64 * cand.off ≤ a ∧ a < 64 * cand.off + (G.V r).N) → bitAt eb' a = bitAt eb a := by
  have hNb := N_lt w hr
  unfold heurScan
  obtain ⟨⟨eb', left'⟩, h1, h2, h3, h4, h5, h7, h6⟩ := forRange_rule (lo := i + 1) (hi := nb.length)
    (s := (eb, left))
    (body := fun j (s : Mem × Nat) => do
      let y ← rd nb j
      if ← cand.test s.1 y.pos then do
        let (f, _) ← G.findIfNeighbors y.id x.id
        if f then .ok s
        else do
          let eb ← cand.reset s.1 y.pos
          .ok (eb, usub s.2 1)
      else .ok s)
    (fun j s => s.1.length = eb.length ∧ s.2 = (bset s.1 ⟨cand.off, (G.V r).N⟩).card ∧
      bset s.1 ⟨cand.off, (G.V r).N⟩ ⊆ bset eb ⟨cand.off, (G.V r).N⟩ ∧
      (∀ c ∈ bset s.1 ⟨cand.off, (G.V r).N⟩, G.A r c x.pos ∨
        ∃ k, j ≤ k ∧ ∃ y, nb[k]? = some y ∧ y.pos = c) ∧
      (∀ c ∈ bset eb ⟨cand.off, (G.V r).N⟩, c ∉ bset s.1 ⟨cand.off, (G.V r).N⟩ →
        ¬ G.A r c x.pos) ∧
      ∀ a, ¬ (64 * cand.off ≤ a ∧ a < 64 * cand.off + (G.V r).N) → bitAt s.1 a = bitAt eb a)
    (by omega)
    ⟨rfl, hleft, Finset.Subset.refl _, fun c hc => Or.inr (hidx c hc),
      fun c hc hn => absurd hc hn, fun _ _ => rfl⟩
    (by
      rintro j ⟨m, l⟩ hlo hj ⟨a1, a2, a3, a4, a6, a5⟩
      simp only at a1 a2 a3 a4 a5 a6
      have hy : nb[j]? = some nb[j] := List.getElem?_eq_getElem hj
      rw [rd_ok hj, ok_bind]
      generalize hyd : nb[j] = y at hy
      have hymem : y ∈ nb := hyd ▸ List.getElem_mem hj
      have hyp := hnb y hymem
      have hxp := hnb x hx
      simp only
      rw [cand.test_spec m y.pos (by have := div_lt_dlen hyp.1; omega), ok_bind]
      by_cases hb : bitAt m (64 * cand.off + y.pos) = true
      · rw [if_pos hb]
        obtain ⟨f, loc, f1, f2⟩ := findIfNeighbors_spec w (u := y.id) (v := x.id)
          (by rw [hyp.2]; exact e_lt w hr hyp.1)
        rw [f1, ok_bind]
        simp only
        have hmem : y.pos ∈ bset m ⟨cand.off, (G.V r).N⟩ := mem_bset.2 ⟨hyp.1, hb⟩
        by_cases hf : f = true
        · rw [if_pos hf]
          refine ⟨_, rfl, a1, a2, a3, ?_, a6, a5⟩
          intro c hc
          rcases a4 c hc with h | ⟨k, hk, z, hz, hzc⟩
          · exact Or.inl h
          · by_cases hkj : k = j
            · left
              subst hkj
              rw [hy] at hz
              injection hz with hz
              rw [← hzc, ← hz]
              have := f2.1 hf
              rw [hyp.2, hxp.2] at this
              exact this
            · exact Or.inr ⟨k, by omega, z, hz, hzc⟩
        · rw [if_neg hf]
          obtain ⟨m', r1, r2, r3⟩ := cand.reset_spec m y.pos
            (by have := div_lt_dlen hyp.1; omega)
          rw [r1, ok_bind]
          have hset : bset m' ⟨cand.off, (G.V r).N⟩
              = (bset m ⟨cand.off, (G.V r).N⟩).erase y.pos := by
            ext c
            rw [Finset.mem_erase, mem_bset, mem_bset]
            simp only
            rw [r3]
            simp only [Bool.and_eq_true, Bool.not_eq_true', decide_eq_false_iff_not]
            constructor
            · rintro ⟨h1, h2, h3⟩; exact ⟨by omega, h1, h3⟩
            · rintro ⟨h1, h2, h3⟩; exact ⟨h2, by omega, h3⟩
          have hpos := Finset.card_pos.2 ⟨_, hmem⟩
          have hcN : (bset m ⟨cand.off, (G.V r).N⟩).card ≤ (G.V r).N := by
            have : bset m ⟨cand.off, (G.V r).N⟩ ⊆ Finset.range (G.V r).N := by
              intro c hc; rw [Finset.mem_range]; exact (mem_bset.1 hc).1
            simpa using Finset.card_le_card this
          refine ⟨_, rfl, r2.trans a1, ?_, ?_, ?_, ?_, ?_⟩
          · simp only
            rw [hset, Finset.card_erase_of_mem hmem, a2, usub_eq (by omega) (by omega)]
          · simp only
            rw [hset]
            exact fun c hc => a3 (Finset.mem_of_mem_erase hc)
          · simp only
            rw [hset]
            intro c hc
            rw [Finset.mem_erase] at hc
            rcases a4 c hc.2 with h | ⟨k, hk, z, hz, hzc⟩
            · exact Or.inl h
            · refine Or.inr ⟨k, ?_, z, hz, hzc⟩
              by_contra hlt
              have : k = j := by omega
              subst this
              rw [hy] at hz
              injection hz with hz
              exact hc.1 (by rw [← hzc, ← hz])
          · simp only
            rw [hset]
            intro c hc hn
            by_cases hcm : c ∈ bset m ⟨cand.off, (G.V r).N⟩
            · have hcy : c = y.pos := by
                by_contra hne
                exact hn (Finset.mem_erase.2 ⟨hne, hcm⟩)
              intro hA
              refine hf (f2.2 ?_)
              rw [hyp.2, hxp.2, ← hcy]
              exact hA
            · exact a6 c hc hcm
          · intro a ha
            simp only
            rw [r3, a5 a ha]
            have : ¬ (a = 64 * cand.off + y.pos) := by have := hyp.1; omega
            simp [this]
      · rw [if_neg hb]
        refine ⟨_, rfl, a1, a2, a3, ?_, a6, a5⟩
        intro c hc
        rcases a4 c hc with h | ⟨k, hk, z, hz, hzc⟩
        · exact Or.inl h
        · refine Or.inr ⟨k, ?_, z, hz, hzc⟩
          by_contra hlt
          have : k = j := by omega
          subst this
          rw [hy] at hz
          injection hz with hz
          exact hb (by rw [hz, hzc]; exact (mem_bset.1 hc).2))
  simp only at h2 h3 h4 h5 h6 h7
  refine ⟨eb', left', h1, h2, h3, h4, ?_, h7, h6⟩
  intro c hc
  rcases h5 c hc with h | ⟨k, hk, y, hy, _⟩
  · exact h
  · have := (List.getElem?_eq_some_iff.1 hy).1
    omega

/-- Storing an improved clique without touching the bound (heuristic.cpp:116-122). -/
theorem heurSave_spec {r B : Nat} {G0 G : Graph} (w : WF G0) (hr : r < G0.nVert)
    (h : Upd r B G0 G) (hB : G0.ebSize < B) {ro cs : Nat} (hB2 : B ≤ ro)
    (hin : ro + dlen (G0.V r).N ≤ G.eb.length) (hpad : PadZero G.eb ⟨ro, (G0.V r).N⟩)
    (hcl : Rooted G0 r (bset G.eb ⟨ro, (G0.V r).N⟩))
    (hsz : (bset G.eb ⟨ro, (G0.V r).N⟩).card = cs) (hmc : (G.V r).mcs = (G0.V r).mcs)
    (hgt : G.curMax < cs) :
    G.vbits (G0.V r) = .ok (G0.vb r) ∧ ∃ eb, (G0.vb r).copyData ro G.eb = .ok eb ∧
      Upd r B G0 { G with eb := eb, curMax := cs, curLoc := r } ∧
      (∀ a, 64 * B ≤ a → bitAt eb a = bitAt G.eb a) ∧
      bset eb (G0.vb r) = bset G.eb ⟨ro, (G0.V r).N⟩ := by
  have wG := h.frame.wf w
  have hebo := w.eboEnd r hr
  have hvb : G.vbits (G0.V r) = .ok (G0.vb r) := by
    unfold vbits vb; rw [wG.dang]; rfl
  refine ⟨hvb, ?_⟩
  obtain ⟨eb, c1, c2, c3⟩ := (G0.vb r).copyData_spec ro G.eb
    (by simp only [vb]; omega) (by simp only [vb]; omega) (by simp only [vb]; omega)
  replace c3 : ∀ a, bitAt eb a = if 64 * (G0.V r).ebo ≤ a ∧
      a < 64 * ((G0.V r).ebo + dlen (G0.V r).N) then
        bitAt G.eb (a - 64 * (G0.V r).ebo + 64 * ro) else bitAt G.eb a := c3
  have hwin : bset eb (G0.vb r) = bset G.eb ⟨ro, (G0.V r).N⟩ := by
    apply bset_congr (b := G0.vb r) (b' := ⟨ro, (G0.V r).N⟩) rfl
    intro i hi
    simp only [vb] at hi ⊢
    have := @dlen_le (G0.V r).N
    rw [c3, if_pos (by omega)]
    congr 1; omega
  refine ⟨eb, c1, ⟨?_, h.lim, h.other, ?_, ?_, Or.inr ⟨?_, ?_, ?_, rfl, Or.inl hmc⟩⟩, ?_, hwin⟩
  · exact h.frame.trans (Frame.mk' G eb G.searchCur cs r c2)
  · intro a ha hna
    show bitAt eb a = _
    rw [c3, if_neg hna]; exact h.out a ha hna
  · intro i h1 h2
    show bitAt eb _ = _
    simp only [vb] at h1 h2 ⊢
    rw [c3, if_pos (by omega)]
    have := hpad i h1 h2
    rw [← this]; congr 1; simp only; omega
  · show Rooted G0 r (bset eb _)
    rw [hwin]; exact hcl
  · show (bset eb _).card = cs
    rw [hwin]; exact hsz
  · show G0.curMax < cs
    have := h.curMax_le; omega
  · intro a ha
    rw [c3, if_neg (by omega)]

/-- The clique `T` cannot be extended by a candidate of `r`. -/
def Full (G : Graph) (r : Nat) (T : Finset Nat) : Prop :=
  ∀ c ∈ G.rootCand r, c ∈ T ∨ ∃ t ∈ T, ¬ G.A r t c

/-- Invariant of the greedy loop of the heuristic. -/
structure HInv (G0 : Graph) (r B q : Nat) (nb : List VData) (s : Graph × Nat × Nat × Nat) : Prop where
  upd : Upd r B G0 s.1
  sc : s.1.searchCur = G0.searchCur
  mcs : s.1.V r = G0.V r
  cm : s.1.curMax = G0.curMax
  above : ∀ a, 64 * (B + 2 * q) ≤ a → bitAt s.1.eb a = bitAt G0.eb a
  cl : Rooted G0 r (bset s.1.eb ⟨B, (G0.V r).N⟩)
  rt : ∀ c ∈ bset s.1.eb ⟨B + q, (G0.V r).N⟩, c ∈ G0.rootCand r
  card : (bset s.1.eb ⟨B, (G0.V r).N⟩).card = s.2.2.1
  padr : PadZero s.1.eb ⟨B, (G0.V r).N⟩
  left : s.2.2.2 = (bset s.1.eb ⟨B + q, (G0.V r).N⟩).card
  adj : ∀ c ∈ bset s.1.eb ⟨B + q, (G0.V r).N⟩, c ∉ bset s.1.eb ⟨B, (G0.V r).N⟩ ∧
    (∀ t ∈ bset s.1.eb ⟨B, (G0.V r).N⟩, G0.A r t c) ∧
    ∃ k, s.2.1 ≤ k ∧ ∃ y, nb[k]? = some y ∧ y.pos = c
  all : ∀ c ∈ G0.rootCand r, c ∈ bset s.1.eb ⟨B + q, (G0.V r).N⟩ ∨
    c ∈ bset s.1.eb ⟨B, (G0.V r).N⟩ ∨ ∃ t ∈ bset s.1.eb ⟨B, (G0.V r).N⟩, ¬ G0.A r t c

/-- What the heuristic leaves behind after one vertex. -/
structure HDone (r B q : Nat) (G0 G : Graph) : Prop where
  upd : Upd r B G0 G
  sc : G.searchCur = G0.searchCur
  mcs : G.V r = G0.V r
  above : ∀ a, 64 * (B + 2 * q) ≤ a → bitAt G.eb a = bitAt G0.eb a
  full : G.curMax = G0.curMax ∨ Full G0 r (bset G.eb (G0.vb r))

theorem HInv.done {G0 : Graph} {r B q : Nat} {nb : List VData} {s : Graph × Nat × Nat × Nat}
    (h : HInv G0 r B q nb s) : HDone r B q G0 s.1 := ⟨h.upd, h.sc, h.mcs, h.above, Or.inl h.cm⟩

theorem heurGrow_spec {G0 : Graph} (w : WF G0) {r B q M : Nat} (hr : r < G0.nVert)
    (hB : G0.ebSize < B) (hq : dlen (G0.V r).N ≤ q) (hlen : B + 2 * q ≤ G0.eb.length)
    {nb : List VData} (hnb : ∀ y ∈ nb, y.pos < (G0.V r).N ∧ y.id = G0.e r y.pos)
    {s : Graph × Nat × Nat × Nat} (I : HInv G0 r B q nb s) (hi : s.2.1 ≤ nb.length) :
    (∃ s', heurGrow r (G0.V r) nb ⟨B, M⟩ ⟨B + q, M⟩ s = .ok (.inl s') ∧
      (HInv G0 r B q nb s' ∧ s'.2.1 ≤ nb.length) ∧ nb.length - s'.2.1 < nb.length - s.2.1) ∨
    (∃ G', heurGrow r (G0.V r) nb ⟨B, M⟩ ⟨B + q, M⟩ s = .ok (.inr G') ∧ HDone r B q G0 G') := by
  obtain ⟨G, i, cs, left⟩ := s
  have F : Frame G0 G := I.upd.frame
  have hebl : G.eb.length = G0.eb.length := F.ebl
  have hdl := @dlen_le (G0.V r).N
  have hNb := N_lt w hr
  unfold heurGrow
  simp only at hi ⊢
  by_cases hin : i < nb.length
  swap
  · rw [if_neg hin]
    exact Or.inr ⟨_, rfl, I.done⟩
  rw [if_pos hin, rd_ok hin, ok_bind]
  have hx? : nb[i]? = some nb[i] := List.getElem?_eq_getElem hin
  generalize hxd : nb[i] = x at hx?
  have hxm : x ∈ nb := hxd ▸ List.getElem_mem hin
  have hx := hnb x hxm
  have hdx := div_lt_dlen hx.1
  rw [GBits.test_spec ⟨B + q, M⟩ G.eb x.pos (by simp only; omega), ok_bind]
  simp only
  by_cases hb : bitAt G.eb (64 * (B + q) + x.pos) = true
  swap
  · rw [if_neg hb]
    refine Or.inl ⟨_, rfl, ⟨⟨I.upd, I.sc, I.mcs, I.cm, I.above, I.cl, I.rt, I.card, I.padr, I.left, ?_, I.all⟩,
      by simp only; omega⟩, by simp only; omega⟩
    intro c hc
    obtain ⟨c1, c2, k, hk, y, hy, hyc⟩ := I.adj c hc
    refine ⟨c1, c2, k, ?_, y, hy, hyc⟩
    simp only at hk ⊢
    by_contra hlt
    have : k = i := by omega
    subst this
    rw [hx?] at hy
    injection hy with hy
    exact hb (by rw [hy, hyc]; exact (mem_bset.1 hc).2)
  rw [if_pos hb]
  have hxC : x.pos ∈ bset G.eb ⟨B + q, (G0.V r).N⟩ := mem_bset.2 ⟨hx.1, hb⟩
  obtain ⟨m1, a1, a2, a3⟩ := GBits.set_spec ⟨B, M⟩ G.eb x.pos (by simp only; omega)
  rw [a1, ok_bind]
  obtain ⟨m2, b1, b2, b3⟩ := GBits.reset_spec ⟨B + q, M⟩ m1 x.pos (by simp only; omega)
  rw [b1, ok_bind]
  simp only at a3 b3 ⊢
  have hR : bset m2 ⟨B, (G0.V r).N⟩ = insert x.pos (bset G.eb ⟨B, (G0.V r).N⟩) := by
    ext c
    rw [Finset.mem_insert, mem_bset, mem_bset]
    simp only
    rw [b3, a3]
    constructor
    · rintro ⟨h1, h2⟩
      simp only [Bool.and_eq_true, Bool.or_eq_true, decide_eq_true_eq] at h2
      rcases h2.2 with h | h
      · left; omega
      · exact Or.inr ⟨h1, h⟩
    · have hne : ∀ c, c < (G0.V r).N → ¬ (64 * B + c = 64 * (B + q) + x.pos) := by
        intro c hc; omega
      rintro (h | ⟨h1, h2⟩)
      · subst h
        refine ⟨hx.1, ?_⟩
        rw [decide_eq_false (hne _ hx.1)]; simp
      · refine ⟨h1, ?_⟩
        simp [hne _ h1, h2]
  have hC : bset m2 ⟨B + q, (G0.V r).N⟩ = (bset G.eb ⟨B + q, (G0.V r).N⟩).erase x.pos := by
    ext c
    rw [Finset.mem_erase, mem_bset, mem_bset]
    simp only
    rw [b3, a3]
    constructor
    · rintro ⟨h1, h2⟩
      simp only [Bool.and_eq_true, Bool.or_eq_true, decide_eq_true_eq, Bool.not_eq_true',
        decide_eq_false_iff_not] at h2
      rcases h2.2 with h | h
      · omega
      · exact ⟨by omega, h1, h⟩
    · rintro ⟨h1, h2, h3⟩
      refine ⟨h2, ?_⟩
      have : ¬ (64 * (B + q) + c = 64 * (B + q) + x.pos) := by omega
      rw [decide_eq_false this, h3]; simp
  have hlpos : 0 < left := by
    have := I.left
    simp only at this
    rw [this]; exact Finset.card_pos.2 ⟨_, hxC⟩
  have hleftN : left ≤ (G0.V r).N := by
    have := I.left
    simp only at this
    rw [this]
    have : bset G.eb ⟨B + q, (G0.V r).N⟩ ⊆ Finset.range (G0.V r).N := by
      intro c hc; rw [Finset.mem_range]; exact (mem_bset.1 hc).1
    simpa using Finset.card_le_card this
  rw [usub_eq (by omega : 1 ≤ left) (by omega)]
  obtain ⟨xa, xb, _⟩ := I.adj x.pos hxC
  have wG := F.wf w
  obtain ⟨m3, left3, c1, c2, c3, c4, c5, c7, c6⟩ := heurScan_spec (G := G) wG (r := r) (nb := nb)
    (i := i) (x := x) (cand := ⟨B + q, M⟩) (eb := m2) (left := left - 1)
    (by rw [F.nVert]; exact hr) (by intro y hy; rw [F.N, F.e]; exact hnb y hy) hxm hin
    (by rw [F.N]; simp only; omega)
    (by
      rw [F.N]; simp only
      rw [hC, Finset.card_erase_of_mem hxC]
      have := I.left
      simp only at this
      omega)
    (by
      rw [F.N]; simp only
      rw [hC]
      intro c hc
      rw [Finset.mem_erase] at hc
      obtain ⟨_, _, k, hk, y, hy, hyc⟩ := I.adj c hc.2
      simp only at hk
      refine ⟨k, ?_, y, hy, hyc⟩
      by_contra hlt
      have : k = i := by omega
      subst this
      rw [hx?] at hy
      injection hy with hy
      exact hc.1 (by rw [← hyc, hy]))
  rw [F.N] at c3 c4 c5 c6 c7
  simp only at c3 c4 c5 c6 c7
  rw [c1, ok_bind]
  simp only
  have hR3 : bset m3 ⟨B, (G0.V r).N⟩ = insert x.pos (bset G.eb ⟨B, (G0.V r).N⟩) := by
    rw [← hR]
    apply bset_congr rfl
    intro c hc
    simp only at hc ⊢
    exact c6 _ (by omega)
  have hbits : ∀ a, a < 64 * B ∨ 64 * (B + 2 * q) ≤ a → bitAt m3 a = bitAt G.eb a := by
    intro a ha
    rw [c6 a (by omega), b3, a3]
    have h1 : ¬ (a = 64 * (B + q) + x.pos) := by omega
    have h2 : ¬ (a = 64 * B + x.pos) := by omega
    simp [h1, h2]
  have hebo := w.eboEnd r hr
  have hl3 : m3.length = G.eb.length := c2.trans (b2.trans a2)
  have U3 : Upd r B G0 { G with eb := m3 } :=
    I.upd.scratch (by omega) m3 G.searchCur hl3 (fun a ha => hbits a (Or.inl ha))
  have hcl3 : Rooted G0 r (bset m3 ⟨B, (G0.V r).N⟩) := by
    rw [hR3]
    obtain ⟨⟨k1, k2, k3⟩, k4⟩ := I.cl
    refine ⟨⟨Finset.mem_insert_of_mem k1, ?_, ?_⟩, ?_⟩
    · intro c hc
      rcases Finset.mem_insert.1 hc with rfl | hc
      · exact hx.1
      · exact k2 c hc
    · intro c hc d hd
      rcases Finset.mem_insert.1 hc with hc | hc <;> rcases Finset.mem_insert.1 hd with hd | hd
      · rw [hc, hd]; exact A_refl w hr hx.1
      · rw [hc]; exact A_symm w hr (k2 d hd) (xb d hd)
      · rw [hd]; exact xb c hc
      · exact k3 c hc d hd
    · intro c hc hne
      rcases Finset.mem_insert.1 hc with rfl | hc
      · exact I.rt _ hxC
      · exact k4 c hc hne
  have hcard3 : (bset m3 ⟨B, (G0.V r).N⟩).card = cs + 1 := by
    rw [hR3, Finset.card_insert_of_notMem xa]
    have := I.card
    simp only at this
    rw [this]
  have hpad3 : PadZero m3 ⟨B, (G0.V r).N⟩ := by
    intro j h1 h2
    simp only at h1 h2 ⊢
    rw [c6 _ (by omega), b3, a3]
    have e1 : ¬ (64 * B + j = 64 * (B + q) + x.pos) := by omega
    have e2 : ¬ (64 * B + j = 64 * B + x.pos) := by have := hx.1; omega
    simp only [e1, e2, decide_false, Bool.not_false, Bool.true_and, Bool.false_or]
    exact I.padr j h1 h2
  have hab3 : ∀ a, 64 * (B + 2 * q) ≤ a → bitAt m3 a = bitAt G0.eb a := by
    intro a ha
    rw [hbits a (Or.inr ha)]; exact I.above a ha
  have hall3 : ∀ c ∈ G0.rootCand r, c ∈ bset m3 ⟨B + q, (G0.V r).N⟩ ∨
      c ∈ bset m3 ⟨B, (G0.V r).N⟩ ∨ ∃ t ∈ bset m3 ⟨B, (G0.V r).N⟩, ¬ G0.A r t c := by
    intro c hc
    rw [hR3]
    rcases I.all c hc with h | h | ⟨t, ht, h⟩
    · by_cases hcx : c = x.pos
      · exact Or.inr (Or.inl (by rw [hcx]; exact Finset.mem_insert_self _ _))
      · by_cases hc3 : c ∈ bset m3 ⟨B + q, (G0.V r).N⟩
        · exact Or.inl hc3
        · have hn := c7 c (by rw [hC]; exact Finset.mem_erase.2 ⟨hcx, h⟩) hc3
          refine Or.inr (Or.inr ⟨x.pos, Finset.mem_insert_self _ _, fun hA => hn ?_⟩)
          have := A_symm w hr hx.1 hA
          unfold A at this ⊢
          rwa [F.nadj, F.e, F.e]
    · exact Or.inr (Or.inl (Finset.mem_insert_of_mem h))
    · exact Or.inr (Or.inr ⟨t, Finset.mem_insert_of_mem ht, h⟩)
  by_cases hpot : cs + 1 + left3 ≤ G.curMax
  · rw [if_pos hpot]
    exact Or.inr ⟨_, rfl, U3, I.sc, I.mcs, hab3, Or.inl I.cm⟩
  rw [if_neg hpot]
  by_cases hl0 : left3 = 0
  · rw [if_pos hl0]
    obtain ⟨v1, m4, v2, v3, v4, v5⟩ := heurSave_spec (G := { G with eb := m3 }) w hr U3 hB
      (ro := B) (cs := cs + 1) (Nat.le_refl _) (by simp only; omega) hpad3 hcl3 hcard3
      (congrArg Vtx.mcs I.mcs) (by simp only; omega)
    rw [v1, ok_bind, v2, ok_bind]
    refine Or.inr ⟨_, rfl, v3, I.sc, I.mcs, ?_, Or.inr ?_⟩
    · intro a ha
      show bitAt m4 a = _
      rw [v4 a (by omega)]; exact hab3 a ha
    · show Full G0 r (bset m4 (G0.vb r))
      rw [v5]
      intro c hc
      rcases hall3 c hc with h | h
      · rw [hl0] at c3
        rw [Finset.card_eq_zero.1 c3.symm] at h
        exact absurd h (Finset.notMem_empty _)
      · exact h
  · rw [if_neg hl0]
    have hrt3 : ∀ c ∈ bset m3 ⟨B + q, (G0.V r).N⟩, c ∈ G0.rootCand r := by
      intro c hc
      have hc2 := c4 hc
      rw [hC, Finset.mem_erase] at hc2
      exact I.rt c hc2.2
    refine Or.inl ⟨_, rfl, ⟨⟨U3, I.sc, I.mcs, I.cm, hab3, hcl3, hrt3, hcard3, hpad3, c3, ?_, hall3⟩,
      by simp only; omega⟩, by simp only; omega⟩
    intro c hc
    simp only at hc ⊢
    have hc2 := c4 hc
    rw [hC, Finset.mem_erase] at hc2
    obtain ⟨d1, d2, k, hk, y, hy, hyc⟩ := I.adj c hc2.2
    simp only at hk d1 d2
    have hcN := (mem_bset.1 hc).1
    have hA := c5 c hc
    have hA' : G0.A r c x.pos := by
      unfold A at hA ⊢
      rwa [F.nadj, F.e, F.e] at hA
    refine ⟨?_, ?_, k, ?_, y, hy, hyc⟩
    · rw [hR3, Finset.mem_insert]
      rintro (h | h)
      · exact hc2.1 h
      · exact d1 h
    · rw [hR3]
      intro t ht
      rcases Finset.mem_insert.1 ht with ht | ht
      · rw [ht]; exact A_symm w hr hcN hA'
      · exact d2 t ht
    · by_contra hlt
      have : k = i := by omega
      subst this
      rw [hx?] at hy
      injection hy with hy
      exact hc2.1 (by rw [← hyc, hy])

theorem heurVertex_spec {srt : List VData → List VData} (hsrt : ∀ l, (srt l).Perm l)
    {G0 : Graph} (w : WF G0) {r B : Nat} (hr : r < G0.nVert)
    (hB : G0.ebSize < B) (hlen : B + 2 * dlen G0.maxDeg ≤ G0.eb.length)
    (hpad : PadZero G0.eb (G0.vb r)) :
    ∃ G', G0.heurVertex srt r ⟨B, G0.maxDeg⟩ ⟨B + dlen G0.maxDeg, G0.maxDeg⟩ = .ok G' ∧
      HDone r B (dlen G0.maxDeg) G0 G' := by
  have hmax := w.maxd r hr
  have hq := dlen_mono hmax
  have hNpos := N_pos w hr
  have hsp := w.spos r hr
  have hdl := @dlen_le (G0.V r).N
  have hebo := w.eboEnd r hr
  unfold heurVertex
  rw [vtx_ok w hr, ok_bind]
  obtain ⟨m1, w1, a1, a2, a3, _, _, a6, a7⟩ := GBits.clear_spec ⟨B, G0.maxDeg⟩ G0.eb (G0.V r).N
    (by simp only; omega)
  rw [a1, ok_bind]
  obtain ⟨m2, w2, b1, b2, b3, _, _, b6, b7⟩ := GBits.clear_spec
    ⟨B + dlen G0.maxDeg, G0.maxDeg⟩ m1 (G0.V r).N (by simp only; omega)
  rw [b1, ok_bind]
  obtain ⟨m3, c1, c2, c3⟩ := GBits.set_spec ⟨B, G0.maxDeg⟩ m2 (G0.V r).spos
    (by have := div_lt_dlen hsp; simp only; omega)
  rw [c1, ok_bind]
  obtain ⟨m4, d1, d2, d3⟩ := heurCollect_spec w hr ⟨B + dlen G0.maxDeg, G0.maxDeg⟩ m3
    (by simp only; omega)
  rw [d1, ok_bind]
  simp only at a3 a6 a7 b3 b6 b7 c3 d3 ⊢
  replace a6 := a6 hmax
  replace b6 := b6 hmax
  generalize hqd : dlen G0.maxDeg = q at *
  have hout : ∀ a, a < 64 * B ∨ 64 * (B + 2 * q) ≤ a → bitAt m4 a = bitAt G0.eb a := by
    intro a ha
    have h1 : ¬ (64 * (B + q) ≤ a ∧ a - 64 * (B + q) ∈ G0.rootCand r) := by
      rintro ⟨h1, h2⟩
      have := (mem_rootCand.1 h2).1
      omega
    have h2 : ¬ (a = 64 * B + (G0.V r).spos) := by omega
    rw [d3, c3, b7, if_neg (by omega), a7, if_neg (by omega)]
    simp [h1, h2]
  have hres : ∀ i, i < 64 * dlen (G0.V r).N → bitAt m4 (64 * B + i) = decide (i = (G0.V r).spos) := by
    intro i hi
    have h1 : ¬ (64 * (B + q) ≤ 64 * B + i ∧ 64 * B + i - 64 * (B + q) ∈ G0.rootCand r) := by
      omega
    rw [d3, c3, b7, if_neg (by omega), a7, if_pos (by omega), Bool.or_false]
    rw [decide_eq_false h1, Bool.false_or]
    apply decide_eq_decide.2; omega
  have hcand : ∀ i, i < 64 * dlen (G0.V r).N →
      bitAt m4 (64 * (B + q) + i) = decide (i ∈ G0.rootCand r) := by
    intro i hi
    have h2 : ¬ (64 * (B + q) + i = 64 * B + (G0.V r).spos) := by omega
    rw [d3, c3, b7, if_pos (by omega), decide_eq_false h2]
    have h3 : 64 * (B + q) + i - 64 * (B + q) = i := by omega
    rw [h3]
    have h4 : 64 * (B + q) ≤ 64 * (B + q) + i := by omega
    simp [h4]
  have hl4 : m4.length = G0.eb.length := by rw [d2, c2, b2, a2]
  have U4 : Upd r B G0 { G0 with eb := m4 } :=
    (Upd.refl hpad).scratch (by omega) m4 G0.searchCur hl4 (fun a ha => hout a (Or.inl ha))
  by_cases hc : (G0.rootCand r).card ≤ G0.curMax
  · rw [if_pos hc]
    exact ⟨_, rfl, U4, rfl, rfl, fun a ha => hout a (Or.inr ha), Or.inl rfl⟩
  rw [if_neg hc]
  have hperm := hsrt (G0.nbOf r (G0.V r).N)
  generalize srt (G0.nbOf r (G0.V r).N) = nb at hperm
  have hnb : ∀ y ∈ nb, y.pos < (G0.V r).N ∧ y.id = G0.e r y.pos := by
    intro y hy
    obtain ⟨h1, h2⟩ := mem_nbOf (hperm.mem_iff.1 hy)
    exact ⟨(mem_rootCand.1 h1).1, h2⟩
  have hRset : bset m4 ⟨B, (G0.V r).N⟩ = {(G0.V r).spos} := by
    ext c
    rw [mem_bset, Finset.mem_singleton]
    simp only
    constructor
    · rintro ⟨h1, h2⟩
      rw [hres c (by omega)] at h2
      simpa using h2
    · rintro rfl
      refine ⟨hsp, ?_⟩
      rw [hres _ (by omega)]; simp
  have hCset : bset m4 ⟨B + q, (G0.V r).N⟩ = G0.rootCand r := by
    ext c
    rw [mem_bset]
    simp only
    constructor
    · rintro ⟨h1, h2⟩
      rw [hcand c (by omega)] at h2
      simpa using h2
    · intro h
      have := (mem_rootCand.1 h).1
      refine ⟨this, ?_⟩
      rw [hcand _ (by omega)]; simpa using h
  obtain ⟨G', l1, l2⟩ := loop_rule
    (body := heurGrow r (G0.V r) nb ⟨B, G0.maxDeg⟩ ⟨B + q, G0.maxDeg⟩)
    (fun s => HInv G0 r B q nb s ∧ s.2.1 ≤ nb.length)
    (HDone r B q G0)
    (fun s => nb.length - s.2.1)
    (fun s hs => heurGrow_spec w hr hB hq hlen hnb hs.1 hs.2)
    (s := ({ G0 with eb := m4 }, 0, 1, (G0.rootCand r).card)) (fuel := nb.length + 1)
    ⟨⟨U4, rfl, rfl, rfl, fun a ha => hout a (Or.inr ha), by
        show Rooted G0 r (bset m4 _)
        rw [hRset]
        refine ⟨⟨by simp, ?_, ?_⟩, ?_⟩
        · intro i hi; rw [Finset.mem_singleton.1 hi]; exact hsp
        · intro i hi j hj
          rw [Finset.mem_singleton.1 hi, Finset.mem_singleton.1 hj]
          exact A_refl w hr hsp
        · intro i hi hne
          exact absurd (Finset.mem_singleton.1 hi) hne, by
        show ∀ c ∈ bset m4 _, _
        rw [hCset]
        exact fun _ h => h, by
        show (bset m4 _).card = 1
        rw [hRset]; simp, by
        intro i h1 h2
        show bitAt m4 _ = false
        simp only at h1 h2 ⊢
        rw [hres i h2]
        simp only [decide_eq_false_iff_not]; omega, by
        show _ = (bset m4 _).card
        rw [hCset], by
        show ∀ c ∈ bset m4 ⟨B + q, (G0.V r).N⟩, c ∉ bset m4 _ ∧ (∀ t ∈ bset m4 _, _) ∧ _
        rw [hCset, hRset]
        intro c hc
        have hc' := mem_rootCand.1 hc
        refine ⟨by simp; omega, ?_, ?_⟩
        · intro t ht
          rw [Finset.mem_singleton.1 ht]
          exact A_spos w hr hc'.1
        · obtain ⟨y, hy, hyc⟩ := nbOf_mem (G := G0) hc hc'.1
          have hy' := hperm.mem_iff.2 hy
          obtain ⟨k, hk⟩ := List.getElem?_of_mem hy'
          exact ⟨k, Nat.zero_le _, y, hk, hyc⟩, by
        intro c hc
        left
        show c ∈ bset m4 _
        rw [hCset]
        exact hc⟩,
      by simp only; omega⟩
    (by simp only; omega)
  exact ⟨G', l1, l2⟩

/-- A graph object in the middle of the heuristic: with the two scratch windows wiped
it satisfies the invariant. -/
structure HMid (b : Nat) (G X Y : Graph) : Prop where
  ok : OkAt b Y
  imp : ImpAt b G Y
  mcs : ∀ v, Y.V v = G.V v
  eq : Y = { X with searchCur := b, eb := Y.eb }
  len : Y.eb.length = X.eb.length
  sc : X.searchCur = b + 2 * dlen G.maxDeg
  bits : ∀ a, bitAt Y.eb a =
    (if 64 * b ≤ a ∧ a < 64 * (b + 2 * dlen G.maxDeg) then false
      else bitAt X.eb a)
  full : Y.curMax = G.curMax ∨ (Rooted G Y.curLoc (bset Y.eb (G.vb Y.curLoc)) ∧
    Full G Y.curLoc (bset Y.eb (G.vb Y.curLoc)))

theorem HMid.step {srt : List VData → List VData} (hsrt : ∀ l, (srt l).Perm l)
    {b : Nat} {G X Y : Graph} (h : HMid b G X Y) {r : Nat} (hr : r < G.nVert) :
    ∃ X' Y', X.heurVertex srt r ⟨b, G.maxDeg⟩
        ⟨b + dlen G.maxDeg, G.maxDeg⟩ = .ok X' ∧ HMid b G X' Y' ∧
      X'.nVert = X.nVert := by
  have FY := h.imp.frame
  have hY := h.ok
  have FXY : Frame Y X := by
    rw [h.eq]
    exact ⟨rfl, rfl, fun _ => ⟨rfl, rfl, rfl, rfl⟩, h.len.symm, rfl, rfl, rfl, rfl, rfl, rfl⟩
  have FX := FY.trans FXY
  have wX : WF X := FXY.wf hY.wf
  have hYV : ∀ v, Y.V v = X.V v := by rw [h.eq]; intro v; rfl
  have hrX : r < X.nVert := by rw [FX.nVert]; exact hr
  have hst := hY.bot
  rw [← FXY.ebSize] at hst
  obtain ⟨L, _, hL⟩ := hY.room
  rw [FY.maxDeg, ← FXY.ebl] at hL
  have hLq : 2 * dlen G.maxDeg ≤ (L + 2) * dlen G.maxDeg :=
    Nat.mul_le_mul_right _ (by omega)
  have hE := wX.eboEnd r hrX
  have hbl : ∀ a, a < 64 * b → bitAt Y.eb a = bitAt X.eb a := by
    intro a ha; rw [h.bits, if_neg (by omega)]
  have hpad : PadZero X.eb (X.vb r) := by
    have := hY.pad r (by rw [FY.nVert]; exact hr)
    intro i h1 h2
    have h3 := this i (by rw [← FXY.vb]; exact h1) (by rw [← FXY.vb]; exact h2)
    rw [← FXY.vb, hbl _ (by simp only [vb] at h2 ⊢; omega)] at h3
    exact h3
  have hv := heurVertex_spec hsrt wX (r := r) (B := b) hrX hst
    (by rw [FX.maxDeg]; omega) hpad
  rw [FX.maxDeg] at hv
  obtain ⟨X', a1, a2⟩ := hv
  obtain ⟨eb', b1, b2, b3⟩ := zeroRange_spec X'.eb b (2 * dlen G.maxDeg)
    (by rw [a2.upd.frame.ebl]; omega)
  have U := a2.upd
  refine ⟨X', { X' with searchCur := b, eb := eb' }, a1, ?_, U.frame.nVert⟩
  have hb' : ∀ a, a < 64 * b → bitAt eb' a = bitAt X'.eb a := by
    intro a ha; rw [b3, if_neg (by omega)]
  have hwin : bset eb' (X.vb r) = bset X'.eb (X.vb r) := by
    apply bset_congr rfl
    intro i hi
    have := @dlen_le (X.V r).N
    simp only [vb] at hi ⊢
    exact hb' _ (by omega)
  have hYc : Y.searchCur = b := by rw [h.eq]
  have hVr : (Y.V r).ebo = (X.V r).ebo ∧ (Y.V r).N = (X.V r).N := by rw [hYV]; exact ⟨rfl, rfl⟩
  have hcm : Y.curMax = X.curMax ∧ Y.curLoc = X.curLoc ∧ Y.limit = X.limit := by
    rw [h.eq]; exact ⟨rfl, rfl, rfl⟩
  have FR : Frame Y { X' with searchCur := b, eb := eb' } :=
    (FXY.trans U.frame).trans
      (Frame.mk' X' eb' b X'.curMax X'.curLoc b2)
  have hd : VDone r Y { X' with searchCur := b, eb := eb' } := by
    refine ⟨⟨FR, ?_, ?_, ?_, ?_, ?_⟩, by rw [hYc], ?_⟩
    · rw [hcm.2.2]; exact U.lim
    · intro v hv; rw [hYV]; exact U.other v hv
    · intro a ha hna
      rw [hYc] at ha
      rw [hVr.1, hVr.2] at hna
      show bitAt eb' a = _
      rw [hb' a ha, hbl a ha]
      exact U.out a ha hna
    · have hp := U.pad
      rw [← FXY.vb]
      intro i h1 h2
      show bitAt eb' _ = _
      rw [hb' _ (by simp only [vb] at h2 ⊢; omega)]
      exact hp i h1 h2
    · rw [← FXY.vb, ← FXY.rooted, hYc]
      show ((∀ a, a < 64 * b → bitAt eb' a = bitAt Y.eb a) ∧ X'.curMax = Y.curMax ∧
        X'.curLoc = Y.curLoc ∧ X'.V r = Y.V r) ∨ (Rooted X r (bset eb' (X.vb r)) ∧
        (bset eb' (X.vb r)).card = X'.curMax ∧ Y.curMax < X'.curMax ∧ X'.curLoc = r ∧
        ((X'.V r).mcs = (Y.V r).mcs ∨ (X'.V r).mcs = X'.curMax))
      rw [hcm.1, hcm.2.1, hwin, hYV]
      rcases U.res with ⟨h1, h2⟩ | h1
      · refine Or.inl ⟨?_, h2⟩
        intro a ha
        rw [hb' a ha, hbl a ha]; exact h1 a ha
      · exact Or.inr h1
    · intro a ha
      rw [hYc] at ha
      show bitAt eb' a = false
      rw [b3]
      split
      · rfl
      · rename_i hn
        rw [a2.above a (by omega)]
        have h3 := h.bits a
        rw [if_neg hn] at h3
        rw [← h3]
        exact hY.zero a ha
  obtain ⟨o1, i1⟩ := hd.okAt hY (by rw [FY.nVert]; exact hr)
  refine ⟨o1, h.imp.trans i1, ?_, rfl, b2, a2.sc.trans h.sc, b3, ?_⟩
  · intro v
    show X'.V v = _
    rw [← h.mcs v, hYV]
    by_cases hvr : v = r
    · rw [hvr]; exact a2.mcs
    · exact U.other v hvr
  · show X'.curMax = G.curMax ∨ (Rooted G X'.curLoc (bset eb' (G.vb X'.curLoc)) ∧
      Full G X'.curLoc (bset eb' (G.vb X'.curLoc)))
    rcases U.res with ⟨h1, h2, h3, _⟩ | ⟨h1, _, h2, h3, _⟩
    · rw [h2, h3, ← hcm.1, ← hcm.2.1]
      refine h.full.imp_right fun hf => ?_
      have : bset eb' (G.vb Y.curLoc) = bset Y.eb (G.vb Y.curLoc) := by
        apply bset_congr rfl
        intro i hi
        have hloc := hY.loc
        have hE := hY.wf.eboEnd _ hloc
        have hb := hY.bot
        have hd := @dlen_le (Y.V Y.curLoc).N
        rw [← FY.vb] at hi ⊢
        simp only [vb] at hi ⊢
        rw [hb' _ (by omega), h1 _ (by omega), hbl _ (by omega)]
      rw [this]
      exact hf
    · right
      have hf := a2.full.resolve_left (by omega)
      rw [h3, ← FX.vb, hwin, ← FX.rooted]
      refine ⟨h1, ?_⟩
      intro c hc
      have hc' : c ∈ X.rootCand r := by rw [FX.rootCand]; exact hc
      refine (hf c hc').imp_right ?_
      rintro ⟨t, ht, hA⟩
      refine ⟨t, ht, fun hA' => hA ?_⟩
      unfold A at hA' ⊢
      rwa [FX.nadj, FX.e, FX.e]

/-- The greedy heuristic keeps the invariant, only ever improves the record, with cliques that it cannot
extend, and never touches the per-vertex bounds. -/
theorem heurGraph_full {srt : List VData → List VData} (hsrt : ∀ l, (srt l).Perm l)
    {b : Nat} (h : OkAt b G) :
    ∃ G', G.heurGraph srt = .ok G' ∧ OkAt b G' ∧ ImpAt b G G' ∧ (∀ v, G'.V v = G.V v) ∧
      (G'.curMax = G.curMax ∨ (Rooted G G'.curLoc (bset G'.eb (G.vb G'.curLoc)) ∧
        Full G G'.curLoc (bset G'.eb (G.vb G'.curLoc)))) := by
  have w := h.wf
  obtain ⟨L, _, hL⟩ := h.room
  have hbl := w.eblen
  have hLq : 2 * dlen G.maxDeg ≤ (L + 2) * dlen G.maxDeg :=
    Nat.mul_le_mul_right _ (by omega)
  have hs := h.cur
  unfold heurGraph
  simp only
  rw [loadMemory_eq (G := G) _ (by omega)]
  simp only
  rw [loadMemory_eq (G := { G with searchCur := G.searchCur + dlen G.maxDeg }) _
    (by simp only; omega)]
  simp only
  rw [hs]
  have hm0 : HMid b G { G with searchCur := b + dlen G.maxDeg + dlen G.maxDeg } G := by
    refine ⟨h, ImpAt.refl b G, fun _ => rfl, ?_, rfl, by simp only; omega, ?_, Or.inl rfl⟩
    · show G = { G with searchCur := b }
      have : ∀ n, n = G.searchCur → G = { G with searchCur := n } := by rintro n rfl; rfl
      exact this _ hs.symm
    · intro a
      simp only
      split
      · exact h.zero a (by omega)
      · rfl
  obtain ⟨X1, Y1, a1, a2, a3⟩ := hm0.step hsrt h.loc
  rw [a1, ok_bind]
  obtain ⟨X2, b1, Y2, b2⟩ := loop_rule
    (body := fun (s : Graph × Nat) => do
      let (G', i) := s
      if i < G'.nVert ∧ G'.curMax < G'.limit then do
        let V ← G'.vtx i
        if V.mcs ≤ G'.curMax then .ok (.inl (G', i + 1))
        else do
          let G' ← G'.heurVertex srt i ⟨b, G.maxDeg⟩
            ⟨b + dlen G.maxDeg, G.maxDeg⟩
          .ok (.inl (G', i + 1))
      else .ok (.inr G'))
    (fun s => (∃ Y, HMid b G s.1 Y) ∧ s.2 ≤ G.nVert)
    (fun X => ∃ Y, HMid b G X Y)
    (fun s => G.nVert - s.2)
    (by
      rintro ⟨X, i⟩ ⟨⟨Y, hY⟩, hi⟩
      have hYX : Y.nVert = X.nVert ∧ Y.vs = X.vs := by rw [hY.eq]; exact ⟨rfl, rfl⟩
      have hX : X.nVert = G.nVert := by rw [← hYX.1]; exact hY.imp.frame.nVert
      simp only at hi ⊢
      by_cases hc : i < X.nVert ∧ X.curMax < X.limit
      · rw [if_pos hc]
        have hvt : X.vtx i = .ok (X.V i) := by
          have := vtx_ok hY.ok.wf (v := i) (by rw [hYX.1]; exact hc.1)
          unfold vtx V at this ⊢
          rwa [hYX.2] at this
        rw [hvt, ok_bind]
        by_cases hm : (X.V i).mcs ≤ X.curMax
        · rw [if_pos hm]
          exact Or.inl ⟨_, rfl, ⟨⟨Y, hY⟩, by simp only; omega⟩, by simp only; omega⟩
        · rw [if_neg hm]
          obtain ⟨X', Y', c1, c2, _⟩ := hY.step hsrt (r := i) (by omega)
          rw [c1, ok_bind]
          exact Or.inl ⟨_, rfl, ⟨⟨Y', c2⟩, by simp only; omega⟩, by simp only; omega⟩
      · rw [if_neg hc]
        exact Or.inr ⟨_, rfl, Y, hY⟩)
    (s := (X1, 0)) (fuel := X1.nVert + 1) ⟨⟨Y1, a2⟩, Nat.zero_le _⟩
    (by have := a3; simp only at this ⊢; omega)
  rw [b1, ok_bind]
  have hX2l : X2.eb.length = G.eb.length := by rw [← b2.len]; exact b2.imp.frame.ebl
  obtain ⟨eb', c1, c2, c3⟩ := clearMemory_spec (G := X2) (2 * dlen G.maxDeg)
    (by rw [b2.sc]; omega) (by rw [b2.sc]; omega) (by omega)
  have hebY : eb' = Y2.eb := by
    apply mem_ext
    · rw [c2, b2.len]
    · intro a
      rw [c3, b2.bits, b2.sc]
      have : b + 2 * dlen G.maxDeg - 2 * dlen G.maxDeg = b := by omega
      rw [this]
  refine ⟨Y2, ?_, b2.ok, b2.imp, b2.mcs, b2.full⟩
  rw [c1]
  congr 1
  rw [b2.eq, hebY, b2.sc]
  have : b + 2 * dlen G.maxDeg - 2 * dlen G.maxDeg = b := by omega
  rw [this]

theorem heurGraph_at {srt : List VData → List VData} (hsrt : ∀ l, (srt l).Perm l)
    {b : Nat} (h : OkAt b G) :
    ∃ G', G.heurGraph srt = .ok G' ∧ OkAt b G' ∧ ImpAt b G G' ∧ ∀ v, G'.V v = G.V v := by
  obtain ⟨G', a1, a2, a3, a4, _⟩ := heurGraph_full hsrt h
  exact ⟨G', a1, a2, a3, a4⟩

theorem heurGraph_spec {srt : List VData → List VData} (hsrt : ∀ l, (srt l).Perm l)
    (h : Ok G) :
    ∃ G', G.heurGraph srt = .ok G' ∧ Ok G' ∧ Imp G G' ∧ ∀ v, G'.V v = G.V v := by
  obtain ⟨G', a1, a2, a3, a4⟩ := heurGraph_at hsrt h.at
  exact ⟨G', a1, a2.ok h a3.frame a3.low, a3.toImp, a4⟩

end Graph

end CM
