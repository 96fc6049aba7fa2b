import Verif.Lemmas.Search

/-! # `RecursionDFS` (dfs_recurse.cpp) -/

namespace CM

namespace Graph

variable {G : Graph}

theorem recScan_spec (w : WF G) {r j : Nat} (hr : r < G.nVert) (hj : j < (G.V r).N)
    (fut : GBits) (eb : Mem) (hin : fut.off + dlen (G.V r).N ≤ eb.length) :
    ∃ eb', G.recScan (G.V r) (G.V (G.e r j)) fut eb j = .ok eb' ∧ eb'.length = eb.length ∧
      ∀ a, bitAt eb' a = (bitAt eb a && !decide (64 * fut.off + j < a ∧
        a < 64 * fut.off + (G.V r).N ∧ ¬ G.A r j (a - 64 * fut.off))) := by
  have hu := e_lt w hr hj
  have hsp := w.spos _ hu
  unfold recScan
  obtain ⟨⟨eb', st⟩, h1, h2, _, _, h3⟩ := forRange_rule (lo := j + 1) (hi := (G.V r).N)
    (s := (eb, (G.V (G.e r j)).spos + 1))
    (body := fun k (s : Mem × Nat) => do
      let (eb, start) := s
      if ← fut.test eb k then do
        let val ← G.nbr (G.V r) k
        let (f, ans) ← binaryFind G.el (uadd (G.V (G.e r j)).elo start)
          (usub (G.V (G.e r j)).N start) val
        let eb ← if f then .ok eb else fut.reset eb k
        .ok (eb, uadd start ans)
      else .ok s)
    (fun k s => s.1.length = eb.length ∧ s.2 ≤ (G.V (G.e r j)).N ∧
      (∀ k', k ≤ k' → k' < (G.V r).N → ∀ i, i < s.2 → G.e (G.e r j) i < G.e r k') ∧
      ∀ a, bitAt s.1 a = (bitAt eb a && !decide (64 * fut.off + j < a ∧
        a < 64 * fut.off + k ∧ ¬ G.A r j (a - 64 * fut.off))))
    (by omega)
    (by
      refine ⟨rfl, by simp only; omega, ?_, ?_⟩
      · intro k' h1 h2 i hi
        have h3 := w.sorted r hr j k' (by omega) h2
        have h4 := w.self _ hu
        by_cases h5 : i = (G.V (G.e r j)).spos
        · rw [h5, h4]; exact h3
        · have := w.sorted _ hu i (G.V (G.e r j)).spos (by simp only at hi; omega) hsp
          omega
      · intro a
        have : ¬ (64 * fut.off + j < a ∧ a < 64 * fut.off + (j + 1) ∧
          ¬ G.A r j (a - 64 * fut.off)) := by omega
        simp only
        rw [decide_eq_false this]; simp)
    (by
      rintro k ⟨m, start⟩ hk1 hk2 ⟨b1, b2, b3, b4⟩
      simp only at b1 b2 b3 b4 ⊢
      rw [fut.test_spec m k (by have := div_lt_dlen hk2; omega), ok_bind]
      have hmono : ∀ (st : Nat), (∀ i, i < st → G.e (G.e r j) i < G.e r k) →
          ∀ k', k + 1 ≤ k' → k' < (G.V r).N → ∀ i, i < st → G.e (G.e r j) i < G.e r k' := by
        intro st h k' h1 h2 i hi
        have := w.sorted r hr k k' (by omega) h2
        have := h i hi
        omega
      by_cases hb : bitAt m (64 * fut.off + k) = true
      swap
      · rw [if_neg hb]
        refine ⟨_, rfl, b1, b2, hmono _ (b3 k (Nat.le_refl _) hk2), ?_⟩
        intro a
        simp only
        by_cases ha : a = 64 * fut.off + k
        · have h5 : bitAt m a = false := by rw [ha]; simpa using hb
          rw [h5]
          rw [b4] at h5
          have h6 : ¬ (64 * fut.off + j < a ∧ a < 64 * fut.off + k ∧
            ¬ G.A r j (a - 64 * fut.off)) := by omega
          rw [decide_eq_false h6] at h5
          have h7 : bitAt eb a = false := by simpa using h5
          rw [h7]; rfl
        · rw [b4]
          congr 2
          apply decide_eq_decide.2
          constructor <;> rintro ⟨h1, h2, h3⟩ <;> exact ⟨h1, by omega, h3⟩
      rw [if_pos hb, nbr_ok w hr hk2, ok_bind]
      obtain ⟨f, ans, p1, p2, p3, _, p5⟩ := probe w hu b2 (b3 k (Nat.le_refl _) hk2)
      rw [p1, ok_bind]
      simp only
      have key : ∃ m', (if f = true then (Except.ok m : M Mem) else fut.reset m k) = .ok m' ∧
          m'.length = eb.length ∧ ∀ a, bitAt m' a = (bitAt eb a && !decide (64 * fut.off + j < a ∧
            a < 64 * fut.off + (k + 1) ∧ ¬ G.A r j (a - 64 * fut.off))) := by
        have hkk : 64 * fut.off + k - 64 * fut.off = k := by omega
        by_cases hf : f = true
        · rw [if_pos hf]
          refine ⟨m, rfl, b1, ?_⟩
          intro a
          rw [b4]
          congr 2
          apply decide_eq_decide.2
          constructor
          · rintro ⟨h1, h2, h3⟩; exact ⟨h1, by omega, h3⟩
          · rintro ⟨h1, h2, h3⟩
            refine ⟨h1, ?_, h3⟩
            by_contra h4
            have : a = 64 * fut.off + k := by omega
            rw [this, hkk] at h3
            exact h3 (p2.1 hf)
        · rw [if_neg hf]
          obtain ⟨m', c1, c2, c3⟩ := fut.reset_spec m k (by have := div_lt_dlen hk2; omega)
          refine ⟨m', c1, c2.trans b1, ?_⟩
          intro a
          rw [c3, b4]
          by_cases ha : a = 64 * fut.off + k
          · have h6 : (64 * fut.off + j < a ∧ a < 64 * fut.off + (k + 1) ∧
              ¬ G.A r j (a - 64 * fut.off)) := by
              refine ⟨by omega, by omega, ?_⟩
              rw [ha, hkk]
              intro h
              exact hf (p2.2 h)
            rw [decide_eq_true h6, decide_eq_true ha]; simp
          · rw [decide_eq_false ha]
            simp only [Bool.not_false, Bool.true_and]
            congr 2
            apply decide_eq_decide.2
            constructor <;> rintro ⟨h1, h2, h3⟩ <;> exact ⟨h1, by omega, h3⟩
      obtain ⟨m', c1, c2, c3⟩ := key
      rw [← ite_bind, c1, ok_bind]
      exact ⟨_, rfl, c2, p3, hmono _ p5, c3⟩)
  rw [h1, ok_bind]
  exact ⟨eb', rfl, h2, h3⟩

/-- Hypotheses of a recursive call: `po`/`ro` are the words where the candidate set
and the clique under construction live. -/
structure RPre (G0 : Graph) (r B po ro : Nat) (G : Graph) : Prop where
  upd : Upd r B G0 G
  poB : B ≤ po
  poS : po + dlen (G0.V r).N ≤ G.searchCur
  roB : B ≤ ro
  roS : ro + dlen (G0.V r).N ≤ G.searchCur
  dis : po + dlen (G0.V r).N ≤ ro ∨ ro + dlen (G0.V r).N ≤ po
  zero : ∀ a, 64 * G.searchCur ≤ a → bitAt G.eb a = false
  padp : PadZero G.eb ⟨po, (G0.V r).N⟩
  padr : PadZero G.eb ⟨ro, (G0.V r).N⟩
  room : G.searchCur + 2 * (bset G.eb ⟨po, (G0.V r).N⟩).card * dlen (G0.V r).N ≤ G0.eb.length
  cl : Rooted G0 r (bset G.eb ⟨ro, (G0.V r).N⟩)
  rt : ∀ c ∈ bset G.eb ⟨po, (G0.V r).N⟩, c ∈ G0.rootCand r
  adj : ∀ c ∈ bset G.eb ⟨po, (G0.V r).N⟩, c ∉ bset G.eb ⟨ro, (G0.V r).N⟩ ∧
    ∀ t ∈ bset G.eb ⟨ro, (G0.V r).N⟩, G0.A r t c

/-- What the clock can do: once expired it stays expired, and an unlimited clock
never expires. -/
def ClkLe (t t' : Clock) : Prop := (t = none → t' = none) ∧ (t = some 0 → t' = some 0)

theorem ClkLe.refl (t : Clock) : ClkLe t t := ⟨id, id⟩

theorem ClkLe.trans {t1 t2 t3 : Clock} (h : ClkLe t1 t2) (h' : ClkLe t2 t3) : ClkLe t1 t3 :=
  ⟨fun x => h'.1 (h.1 x), fun x => h'.2 (h.2 x)⟩

theorem tick_le (t : Clock) : ClkLe t (tick t).2 := by
  match t with
  | none => exact ⟨fun _ => rfl, fun h => by cases h⟩
  | some 0 => exact ⟨fun h => (by cases h), fun _ => rfl⟩
  | some (n + 1) => exact ⟨fun h => (by cases h), fun h => by cases h⟩

theorem tick_expired {t : Clock} (h : (tick t).1 = true) : (tick t).2 = some 0 := by
  match t, h with
  | some 0, _ => rfl

/-- Outcome of a recursive call. -/
structure RPost (G0 : Graph) (r B po ro : Nat) (G : Graph) (t : Clock) (G' : Graph) (t' : Clock) :
    Prop where
  upd : Upd r B G0 G'
  sc : G'.searchCur = G.searchCur
  bits : ∀ a, 64 * B ≤ a → bitAt G'.eb a = bitAt G.eb a
  mono : G.curMax ≤ G'.curMax
  clk : ClkLe t t'
  compl : t' = some 0 ∨ ∀ T ⊆ bset G.eb ⟨po, (G0.V r).N⟩, (∀ i ∈ T, ∀ j ∈ T, G0.A r i j) →
    (bset G.eb ⟨ro, (G0.V r).N⟩).card + T.card ≤ G'.curMax ∨ G'.limit ≤ G'.curMax

/-- Invariant of the loop over the candidates. -/
structure RLoop (G0 : Graph) (r B po ro : Nat) (G : Graph) (t : Clock) (j : Nat)
    (s : Graph × Clock) : Prop where
  upd : Upd r B G0 s.1
  sc : s.1.searchCur = G.searchCur + 2 * dlen (G0.V r).N
  bits : ∀ a, 64 * B ≤ a → a < 64 * G.searchCur → bitAt s.1.eb a = bitAt G.eb a
  zero : ∀ a, 64 * (G.searchCur + 2 * dlen (G0.V r).N) ≤ a → bitAt s.1.eb a = false
  cand : ∀ i, i < 64 * dlen (G0.V r).N → bitAt s.1.eb (64 * G.searchCur + i) =
    (decide (j ≤ i) && bitAt G.eb (64 * po + i))
  mono : G.curMax ≤ s.1.curMax
  clk : ClkLe t s.2
  compl : s.2 = some 0 ∨ ∀ T ⊆ bset G.eb ⟨po, (G0.V r).N⟩, (∀ i ∈ T, ∀ j ∈ T, G0.A r i j) →
    (∃ i ∈ T, i < j) →
    (bset G.eb ⟨ro, (G0.V r).N⟩).card + T.card ≤ s.1.curMax ∨ s.1.limit ≤ s.1.curMax

/-- One iteration of the loop over the candidates, assuming the recursive call behaves. -/
theorem recLoop_step {G0 : Graph} (w : WF G0) {r B po ro : Nat} (hr : r < G0.nVert)
    (hB : G0.ebSize < B) {fuel : Nat}
    (ih : ∀ (G : Graph) (t : Clock) (po : Nat), RPre G0 r B po ro G →
      (bset G.eb ⟨po, (G0.V r).N⟩).card < fuel →
      ∃ G' t', recSearch r (G0.V r) (dlen (G0.V r).N) fuel (G, t) ⟨po, (G0.V r).N⟩
        ⟨ro, (G0.V r).N⟩ = .ok (G', t') ∧ RPost G0 r B po ro G t G' t')
    {Gi : Graph} {t : Clock} (P : RPre G0 r B po ro Gi)
    (hfuel : (bset Gi.eb ⟨po, (G0.V r).N⟩).card < fuel + 1)
    (hne : (bset Gi.eb ⟨po, (G0.V r).N⟩).Nonempty)
    {j : Nat} (hj : j < (G0.V r).N) {s : Graph × Clock} (I : RLoop G0 r B po ro Gi t j s) :
    ∃ s', (do
        let (G, t) := s
        if ← GBits.test ⟨Gi.searchCur, (G0.V r).N⟩ G.eb j then do
          let vert ← G.nbr (G0.V r) j
          let eb ← GBits.set ⟨ro, (G0.V r).N⟩ G.eb j
          let eb ← GBits.reset ⟨Gi.searchCur, (G0.V r).N⟩ eb j
          let eb ← GBits.copyData ⟨Gi.searchCur + dlen (G0.V r).N, (G0.V r).N⟩ Gi.searchCur eb
          let U ← G.vtx vert
          let eb ← G.recScan (G0.V r) U ⟨Gi.searchCur + dlen (G0.V r).N, (G0.V r).N⟩ eb j
          let (G, t) ← recSearch r (G0.V r) (dlen (G0.V r).N) fuel ({ G with eb := eb }, t)
            ⟨Gi.searchCur + dlen (G0.V r).N, (G0.V r).N⟩ ⟨ro, (G0.V r).N⟩
          let eb ← GBits.reset ⟨ro, (G0.V r).N⟩ G.eb j
          .ok ({ G with eb := eb }, t)
        else .ok s : M (Graph × Clock)) = .ok s' ∧ RLoop G0 r B po ro Gi t (j + 1) s' := by
  obtain ⟨X, tX⟩ := s
  have hdl := @dlen_le (G0.V r).N
  have hdp := dlen_pos (N_pos w hr)
  have hdj := div_lt_dlen hj
  have FX : Frame G0 X := I.upd.frame
  have hXl : X.eb.length = G0.eb.length := FX.ebl
  have wX := FX.wf w
  have hrX : r < X.nVert := by rw [FX.nVert]; exact hr
  have hVX : X.nbr (G0.V r) j = .ok (G0.e r j) := by
    unfold nbr e; rw [FX.el]; exact rd_getD _ (by have := w.inEl r hr; omega)
  have hroom := P.room
  have hpoS := P.poS
  have hroS := P.roS
  have hpoB := P.poB
  have hroB := P.roB
  have hdis := P.dis
  have hrw : ∀ n, 2 * (n + 1) * dlen (G0.V r).N = 2 * n * dlen (G0.V r).N + 2 * dlen (G0.V r).N := by
    intro n; rw [Nat.mul_add, Nat.add_mul]
  have hebo := w.eboEnd r hr
  have hXsc : X.searchCur = Gi.searchCur + 2 * dlen (G0.V r).N := I.sc
  have hXbits : ∀ a, 64 * B ≤ a → a < 64 * Gi.searchCur → bitAt X.eb a = bitAt Gi.eb a := I.bits
  have hXzero : ∀ a, 64 * (Gi.searchCur + 2 * dlen (G0.V r).N) ≤ a → bitAt X.eb a = false := I.zero
  have hXcand : ∀ i, i < 64 * dlen (G0.V r).N → bitAt X.eb (64 * Gi.searchCur + i) =
    (decide (j ≤ i) && bitAt Gi.eb (64 * po + i)) := I.cand
  have hclk : ClkLe t tX := I.clk
  have hmono : Gi.curMax ≤ X.curMax := I.mono
  have hcompl := I.compl
  have hupd := I.upd
  simp only at hupd hcompl ⊢
  have hpp := P.padp
  have hrp := P.padr
  have hcl := P.cl
  have hrt := P.rt
  have hadj := P.adj
  generalize hPd : bset Gi.eb ⟨po, (G0.V r).N⟩ = PS at *
  generalize hRd : bset Gi.eb ⟨ro, (G0.V r).N⟩ = RS at *
  have hPS : ∀ i, i ∈ PS ↔ i < (G0.V r).N ∧ bitAt Gi.eb (64 * po + i) = true := by
    intro i; rw [← hPd, mem_bset]
  have hRS : ∀ i, i ∈ RS ↔ i < (G0.V r).N ∧ bitAt Gi.eb (64 * ro + i) = true := by
    intro i; rw [← hRd, mem_bset]
  have hcp : 0 < PS.card := Finset.card_pos.2 hne
  obtain ⟨c', hc'⟩ : ∃ c', PS.card = c' + 1 := ⟨PS.card - 1, by omega⟩
  rw [hc', hrw] at hroom
  by_cases hjP : j ∈ PS
  swap
  · -- nothing to do
    have hb : bitAt X.eb (64 * Gi.searchCur + j) = false := by
      rw [hXcand j (by omega)]
      have : bitAt Gi.eb (64 * po + j) = false := by
        by_contra h
        exact hjP ((hPS j).2 ⟨hj, by simpa using h⟩)
      rw [this, Bool.and_false]
    rw [GBits.test_spec ⟨Gi.searchCur, (G0.V r).N⟩ X.eb j (by simp only; omega), ok_bind]
    simp only [hb]
    refine ⟨_, rfl, hupd, hXsc, hXbits, hXzero, ?_, hmono, hclk, ?_⟩
    · intro i hi
      simp only
      rw [hXcand i hi]
      by_cases hij : i = j
      · subst hij
        have : bitAt Gi.eb (64 * po + i) = false := by
          by_contra h
          exact hjP ((hPS i).2 ⟨hj, by simpa using h⟩)
        rw [this]; simp
      · congr 1
        apply decide_eq_decide.2; omega
    · rcases hcompl with h | h
      · exact Or.inl h
      · right
        rw [hPd, hRd]
        intro T hT hTA hex
        obtain ⟨i, hi, hlt⟩ := hex
        refine h T hT hTA ⟨i, hi, ?_⟩
        have : i ≠ j := fun h => hjP (h ▸ hT hi)
        omega
  have hbj : bitAt Gi.eb (64 * po + j) = true := ((hPS j).1 hjP).2
  have hb : bitAt X.eb (64 * Gi.searchCur + j) = true := by
    rw [hXcand j (by omega), hbj]; simp
  rw [GBits.test_spec ⟨Gi.searchCur, (G0.V r).N⟩ X.eb j (by simp only; omega), ok_bind]
  simp only [hb, if_true]
  rw [hVX, ok_bind]
  obtain ⟨m1, a1, a2, a3⟩ := GBits.set_spec ⟨ro, (G0.V r).N⟩ X.eb j (by simp only; omega)
  rw [a1, ok_bind]
  obtain ⟨m2, b1, b2, b3⟩ := GBits.reset_spec ⟨Gi.searchCur, (G0.V r).N⟩ m1 j
    (by simp only; omega)
  rw [b1, ok_bind]
  obtain ⟨m3, c1, c2, c3⟩ := GBits.copyData_spec
    ⟨Gi.searchCur + dlen (G0.V r).N, (G0.V r).N⟩ Gi.searchCur m2
    (by simp only; omega) (by simp only; omega) (by simp only; omega)
  rw [c1, ok_bind]
  have hvt := vtx_ok wX (v := G0.e r j) (by rw [FX.nVert]; exact e_lt w hr hj)
  rw [hvt, ok_bind]
  obtain ⟨m4, d1, d2, d3⟩ := recScan_spec wX hrX (j := j) (by rw [FX.N]; exact hj)
    ⟨Gi.searchCur + dlen (G0.V r).N, (G0.V r).N⟩ m3 (by rw [FX.N]; simp only; omega)
  have hVr : X.recScan (X.V r) = X.recScan (G0.V r) := by
    have := FX.stat r
    funext U fut eb j
    unfold recScan nbr
    rw [this.1, this.2.2.1]
  rw [FX.e, hVr] at d1
  rw [d1, ok_bind]
  rw [FX.N] at d3
  simp only at a3 b3 c3 d3
  have hA : ∀ i k, X.A r i k ↔ G0.A r i k := by
    intro i k; unfold A; rw [FX.nadj, FX.e, FX.e]
  have hm2 : ∀ a, bitAt m2 a = (!decide (a = 64 * Gi.searchCur + j) &&
      (decide (a = 64 * ro + j) || bitAt X.eb a)) := by
    intro a; rw [b3, a3]
  have hlow : ∀ a, a < 64 * Gi.searchCur →
      bitAt m4 a = (decide (a = 64 * ro + j) || bitAt X.eb a) := by
    intro a ha
    have h1 : ¬ (64 * (Gi.searchCur + dlen (G0.V r).N) + j < a ∧
        a < 64 * (Gi.searchCur + dlen (G0.V r).N) + (G0.V r).N ∧
        ¬ X.A r j (a - 64 * (Gi.searchCur + dlen (G0.V r).N))) := by omega
    have h2 : ¬ (a = 64 * Gi.searchCur + j) := by omega
    rw [d3, decide_eq_false h1, c3, if_neg (by omega), hm2, decide_eq_false h2]
    simp
  have hcw : ∀ i, i < 64 * dlen (G0.V r).N → bitAt m2 (64 * Gi.searchCur + i) =
      (decide (j + 1 ≤ i) && bitAt Gi.eb (64 * po + i)) := by
    intro i hi
    have h2 : ¬ (64 * Gi.searchCur + i = 64 * ro + j) := by omega
    rw [hm2, decide_eq_false h2, Bool.false_or, hXcand i hi, ← Bool.and_assoc]
    congr 1
    rw [← decide_not, ← Bool.decide_and]
    apply decide_eq_decide.2; omega
  have hcand4 : ∀ i, i < 64 * dlen (G0.V r).N → bitAt m4 (64 * Gi.searchCur + i) =
      (decide (j + 1 ≤ i) && bitAt Gi.eb (64 * po + i)) := by
    intro i hi
    have h1 : ¬ (64 * (Gi.searchCur + dlen (G0.V r).N) + j < 64 * Gi.searchCur + i ∧
        64 * Gi.searchCur + i < 64 * (Gi.searchCur + dlen (G0.V r).N) + (G0.V r).N ∧
        ¬ X.A r j (64 * Gi.searchCur + i - 64 * (Gi.searchCur + dlen (G0.V r).N))) := by omega
    rw [d3, decide_eq_false h1, c3, if_neg (by omega), hcw i hi]
    simp
  have hfut4 : ∀ i, i < 64 * dlen (G0.V r).N →
      bitAt m4 (64 * (Gi.searchCur + dlen (G0.V r).N) + i) =
      (decide (j + 1 ≤ i) && bitAt Gi.eb (64 * po + i) &&
        !decide (j < i ∧ i < (G0.V r).N ∧ ¬ G0.A r j i)) := by
    intro i hi
    rw [d3, c3, if_pos (by omega)]
    have e1 : 64 * (Gi.searchCur + dlen (G0.V r).N) + i -
        64 * (Gi.searchCur + dlen (G0.V r).N) = i := by omega
    have e2 : i + 64 * Gi.searchCur = 64 * Gi.searchCur + i := by omega
    rw [e1, e2, hcw i hi]
    congr 2
    apply decide_eq_decide.2
    constructor
    · rintro ⟨h1, h2, h3⟩; exact ⟨by omega, by omega, fun h => h3 ((hA _ _).2 h)⟩
    · rintro ⟨h1, h2, h3⟩; exact ⟨by omega, by omega, fun h => h3 ((hA _ _).1 h)⟩
  have hhigh : ∀ a, 64 * (Gi.searchCur + 2 * dlen (G0.V r).N) ≤ a → bitAt m4 a = false := by
    intro a ha
    have h1 : ¬ (a = 64 * ro + j) := by omega
    rw [d3, c3, if_neg (by omega), hm2, hXzero a ha, decide_eq_false h1]
    simp
  have hl4 : m4.length = X.eb.length := d2.trans (c2.trans (b2.trans a2))
  have U4 : Upd r B G0 { X with eb := m4 } :=
    hupd.scratch (by omega) m4 X.searchCur hl4 (fun a ha => by
      rw [hlow a (by omega), decide_eq_false (by omega)]; rfl)
  have hR4 : bset m4 ⟨ro, (G0.V r).N⟩ = insert j RS := by
    ext i
    rw [mem_bset, Finset.mem_insert, hRS]
    simp only
    constructor
    · rintro ⟨h1, h2⟩
      rw [hlow _ (by omega), hXbits _ (by omega) (by omega)] at h2
      simp only [Bool.or_eq_true, decide_eq_true_eq] at h2
      rcases h2 with h2 | h2
      · left; omega
      · exact Or.inr ⟨h1, h2⟩
    · intro h
      have hi : i < (G0.V r).N := by
        rcases h with h | h
        · omega
        · exact h.1
      refine ⟨hi, ?_⟩
      rw [hlow _ (by omega), hXbits _ (by omega) (by omega)]
      simp only [Bool.or_eq_true, decide_eq_true_eq]
      rcases h with h | h
      · left; omega
      · exact Or.inr h.2
  have hF4 : bset m4 ⟨Gi.searchCur + dlen (G0.V r).N, (G0.V r).N⟩ =
      PS.filter (fun i => j < i ∧ G0.A r j i) := by
    ext i
    rw [mem_bset, Finset.mem_filter, hPS]
    simp only
    constructor
    · rintro ⟨h1, h2⟩
      rw [hfut4 i (by omega)] at h2
      simp only [Bool.and_eq_true, decide_eq_true_eq, Bool.not_eq_true',
        decide_eq_false_iff_not] at h2
      refine ⟨⟨h1, h2.1.2⟩, by omega, ?_⟩
      by_contra h3
      exact h2.2 ⟨by omega, h1, h3⟩
    · rintro ⟨⟨h1, h2⟩, h3, h4⟩
      refine ⟨h1, ?_⟩
      rw [hfut4 i (by omega)]
      simp only [Bool.and_eq_true, decide_eq_true_eq, Bool.not_eq_true',
        decide_eq_false_iff_not]
      exact ⟨⟨by omega, h2⟩, fun h => h.2.2 h4⟩
  have hFc : (PS.filter (fun i => j < i ∧ G0.A r j i)).card ≤ c' := by
    have : PS.filter (fun i => j < i ∧ G0.A r j i) ⊆ PS.erase j := by
      intro i hi
      rw [Finset.mem_filter] at hi
      rw [Finset.mem_erase]
      exact ⟨by omega, hi.1⟩
    have h1 := Finset.card_le_card this
    rw [Finset.card_erase_of_mem hjP] at h1
    omega
  have hjR : j ∉ RS := (hadj j hjP).1
  have P4 : RPre G0 r B (Gi.searchCur + dlen (G0.V r).N) ro { X with eb := m4 } := by
    refine ⟨U4, by omega, by show _ ≤ X.searchCur; omega, hroB, by show _ ≤ X.searchCur; omega,
      by omega, ?_, ?_, ?_, ?_, ?_, ?_, ?_⟩
    · intro a ha
      exact hhigh a (by simp only at ha; omega)
    · intro i h1 h2
      simp only at h1 h2 ⊢
      rw [hfut4 i h2]
      have := hpp i h1 h2
      simp only at this
      rw [this]; simp
    · intro i h1 h2
      simp only at h1 h2 ⊢
      rw [hlow _ (by omega), hXbits _ (by omega) (by omega), decide_eq_false (by omega)]
      exact hrp i h1 h2
    · show X.searchCur + 2 * (bset m4 _).card * _ ≤ _
      rw [hF4]
      have := Nat.mul_le_mul_right (dlen (G0.V r).N) (Nat.mul_le_mul_left 2 hFc)
      omega
    · show Rooted G0 r (bset m4 _)
      rw [hR4]
      obtain ⟨⟨k1, k2, k3⟩, k4⟩ := hcl
      refine ⟨⟨Finset.mem_insert_of_mem k1, ?_, ?_⟩, ?_⟩
      · intro c hc
        rcases Finset.mem_insert.1 hc with rfl | hc
        · exact hj
        · exact k2 c hc
      · intro c hc d hd
        rcases Finset.mem_insert.1 hc with hc | hc <;> rcases Finset.mem_insert.1 hd with hd | hd
        · rw [hc, hd]; exact A_refl w hr hj
        · rw [hc]; exact A_symm w hr (k2 d hd) ((hadj j hjP).2 d hd)
        · rw [hd]; exact (hadj j hjP).2 c hc
        · exact k3 c hc d hd
      · intro c hc hne
        rcases Finset.mem_insert.1 hc with rfl | hc
        · exact hrt _ hjP
        · exact k4 c hc hne
    · show ∀ c ∈ bset m4 _, _
      rw [hF4]
      intro c hc
      exact hrt c (Finset.mem_filter.1 hc).1
    · show ∀ c ∈ bset m4 _, c ∉ bset m4 _ ∧ ∀ t ∈ bset m4 _, _
      rw [hF4, hR4]
      intro c hc
      rw [Finset.mem_filter] at hc
      refine ⟨?_, ?_⟩
      · rw [Finset.mem_insert]
        rintro (h | h)
        · omega
        · exact (hadj c hc.1).1 h
      · intro t ht
        rcases Finset.mem_insert.1 ht with ht | ht
        · rw [ht]; exact hc.2.2
        · exact (hadj c hc.1).2 t ht
  obtain ⟨Y, tY, e1, Q⟩ := ih { X with eb := m4 } tX _ P4 (by
    show (bset m4 _).card < fuel
    rw [hF4]; omega)
  rw [e1, ok_bind]
  have hYl : Y.eb.length = G0.eb.length := Q.upd.frame.ebl
  obtain ⟨m5, f1, f2, f3⟩ := GBits.reset_spec ⟨ro, (G0.V r).N⟩ Y.eb j (by simp only; omega)
  simp only
  rw [f1, ok_bind]
  have hYb : ∀ a, 64 * B ≤ a → bitAt Y.eb a = bitAt m4 a := Q.bits
  have hYsc : Y.searchCur = X.searchCur := Q.sc
  have hYm : X.curMax ≤ Y.curMax := Q.mono
  have hYl2 : Y.limit = X.limit := Q.upd.lim.trans hupd.lim.symm
  simp only at f3
  refine ⟨_, rfl, ?_, hYsc.trans hXsc, ?_, ?_, ?_, Nat.le_trans hmono hYm,
    hclk.trans Q.clk, ?_⟩
  · exact Q.upd.scratch (by omega) m5 Y.searchCur f2 (fun a ha => by
      rw [f3, decide_eq_false (by omega)]; simp)
  · intro a h1 h2
    simp only
    rw [f3, hYb a h1, hlow a h2]
    by_cases ha : a = 64 * ro + j
    · have : bitAt Gi.eb (64 * ro + j) = false := by
        by_contra h
        exact hjR ((hRS j).2 ⟨hj, by simpa using h⟩)
      rw [ha, this]; simp
    · rw [decide_eq_false ha, hXbits a h1 h2]; simp
  · intro a ha
    simp only
    rw [f3, hYb a (by omega), hhigh a ha, Bool.and_false]
  · intro i hi
    simp only
    rw [f3, hYb _ (by omega), hcand4 i hi, decide_eq_false (by omega)]
    simp
  · rw [hPd, hRd]
    show tY = some 0 ∨ _
    rcases Q.compl with h | h
    · exact Or.inl h
    · by_cases htY : tY = some 0
      · exact Or.inl htY
      right
      intro T hT hTA hex
      show _ ≤ Y.curMax ∨ Y.limit ≤ Y.curMax
      by_cases hex' : ∃ i ∈ T, i < j
      · rcases hcompl with h' | h'
        · exact absurd (Q.clk.2 h') htY
        · have := h' T hT hTA hex'
          omega
      · have hjT : j ∈ T := by
          obtain ⟨i, hi, hij⟩ := hex
          have : i = j := by
            by_contra hne'
            exact hex' ⟨i, hi, by omega⟩
          exact this ▸ hi
        have h3 := h (T.erase j) (by
          show _ ⊆ bset m4 _
          rw [hF4]
          intro i hi
          rw [Finset.mem_erase] at hi
          rw [Finset.mem_filter]
          refine ⟨hT hi.2, ?_, hTA j hjT i hi.2⟩
          by_contra h
          exact hex' ⟨i, hi.2, by omega⟩)
          (fun a ha b hb => hTA a (Finset.mem_of_mem_erase ha) b (Finset.mem_of_mem_erase hb))
        rw [Finset.card_erase_of_mem hjT] at h3
        simp only [hR4] at h3
        rw [Finset.card_insert_of_notMem hjR] at h3
        have := Finset.card_pos.2 ⟨j, hjT⟩
        omega

theorem recSearch_spec {G0 : Graph} (w : WF G0) {r B ro : Nat} (hr : r < G0.nVert)
    (hB : G0.ebSize < B) : ∀ (fuel : Nat) (G : Graph) (t : Clock) (po : Nat),
    RPre G0 r B po ro G → (bset G.eb ⟨po, (G0.V r).N⟩).card < fuel →
    ∃ G' t', recSearch r (G0.V r) (dlen (G0.V r).N) fuel (G, t) ⟨po, (G0.V r).N⟩
      ⟨ro, (G0.V r).N⟩ = .ok (G', t') ∧ RPost G0 r B po ro G t G' t' := by
  intro fuel
  induction fuel with
  | zero => intro G t po _ h; omega
  | succ fuel ih =>
    intro G t po P hfuel
    have hdl := @dlen_le (G0.V r).N
    have hNp := N_pos w hr
    have hdp := dlen_pos hNp
    have hpoS := P.poS
    have hroS := P.roS
    have hpoB := P.poB
    have hroB := P.roB
    have hdis := P.dis
    have hroom := P.room
    have hGl : G.eb.length = G0.eb.length := P.upd.frame.ebl
    have hebb := w.eblen
    have hebo := w.eboEnd r hr
    rw [recSearch.eq_def]
    simp only
    rw [GBits.count_pad _ _ (by simp only; exact hNp) (by simp only; omega) P.padp, ok_bind]
    simp only
    rw [GBits.count_pad _ _ (by simp only; exact hNp) (by simp only; omega) P.padr, ok_bind]
    simp only
    have hTc : ∀ T ⊆ bset G.eb ⟨po, (G0.V r).N⟩, T.card ≤ (bset G.eb ⟨po, (G0.V r).N⟩).card :=
      fun T hT => Finset.card_le_card hT
    have htk := tick_le t
    by_cases hex : (tick t).1 = true
    · rw [if_pos hex]
      exact ⟨_, _, rfl, P.upd, rfl, fun _ _ => rfl, Nat.le_refl _, htk,
        Or.inl (tick_expired hex)⟩
    rw [if_neg hex]
    by_cases hlim : G.curMax ≥ G.limit
    · rw [if_pos hlim]
      exact ⟨_, _, rfl, P.upd, rfl, fun _ _ => rfl, Nat.le_refl _, htk,
        Or.inr (fun T _ _ => Or.inr hlim)⟩
    rw [if_neg hlim]
    by_cases hpot : (bset G.eb ⟨po, (G0.V r).N⟩).card + (bset G.eb ⟨ro, (G0.V r).N⟩).card ≤ G.curMax
    · rw [if_pos hpot]
      refine ⟨_, _, rfl, P.upd, rfl, fun _ _ => rfl, Nat.le_refl _, htk, Or.inr ?_⟩
      intro T hT _
      have := hTc T hT
      left; simp only; omega
    rw [if_neg hpot]
    by_cases hleft : (bset G.eb ⟨po, (G0.V r).N⟩).card = 0
    · rw [if_pos hleft]
      obtain ⟨G', s1, s2, s3, s4, s5, s6⟩ := saveClique_spec w hr P.upd hB
        (res := ⟨ro, (G0.V r).N⟩)
        (size := (bset G.eb ⟨po, (G0.V r).N⟩).card + (bset G.eb ⟨ro, (G0.V r).N⟩).card)
        rfl hroB (by simp only; omega) P.padr P.cl (by omega) (by omega)
      rw [s1, ok_bind]
      refine ⟨_, _, rfl, s2, s4, s5, by omega, htk, Or.inr ?_⟩
      intro T hT _
      have := hTc T hT
      left; omega
    rw [if_neg hleft]
    have hne : (bset G.eb ⟨po, (G0.V r).N⟩).Nonempty := by
      rw [← Finset.card_pos]; omega
    have h2q : 2 * 1 * dlen (G0.V r).N ≤ 2 * (bset G.eb ⟨po, (G0.V r).N⟩).card * dlen (G0.V r).N :=
      Nat.mul_le_mul_right _ (by omega)
    rw [loadMemory_eq (G := G) _ (by omega)]
    simp only
    obtain ⟨m1, a1, a2, a3⟩ := GBits.copyData_spec ⟨G.searchCur, (G0.V r).N⟩ po G.eb
      (by simp only; omega) (by simp only; omega) (by simp only; omega)
    simp only at a3
    unfold GBits.copyFrom
    simp only
    rw [a1, ok_bind, ok_bind]
    simp only
    rw [loadMemory_eq (G := { G with searchCur := G.searchCur + dlen (G0.V r).N, eb := m1 }) _
      (by simp only; omega)]
    simp only
    obtain ⟨m2, b1, b2, b3⟩ := GBits.copyData_spec
      ⟨G.searchCur + dlen (G0.V r).N, (G0.V r).N⟩ po m1
      (by simp only; omega) (by simp only; omega) (by simp only; omega)
    simp only at b3
    rw [b1, ok_bind, ok_bind]
    simp only
    obtain ⟨⟨Y, tY⟩, l1, l2⟩ := forRange_rule (lo := 0) (hi := (G0.V r).N)
      (s := (({ G with searchCur := G.searchCur + dlen (G0.V r).N + dlen (G0.V r).N, eb := m2 },
        (tick t).2) : Graph × Clock))
      (body := fun j (s : Graph × Clock) => do
        let (G', t) := s
        if ← GBits.test ⟨G.searchCur, (G0.V r).N⟩ G'.eb j then do
          let vert ← G'.nbr (G0.V r) j
          let eb ← GBits.set ⟨ro, (G0.V r).N⟩ G'.eb j
          let eb ← GBits.reset ⟨G.searchCur, (G0.V r).N⟩ eb j
          let eb ← GBits.copyData ⟨G.searchCur + dlen (G0.V r).N, (G0.V r).N⟩ G.searchCur eb
          let U ← G'.vtx vert
          let eb ← G'.recScan (G0.V r) U ⟨G.searchCur + dlen (G0.V r).N, (G0.V r).N⟩ eb j
          let (G', t) ← recSearch r (G0.V r) (dlen (G0.V r).N) fuel ({ G' with eb := eb }, t)
            ⟨G.searchCur + dlen (G0.V r).N, (G0.V r).N⟩ ⟨ro, (G0.V r).N⟩
          let eb ← GBits.reset ⟨ro, (G0.V r).N⟩ G'.eb j
          .ok ({ G' with eb := eb }, t)
        else .ok s)
      (fun j s => RLoop G0 r B po ro G t j s)
      (Nat.zero_le _)
      (by
        refine ⟨?_, by simp only; omega, ?_, ?_, ?_, Nat.le_refl _, htk, Or.inr ?_⟩
        · exact P.upd.scratch (by omega) m2 _ (b2.trans a2) (fun a ha => by
            rw [b3, if_neg (by omega), a3, if_neg (by omega)])
        · intro a h1 h2
          simp only
          rw [b3, if_neg (by omega), a3, if_neg (by omega)]
        · intro a h1
          simp only
          rw [b3, if_neg (by omega), a3, if_neg (by omega)]
          exact P.zero a (by omega)
        · intro i hi
          simp only
          rw [b3, if_neg (by omega), a3, if_pos (by omega)]
          simp only [Nat.zero_le, decide_true, Bool.true_and]
          congr 1; omega
        · rintro T _ _ ⟨i, _, hi⟩
          omega)
      (fun j s _ hj I => recLoop_step w hr hB (fun G t po => ih G t po) P hfuel hne hj I)
    rw [l1, ok_bind]
    simp only
    have hYsc : Y.searchCur = G.searchCur + 2 * dlen (G0.V r).N := l2.sc
    have hYl : Y.eb.length = G0.eb.length := l2.upd.frame.ebl
    have hYb : ∀ a, 64 * B ≤ a → a < 64 * G.searchCur → bitAt Y.eb a = bitAt G.eb a := l2.bits
    have hYz : ∀ a, 64 * (G.searchCur + 2 * dlen (G0.V r).N) ≤ a → bitAt Y.eb a = false := l2.zero
    obtain ⟨m3, c1, c2, c3⟩ := clearMemory_spec (G := Y) (2 * dlen (G0.V r).N)
      (by omega) (by omega) (by omega)
    rw [c1, ok_bind]
    have hsub : Y.searchCur - 2 * dlen (G0.V r).N = G.searchCur := by omega
    rw [hsub] at c3 ⊢
    have hYm : G.curMax ≤ Y.curMax := l2.mono
    refine ⟨_, _, rfl, ?_, rfl, ?_, hYm, l2.clk, ?_⟩
    · exact l2.upd.scratch (by omega) m3 _ c2 (fun a ha => by rw [c3, if_neg (by omega)])
    · intro a ha
      simp only
      rw [c3]
      split
      · exact (P.zero a (by omega)).symm
      · by_cases h : a < 64 * G.searchCur
        · exact hYb a ha h
        · rw [hYz a (by omega)]; exact (P.zero a (by omega)).symm
    · rcases l2.compl with h | h
      · exact Or.inl h
      · right
        intro T hT hTA
        show _ ≤ Y.curMax ∨ Y.limit ≤ Y.curMax
        rcases Finset.eq_empty_or_nonempty T with h0 | ⟨i, hi⟩
        · obtain ⟨i, hi⟩ := hne
          have hiN := (mem_bset.1 hi).1
          have := h {i} (by simpa using hi) (by
            intro a ha b hb
            rw [Finset.mem_singleton.1 ha, Finset.mem_singleton.1 hb]
            exact A_refl w hr hiN) ⟨i, by simp, hiN⟩
          rw [h0]
          simp only [Finset.card_singleton, Finset.card_empty] at this ⊢
          rcases this with h | h
          · left; omega
          · right; exact h
        · exact h T hT hTA ⟨i, hi, (mem_bset.1 (hT hi)).1⟩

/-- Searching one root with the recursive search. -/
theorem recVertex_spec {G : Graph} (R : Ready G) {r : Nat} (hr : r < G.nVert) (t : Clock) :
    ∃ G' t', recVertex (G, t) r = .ok (G', t') ∧ VDone r G G' ∧ ClkLe t t' ∧
      (t' = some 0 ∨ ∀ S, Rooted G r S → S.card ≤ G'.curMax ∨ G'.limit ≤ G'.curMax) := by
  have w := R.wf
  obtain ⟨L, hL, hroom⟩ := R.room
  have hmax := dlen_mono (w.maxd r hr)
  have hL0 := hL r hr
  have hB := R.bot
  have hebb := w.eblen
  have hNpos := N_pos w hr
  have hsp := w.spos r hr
  have hdp := dlen_pos hNpos
  have hdl := @dlen_le (G.V r).N
  have hebo := w.eboEnd r hr
  have hrm : 2 * ((G.rootCand r).card + 1 + 1) * dlen (G.V r).N ≤ 2 * (L + 1) * dlen G.maxDeg :=
    Nat.le_trans (Nat.mul_le_mul_left _ hmax) (Nat.mul_le_mul_right _ (by omega))
  have hrw : 2 * ((G.rootCand r).card + 1 + 1) * dlen (G.V r).N =
      2 * (G.rootCand r).card * dlen (G.V r).N + 4 * dlen (G.V r).N := by
    rw [← Nat.add_mul]; congr 1
  have zero := R.zero
  unfold recVertex
  simp only
  rw [vtx_ok w hr, ok_bind]
  rw [loadMemory_eq (G := G) _ (by omega)]
  simp only
  rw [loadMemory_eq (G := { G with searchCur := G.searchCur + dlen (G.V r).N }) _
    (by simp only; omega)]
  simp only
  obtain ⟨m1, s1, s2, s3⟩ := GBits.set_spec ⟨G.searchCur, (G.V r).N⟩ G.eb (G.V r).spos
    (by have := div_lt_dlen hsp; simp only; omega)
  rw [s1, ok_bind]
  have F1 : Frame G { G with searchCur := G.searchCur + dlen (G.V r).N + dlen (G.V r).N } :=
    Frame.mk' G G.eb _ G.curMax G.curLoc rfl
  obtain ⟨m2, t1, t2, t3⟩ := fillCand_spec (F1.wf w) (r := r) (by rw [F1.nVert]; exact hr)
    ⟨G.searchCur + dlen (G.V r).N, (G.V r).N⟩ m1 (by simp only; rw [F1.N, s2]; omega)
  have hV : ({ G with searchCur := G.searchCur + dlen (G.V r).N + dlen (G.V r).N } : Graph).V r
    = G.V r := rfl
  rw [hV, F1.rootCand] at t1
  rw [F1.rootCand] at t3
  simp only at s3 t3
  rw [t1, ok_bind]
  simp only
  have hb : ∀ a, bitAt m2 a = (decide (64 * (G.searchCur + dlen (G.V r).N) ≤ a ∧
      a - 64 * (G.searchCur + dlen (G.V r).N) ∈ G.rootCand r) ||
      (decide (a = 64 * G.searchCur + (G.V r).spos) || bitAt G.eb a)) := by
    intro a; rw [t3, s3]
  have hz : ∀ i, i < 64 * dlen (G.V r).N →
      bitAt m2 (64 * G.searchCur + i) = decide (i = (G.V r).spos) := by
    intro i hi
    rw [hb, zero _ (by omega), Bool.or_false]
    have h1 : ¬ (64 * (G.searchCur + dlen (G.V r).N) ≤ 64 * G.searchCur + i ∧
      64 * G.searchCur + i - 64 * (G.searchCur + dlen (G.V r).N) ∈ G.rootCand r) := by omega
    rw [decide_eq_false h1, Bool.false_or]
    apply decide_eq_decide.2; omega
  have hzc : ∀ i, i < 64 * dlen (G.V r).N →
      bitAt m2 (64 * (G.searchCur + dlen (G.V r).N) + i) = decide (i ∈ G.rootCand r) := by
    intro i hi
    rw [hb, zero _ (by omega), Bool.or_false]
    have h1 : ¬ (64 * (G.searchCur + dlen (G.V r).N) + i = 64 * G.searchCur + (G.V r).spos) := by
      omega
    rw [decide_eq_false h1, Bool.or_false]
    apply decide_eq_decide.2
    have : 64 * (G.searchCur + dlen (G.V r).N) + i - 64 * (G.searchCur + dlen (G.V r).N) = i := by
      omega
    rw [this]
    exact ⟨fun h => h.2, fun h => ⟨by omega, h⟩⟩
  have hset : bset m2 ⟨G.searchCur + dlen (G.V r).N, (G.V r).N⟩ = G.rootCand r := by
    ext x
    rw [mem_bset]
    simp only
    constructor
    · rintro ⟨h1, h2⟩
      rw [hzc x (by omega)] at h2
      simpa using h2
    · intro h
      have := (mem_rootCand.1 h).1
      refine ⟨this, ?_⟩
      rw [hzc x (by omega)]
      simpa using h
  have hres : bset m2 ⟨G.searchCur, (G.V r).N⟩ = {(G.V r).spos} := by
    ext x
    rw [mem_bset, Finset.mem_singleton]
    simp only
    constructor
    · rintro ⟨h1, h2⟩
      rw [hz x (by omega)] at h2
      simpa using h2
    · rintro rfl
      refine ⟨hsp, ?_⟩
      rw [hz _ (by omega)]; simp
  let G2 : Graph :=
    { G with searchCur := G.searchCur + dlen (G.V r).N + dlen (G.V r).N, eb := m2 }
  have hzero2 : ∀ a, 64 * G2.searchCur ≤ a → bitAt G2.eb a = false := by
    intro a ha
    simp only [G2] at ha ⊢
    rw [hb, zero a (by omega)]
    have h1 : ¬ (64 * (G.searchCur + dlen (G.V r).N) ≤ a ∧
        a - 64 * (G.searchCur + dlen (G.V r).N) ∈ G.rootCand r) := by
      rintro ⟨h1, h2⟩
      have := (mem_rootCand.1 h2).1
      omega
    have h2 : ¬ (a = 64 * G.searchCur + (G.V r).spos) := by omega
    simp [h1, h2]
  have P : RPre G r G.searchCur (G.searchCur + dlen (G.V r).N) G.searchCur G2 := by
    refine ⟨?_, by omega, by simp only [G2]; omega, Nat.le_refl _, by simp only [G2]; omega,
      by omega, hzero2, ?_, ?_, ?_, ?_, ?_, ?_⟩
    · exact (Upd.refl (R.pad r hr)).scratch (by omega) m2 _ (t2.trans s2) (fun a ha => by
        rw [hb]
        have h1 : ¬ (64 * (G.searchCur + dlen (G.V r).N) ≤ a ∧
          a - 64 * (G.searchCur + dlen (G.V r).N) ∈ G.rootCand r) := by omega
        have h2 : ¬ (a = 64 * G.searchCur + (G.V r).spos) := by omega
        simp [h1, h2])
    · intro i h1 h2
      simp only [G2] at h1 h2 ⊢
      rw [hzc i h2]
      simp only [decide_eq_false_iff_not]
      intro h
      have := (mem_rootCand.1 h).1
      omega
    · intro i h1 h2
      simp only [G2] at h1 h2 ⊢
      rw [hz i h2]
      simp only [decide_eq_false_iff_not]; omega
    · simp only [G2]
      rw [hset]; omega
    · simp only [G2]
      rw [hres]
      refine ⟨⟨by simp, ?_, ?_⟩, ?_⟩
      · intro i hi; rw [Finset.mem_singleton.1 hi]; exact hsp
      · intro i hi j hj
        rw [Finset.mem_singleton.1 hi, Finset.mem_singleton.1 hj]
        exact A_refl w hr hsp
      · intro i hi hne
        exact absurd (Finset.mem_singleton.1 hi) hne
    · simp only [G2]
      rw [hset]
      exact fun _ h => h
    · simp only [G2]
      rw [hres, hset]
      intro c hc
      have hc' := mem_rootCand.1 hc
      refine ⟨by simp; omega, ?_⟩
      intro t ht
      rw [Finset.mem_singleton.1 ht]
      exact A_spos w hr hc'.1
  have hrc := rootCand_card_lt w hr
  have key : ∃ G3 t3, (if 1 + (G.rootCand r).card > G.curMax then
        recSearch r (G.V r) (dlen (G.V r).N) ((G.V r).N + 1) (G2, t)
          ⟨G.searchCur + dlen (G.V r).N, (G.V r).N⟩ ⟨G.searchCur, (G.V r).N⟩
        else (.ok (G2, t) : M (Graph × Clock))) = .ok (G3, t3) ∧
      Upd r G.searchCur G G3 ∧ G3.searchCur = G2.searchCur ∧
      (∀ a, 64 * G2.searchCur ≤ a → bitAt G3.eb a = false) ∧ ClkLe t t3 ∧
      (t3 = some 0 ∨ ∀ S, Rooted G r S → S.card ≤ G3.curMax ∨ G3.limit ≤ G3.curMax) := by
    have hcardS : ∀ S, Rooted G r S → S.erase (G.V r).spos ⊆ G.rootCand r ∧
        S.card = 1 + (S.erase (G.V r).spos).card := by
      intro S hS
      refine ⟨?_, ?_⟩
      · intro i hi
        rw [Finset.mem_erase] at hi
        exact hS.2 i hi.2 hi.1
      · have := Finset.card_pos.2 ⟨_, hS.1.1⟩
        rw [Finset.card_erase_of_mem hS.1.1]; omega
    by_cases hpot : 1 + (G.rootCand r).card > G.curMax
    · rw [if_pos hpot]
      obtain ⟨G3, t3, u1, Q⟩ := recSearch_spec w hr hB ((G.V r).N + 1) G2 t _ P
        (by simp only [G2]; rw [hset]; omega)
      refine ⟨G3, t3, u1, Q.upd, Q.sc, ?_, Q.clk, ?_⟩
      · intro a ha
        rw [Q.bits a (by simp only [G2] at ha; omega)]
        exact hzero2 a ha
      · rcases Q.compl with h | h
        · exact Or.inl h
        · right
          intro S hS
          obtain ⟨e1, e2⟩ := hcardS S hS
          have := h (S.erase (G.V r).spos) (by simp only [G2]; rw [hset]; exact e1)
            (fun a ha b hb => hS.1.2.2 a (Finset.mem_of_mem_erase ha) b
              (Finset.mem_of_mem_erase hb))
          simp only [G2] at this
          rw [hres, Finset.card_singleton] at this
          rw [e2]; exact this
    · rw [if_neg hpot]
      refine ⟨G2, t, rfl, P.upd, rfl, hzero2, ClkLe.refl t, Or.inr ?_⟩
      intro S hS
      obtain ⟨e1, e2⟩ := hcardS S hS
      have := Finset.card_le_card e1
      left
      show S.card ≤ G.curMax
      omega
  obtain ⟨G3, t3', k1, k2, k3, k4, k5, k6⟩ := key
  rw [← ite_bind]
  simp only [G2] at k1
  rw [k1, ok_bind]
  simp only
  simp only [G2] at k3 k4
  obtain ⟨G', q1, q2, q3, q4, q5, q6, q7⟩ := k2.pop w hr hB
    (n := 2 * dlen (G.V r).N) (by omega) (by omega)
  rw [q1, ok_bind]
  refine ⟨G', t3', rfl, ⟨q2, q3, ?_⟩, k5, ?_⟩
  · intro a ha
    by_cases h : a < 64 * G3.searchCur
    · exact q6 a ha h
    · rw [q7 a (by omega)]; exact k4 a (by omega)
  · rw [q4, q5]; exact k6

/-- The bound of a vertex is still good after searching it completely. -/
theorem recGraph_spec (h : Ok G) (t : Clock) (sv : Nat) :
    ∃ G' i, G.recGraph t sv = .ok (G', i) ∧ Ok G' ∧ Imp G G' ∧
      (t = none → McsOk G → McsOk G' ∧ (sv = 0 → Best G') ∧ i = max sv G.nVert) := by
  obtain ⟨G1, t1, a1, a2, a3, a4⟩ := recVertex_spec h.ready h.loc t
  obtain ⟨o1, i1⟩ := a2.ok h h.loc
  unfold recGraph
  rw [a1, ok_bind]
  simp only
  obtain ⟨⟨G2, i⟩, b1, b2, b3, b4⟩ := loop_rule
    (body := fun (s : Graph × Clock × Nat) => do
      let (G, t, i) := s
      if i < G.nVert then do
        let V ← G.vtx i
        if V.mcs ≤ G.curMax ∨ G.curMax ≥ G.limit then .ok (.inl (G, t, i + 1))
        else
          let (expired, t) := tick t
          if expired then .ok (.inr (G, i))
          else do
            let (G, t) ← recVertex (G, t) i
            .ok (.inl (G, t, i + 1))
      else .ok (.inr (G, i)))
    (fun s => Ok s.1 ∧ Imp G s.1 ∧ sv ≤ s.2.2 ∧ s.2.2 ≤ max sv G.nVert ∧
      (t = none → s.2.1 = none ∧ (McsOk G → McsOk s.1 ∧
        ∀ v, sv ≤ v → v < s.2.2 → v < G.nVert → ∀ S, Rooted G v S → 2 ≤ S.card →
          S.card ≤ s.1.curMax ∨ s.1.limit ≤ s.1.curMax)))
    (fun q => Ok q.1 ∧ Imp G q.1 ∧
      (t = none → McsOk G → McsOk q.1 ∧ (∀ v, sv ≤ v → v < G.nVert → ∀ S, Rooted G v S →
        2 ≤ S.card → S.card ≤ q.1.curMax ∨ q.1.limit ≤ q.1.curMax) ∧ q.2 = max sv G.nVert))
    (fun s => max sv G.nVert - s.2.2)
    (by
      rintro ⟨X, tX, i⟩ ⟨c1, c2, c0, c3, c4⟩
      have hXn : X.nVert = G.nVert := c2.frame.nVert
      simp only at c1 c2 c0 c3 c4 ⊢
      by_cases hi : i < X.nVert
      · rw [if_pos hi, vtx_ok c1.wf hi, ok_bind]
        by_cases hc : (X.V i).mcs ≤ X.curMax ∨ X.curMax ≥ X.limit
        · rw [if_pos hc]
          refine Or.inl ⟨_, rfl, ⟨c1, c2, by simp only; omega, by simp only; omega, ?_⟩, by simp only; omega⟩
          intro ht
          obtain ⟨d1, d2⟩ := c4 ht
          refine ⟨d1, fun hm => ?_⟩
          obtain ⟨d3, d4⟩ := d2 hm
          refine ⟨d3, ?_⟩
          intro v hv0 hv hvn S hS h2
          by_cases hvi : v = i
          · subst hvi
            have := d3 v hi S (by rw [c2.frame.rooted]; exact hS) h2
            simp only
            omega
          · exact d4 v hv0 (by simp only at hv; omega) hvn S hS h2
        · rw [if_neg hc]
          by_cases hex : (tick tX).1 = true
          · rw [if_pos hex]
            refine Or.inr ⟨_, rfl, c1, c2, ?_⟩
            intro ht
            have := (c4 ht).1
            rw [this] at hex
            exact absurd hex (by decide)
          · rw [if_neg hex]
            obtain ⟨Y, tY, d1, d2, d3, d4⟩ := recVertex_spec c1.ready hi (tick tX).2
            obtain ⟨o2, i2⟩ := d2.ok c1 hi
            rw [d1, ok_bind]
            refine Or.inl ⟨_, rfl, ⟨o2, c2.trans i2, by simp only; omega, by simp only; omega, ?_⟩, by simp only; omega⟩
            intro ht
            obtain ⟨e1, e2⟩ := c4 ht
            have htY : tY = none := d3.1 (by rw [e1]; rfl)
            refine ⟨htY, fun hm => ?_⟩
            obtain ⟨e3, e4⟩ := e2 hm
            have hcomp : ∀ S, Rooted X i S → 2 ≤ S.card →
                S.card ≤ Y.curMax ∨ Y.limit ≤ Y.curMax := by
              intro S hS _
              rcases d4 with h | h
              · rw [htY] at h; cases h
              · exact h S hS
            refine ⟨d2.mcs hi e3 hcomp, ?_⟩
            intro v hv0 hv hvn S hS h2
            by_cases hvi : v = i
            · subst hvi
              exact hcomp S (by rw [c2.frame.rooted]; exact hS) h2
            · have := e4 v hv0 (by simp only at hv; omega) hvn S hS h2
              have := i2.mono
              have := i2.lim
              simp only
              omega
      · rw [if_neg hi]
        refine Or.inr ⟨_, rfl, c1, c2, ?_⟩
        intro ht hm
        obtain ⟨d1, d2⟩ := c4 ht
        obtain ⟨d3, d4⟩ := d2 hm
        refine ⟨d3, ?_, by simp only; omega⟩
        intro v hv0 hv S hS h2
        exact d4 v hv0 (by omega) hv S hS h2)
    (s := (G1, t1, sv)) (fuel := G1.nVert - sv + 1)
    ⟨o1, i1, Nat.le_refl _, by simp only; omega, by
      intro ht
      have ht1 : t1 = none := a3.1 ht
      refine ⟨ht1, fun hm => ⟨?_, ?_⟩⟩
      · refine a2.mcs h.loc hm ?_
        intro S hS _
        rcases a4 with h | h
        · rw [ht1] at h; cases h
        · exact h S hS
      · intro v h0 hv; simp only at hv; omega⟩
    (by have := i1.frame.nVert; simp only; omega)
  refine ⟨G2, i, b1, b2, b3, ?_⟩
  intro ht hm
  obtain ⟨c1, c2, c3⟩ := b4 ht hm
  refine ⟨c1, ?_, c3⟩
  intro h0 v hv S hS h2
  rw [b3.frame.nVert] at hv
  exact c2 v (by omega) hv S (by rwa [b3.frame.rooted] at hS) h2

end Graph

end CM
