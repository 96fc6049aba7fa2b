import Verif.Lemmas.Enum

/-! # One step of `CliqueEnumerator::process_graph` (enumerate.cpp:88-229) -/

namespace CM

namespace Graph

theorem Frame.emb {Gs G0 : Graph} (F : Frame Gs G0) (v : Nat) : G0.vb v = Gs.vb v := F.vb v

/-- The three ways an iteration of the enumeration loop ends. -/
def EStep (Q : Nat → Prop) (b : Nat) (Gs : Graph) (k : Nat) (G : Graph) (E : Enum)
    (q : (Graph × Enum) ⊕ (Graph × Enum × Nat)) : Prop :=
  match q with
  | .inl (G', E') => EInv Q b Gs k G' E' ∧ emu Gs (G', E') < emu Gs (G, E) ∧
      ∀ r C, Pnd Gs k G' E' r C ↔ Pnd Gs k G E r C
  | .inr (G', E', v) => EInv Q b Gs k G' E' ∧ v = E.cur ∧
      ((E.cur < Gs.nVert ∧ E'.cur = E.cur ∧ E'.states ≠ [] ∧
          Pnd Gs k G E E.cur (bset G'.eb (Gs.vb E.cur)) ∧
          ∀ r C, Pnd Gs k G' E' r C ↔
            (Pnd Gs k G E r C ∧ ¬ (r = E.cur ∧ C = bset G'.eb (Gs.vb E.cur)))) ∨
       (E.cur = Gs.nVert ∧ G' = G ∧ E' = E ∧ OkAt b G ∧ ∀ r C, ¬ Pnd Gs k G E r C))

theorem enumBody_spec {Gs G : Graph} {E : Enum} {Q : Nat → Prop} {b k : Nat} (hQ : Q k) (h2 : 2 ≤ k)
    (h : EInv Q b Gs k G E) :
    ∃ q, enumBody (G, E) = .ok q ∧ EStep Q b Gs k G E q := by
  obtain ⟨hk, hc, h⟩ := h
  unfold enumBody
  simp only
  rcases h with ⟨a1, a2, G', a3, a4, a5⟩ | ⟨a1, a2, a3⟩ | ⟨a1, a2, a3, a4, a6, G0, p, ok, hc0, p1, p2, g, I, p3, p4⟩
  · rw [if_pos (by rw [hc.frame.nVert]; exact a2), a1]
    simp only
    rw [a3, ok_bind]
    obtain ⟨G2, E2, b1, b2, b3, b4, b5⟩ := enumVertex_spec hQ a4 a5 a2 a1 hk h2
    rw [b1, ok_bind]
    refine ⟨_, rfl, b2, ?_, ?_⟩
    · unfold emu
      simp only [a1, nodes, Nat.add_zero]
      have hn : nodes G2.eb E2.states < 2 ^ (Gs.maxDeg + 1) := by
        have hpos : 0 < 2 ^ (Gs.maxDeg + 1) := Nat.pos_of_ne_zero (by simp)
        rcases b2.2.2 with ⟨h1, _⟩ | ⟨h1, _⟩ | ⟨_, _, _, h1, _⟩
        · rw [h1]; exact hpos
        · rw [h1]; exact hpos
        · exact h1
      have e1 : 2 ^ (Gs.maxDeg + 2) = 2 ^ (Gs.maxDeg + 1) + 2 ^ (Gs.maxDeg + 1) := by
        rw [Nat.pow_succ]; omega
      have e2 : (Gs.nVert - E2.cur + 1) * 2 ^ (Gs.maxDeg + 2)
          ≤ (Gs.nVert - E.cur) * 2 ^ (Gs.maxDeg + 2) := Nat.mul_le_mul_right _ (by omega)
      rw [Nat.succ_mul] at e2
      clear * - e1 e2 hn
      omega
    · intro r C
      rw [b5]
      unfold Pnd
      rw [a1]
      simp [PendC]
  · rw [if_neg (by rw [hc.frame.nVert]; omega)]
    refine ⟨_, rfl, ⟨hk, hc, Or.inr (Or.inl ⟨a1, a2, a3⟩)⟩, rfl, Or.inr ⟨a2, rfl, rfl, a3, ?_⟩⟩
    intro r C
    unfold Pnd
    rw [a1]
    simp only [PendC, and_false, false_or]
    rintro ⟨h1, h3, _⟩
    omega
  · -- inside a root
    have w := g.wf
    have hr : E.cur < G0.nVert := p1 ▸ g.hr
    have hrs : E.cur < Gs.nVert := by rw [← hc0.frame.nVert]; exact hr
    have hrG : E.cur < G.nVert := by rw [hc.frame.nVert]; exact hrs
    rw [if_pos hrG]
    cases hst : E.states with
    | nil => exact absurd hst a1
    | cons top rest =>
    simp only
    rw [hst] at a2 a3 a4 I
    have hNpos := N_pos w g.hr
    have hlv := I.lv
    unfold Lv at hlv
    obtain ⟨l1, l2, l3, l4, l5, l6, l7, l8, l9, l10, l11⟩ := hlv
    have hreqd : p.req G0 = dlen (G0.V p.r).N := rfl
    have hoff : top.cand.off = candOff G0 p rest.length := by rw [l2]
    have hclen : top.cand.len = (G0.V p.r).N := by rw [l2]
    have hce := candOff_end g rest.length
    have hlen1 : (rest.length + 2) * p.req G0 ≤ (p.L + 2) * p.req G0 :=
      Nat.mul_le_mul_right _ (by omega)
    have hroom := g.room
    have hebl := I.upd.frame.ebl
    have hin : top.cand.off + dlen top.cand.len ≤ G.eb.length := by
      rw [hoff, hclen]; omega
    have wG := I.upd.frame.wf w
    have hcoreK : ∀ {X : Graph}, EUpdK Q p.r p.B G0 X → CoreAt Q b Gs X := by
      intro X U
      rw [p2] at U
      exact hc0.trans (Nat.le_refl _) (U.core w g.hr ok.bot)
    rw [vtx_ok wG hrG, ok_bind]
    rw [top.cand.count_pad G.eb (by omega) hin l8, ok_bind]
    simp only
    have hVG : G.V E.cur = G0.V p.r := by rw [I.upd.toEUpd.core.V, p1]
    rw [hVG, p3, hk, a2]
    simp only [List.length_cons]
    have hk2 : rest.length + 2 ≤ k := by simp only [List.length_cons] at a3; omega
    have hpc : ∀ (m : Mem) C st, PendC Gs (par E.cur) m k C st ↔ PendC G0 p m k C st := by
      intro m C st
      exact (PendC_iff hc0.frame (p := par E.cur) (p' := p) p1.symm m k C st).symm
    obtain ⟨q, hq1, hq2⟩ := loop_rule
      (body := enumFor (G0.V p.r) (p.req G0) (rest.length + 1) k)
      (fun (s : Graph × SState × Nat × Nat) => EI G0 p Q s.1 (s.2.1 :: rest) ∧
        s.2.2.1 = (bset s.1.eb s.2.1.cand).card ∧ s.2.2.2 ≤ (G0.V p.r).N ∧
        (∀ c ∈ bset s.1.eb s.2.1.cand, s.2.2.2 ≤ c) ∧
        nodes s.1.eb (s.2.1 :: rest) ≤ nodes G.eb (top :: rest) ∧
        ∀ C, PendC G0 p s.1.eb k C (s.2.1 :: rest) ↔ PendC G0 p G.eb k C (top :: rest))
      (fun (q : EnumExit) => match q with
        | .found G' top' => EI G0 p Q G' (top' :: rest) ∧
            nodes G'.eb (top' :: rest) ≤ nodes G.eb (top :: rest) ∧
            PendC G0 p G.eb k (bset G'.eb (G0.vb p.r)) (top :: rest) ∧
            ∀ C, PendC G0 p G'.eb k C (top' :: rest) ↔
              (PendC G0 p G.eb k C (top :: rest) ∧ C ≠ bset G'.eb (G0.vb p.r))
        | .pushed G' top' new => EI G0 p Q G' (new :: top' :: rest) ∧
            nodes G'.eb (new :: top' :: rest) < nodes G.eb (top :: rest) ∧ rest.length + 3 ≤ k ∧
            ∀ C, PendC G0 p G'.eb k C (new :: top' :: rest) ↔ PendC G0 p G.eb k C (top :: rest)
        | .done G' top' => EI G0 p Q G' (top' :: rest) ∧ bset G'.eb top'.cand = ∅ ∧
            nodes G'.eb (top' :: rest) ≤ nodes G.eb (top :: rest) ∧
            ∀ C, PendC G0 p G'.eb k C (top' :: rest) ↔ PendC G0 p G.eb k C (top :: rest))
      (fun s => (G0.V p.r).N - s.2.2.2)
      (by
        rintro ⟨G1, top1, left1, j1⟩ ⟨b1, b2, b3, b4, b5, b6⟩
        simp only at b1 b2 b3 b4 b5 b6
        rcases enumFor_spec g hQ b1 b2 hk2 b3 b4 with
          ⟨G', top', left', c1, c2, c3, c4, c5, c6, c7, c8⟩ |
          ⟨G', top', c1, c2, c3, c4, c5⟩ | ⟨G', top', new, c1, c2, c3, c4, c5⟩ | ⟨c1, c2⟩
        · left
          refine ⟨_, c1, ⟨c3, c4, by simp only; omega, c5, ?_, fun C => (c8 C).trans (b6 C)⟩,
            by simp only; omega⟩
          simp only [nodes] at b5 ⊢
          rw [c7, ← c4]
          rw [← b2] at b5
          have : 2 ^ (left' + 1) ≤ 2 ^ (left1 + 1) := Nat.pow_le_pow_right (by decide) (by omega)
          omega
        · right
          refine ⟨_, c1, c2, Nat.le_trans c3 b5, (b6 _).1 c4, fun C => ?_⟩
          rw [c5, b6]
        · right
          exact ⟨_, c1, c2, Nat.lt_of_lt_of_le c3 b5, c4, fun C => (c5 C).trans (b6 C)⟩
        · right
          exact ⟨_, c1, b1, c2, b5, b6⟩)
      (s := ({ G with eb := G.eb }, top, (bset G.eb top.cand).card, top.startAt))
      (fuel := (G0.V p.r).N + 2)
      ⟨I, rfl, l7, fun c hc => (l9 c hc).1, Nat.le_refl _, fun _ => Iff.rfl⟩
      (by simp only; omega)
    rw [hq1, ok_bind]
    have hcomm : ∀ (G' : Graph) (E' : Enum), E'.cur = E.cur →
        (∀ C, PendC G0 p G'.eb k C E'.states ↔ PendC G0 p G.eb k C (top :: rest)) →
        ∀ r C, Pnd Gs k G' E' r C ↔ Pnd Gs k G E r C := by
      intro G' E' e1 e2 r C
      unfold Pnd
      rw [e1, hpc, hpc, e2, hst]
    cases q with
    | found G' top' =>
      obtain ⟨c1, c2, c3, c4⟩ := hq2
      simp only
      refine ⟨_, rfl, ⟨rfl, hcoreK c1.upd, Or.inr (Or.inr ?_)⟩, rfl, Or.inl ?_⟩
      · refine ⟨by simp, rfl, by simp; omega, Nat.lt_of_le_of_lt c2 a4, a6, G0, p, ok, hc0, p1, p2, g,
          c1, rfl, p4⟩
      · have hvbe : Gs.vb E.cur = G0.vb p.r := by rw [p1, hc0.frame.vb]
        refine ⟨hrs, rfl, by simp, ?_, ?_⟩
        · left
          rw [hvbe, hpc, hst]
          exact ⟨rfl, c3⟩
        · intro r C
          unfold Pnd
          simp only
          rw [hpc, hpc, c4, hst, hvbe]
          constructor
          · rintro (⟨d1, d2, d3⟩ | d)
            · exact ⟨Or.inl ⟨d1, d2⟩, fun h => d3 h.2⟩
            · exact ⟨Or.inr d, by omega⟩
          · rintro ⟨⟨d1, d2⟩ | d, d3⟩
            · exact Or.inl ⟨d1, d2, fun h => d3 ⟨d1, h⟩⟩
            · exact Or.inr d
    | pushed G' top' new =>
      obtain ⟨c1, c2, c3, c4⟩ := hq2
      simp only
      refine ⟨_, rfl, ⟨rfl, hcoreK c1.upd, Or.inr (Or.inr ?_)⟩, ?_, ?_⟩
      · refine ⟨by simp, rfl, by simp; omega, Nat.lt_trans c2 a4, a6, G0, p, ok, hc0, p1, p2, g,
          c1, rfl, p4⟩
      · unfold emu; simp only [hst]; omega
      · exact hcomm _ _ rfl c4
    | done G' top' =>
      obtain ⟨I2, c3, c4, c5⟩ := hq2
      simp only
      clear l1 l2 l3 l4 l5 l6 l7 l8 l9 l10 l11 hlen1 hin hoff hclen
      have hlv := I2.lv
      unfold Lv at hlv
      obtain ⟨l1, l2, l3, l4, l5, l6, l7, l8, l9, l10, l11⟩ := hlv
      have hroff : top'.res.off = p.ro := by rw [l1]
      have hebl := I2.upd.frame.ebl
      have hlen1 : (rest.length + 2) * p.req G0 ≤ (p.L + 2) * p.req G0 :=
        Nat.mul_le_mul_right _ (by omega)
      have hlen2 : (rest.length + 2) * p.req G0 = (rest.length + 1) * p.req G0 + p.req G0 :=
        Nat.succ_mul _ _
      have hlen3 : 1 * p.req G0 ≤ (rest.length + 1) * p.req G0 :=
        Nat.mul_le_mul_right _ (by omega)
      have hsc : G'.searchCur = p.B + (rest.length + 2) * p.req G0 := I2.sc
      have hebb := w.eblen
      obtain ⟨m1, d1, d2, d3⟩ := clearMemory_spec (G := G') (p.req G0) (by omega) (by omega)
        (by omega)
      rw [d1, ok_bind]
      simp only
      have hrc := g.hrc
      have hid := div_lt_dlen l3
      obtain ⟨m2, e1, e2, e3⟩ := top'.res.reset_spec m1 top'.id (by rw [hroff]; omega)
      rw [e1, ok_bind]
      rw [hroff] at e3
      have hsc' : G'.searchCur - p.req G0 = p.B + (rest.length + 1) * p.req G0 := by omega
      rw [hsc'] at d3
      have hbit : ∀ a, bitAt m2 a = (!decide (a = 64 * p.ro + top'.id) &&
          (if 64 * (p.B + (rest.length + 1) * p.req G0) ≤ a then false else bitAt G'.eb a)) := by
        intro a
        rw [e3, d3]
        by_cases h1 : 64 * (p.B + (rest.length + 1) * p.req G0) ≤ a
        · rw [if_pos h1]
          by_cases h2 : a < 64 * G'.searchCur
          · rw [if_pos ⟨h1, h2⟩]
          · rw [if_neg (by omega), I2.zero a (by omega)]
        · rw [if_neg h1, if_neg (by omega)]
      have hdl := @dlen_le (G0.V p.r).N
      have hlow : ∀ l, l < rest.length → ∀ i, i < 64 * p.req G0 →
          bitAt m2 (64 * candOff G0 p l + i) = bitAt G'.eb (64 * candOff G0 p l + i) := by
        intro l hl i hi
        have h1 := candOff_end g l
        have h2 : (l + 2) * p.req G0 ≤ (rest.length + 1) * p.req G0 :=
          Nat.mul_le_mul_right _ (by omega)
        have h3 := ro_candOff g l
        rw [hbit, if_neg (by omega)]
        have : ¬ (64 * candOff G0 p l + i = 64 * p.ro + top'.id) := by omega
        simp [this]
      obtain ⟨f1, f2, f3⟩ := Lv_congr G'.eb m2 rest hlow l11
      have hebo := w.eboEnd p.r g.hr
      have hBB := g.hB
      have husub : usub (rest.length + 1) 1 = rest.length := by
        have : p.L + 2 ≤ (p.L + 2) * p.req G0 := Nat.le_mul_of_pos_right _ (dlen_pos hNpos)
        rw [usub_eq (by omega) (by omega)]; omega
      have I3 : EI G0 p Q { G' with searchCur := G'.searchCur - p.req G0, eb := m2 } rest := by
        refine ⟨?_, ?_, f1, ?_, ?_, ?_⟩
        · exact I2.upd.scratch (by omega) m2 _ (e2.trans d2) (fun a ha => by
            rw [hbit, if_neg (by omega)]
            have : ¬ (a = 64 * p.ro + top'.id) := by omega
            simp [this])
        · simp only; exact hsc'
        · show Ordd m2 rest
          refine (PendC_congr (G0 := G0) (p := p) G'.eb m2 k ∅ rest hlow l11).2 ?_
          have ho := I2.ord
          cases rest with
          | nil => trivial
          | cons t rest' => exact ho.2
        · intro i hi
          simp only
          rw [hbit]
          by_cases h1 : 64 * (p.B + (rest.length + 1) * p.req G0) ≤ 64 * p.ro + i
          · rw [if_pos h1, Bool.and_false]
            have h0 : rest = [] := by
              by_contra hne
              have : 1 ≤ rest.length := by
                cases rest with
                | nil => exact absurd rfl hne
                | cons _ _ => simp
              have : 2 * p.req G0 ≤ (rest.length + 1) * p.req G0 :=
                Nat.mul_le_mul_right _ (by omega)
              omega
            rw [h0]; simp
          · rw [if_neg h1, I2.res i hi]
            by_cases h2 : i = top'.id
            · subst h2
              simp [l4]
            · have h3 : ¬ (64 * p.ro + i = 64 * p.ro + top'.id) := by omega
              simp [h3, h2]
        · intro a ha
          simp only at ha ⊢
          rw [hsc'] at ha
          rw [hbit, if_pos ha]; simp
      have hpend : ∀ C, PendC G0 p m2 k C rest ↔ PendC G0 p G.eb k C (top :: rest) := by
        intro C
        rw [(PendC_congr (G0 := G0) (p := p) G'.eb m2 k C rest hlow l11).1, ← c5]
        conv_rhs => unfold PendC
        constructor
        · intro h; exact Or.inr h
        · rintro (⟨X, x1, x2, x3, x4⟩ | h)
          · rw [c3] at x1
            have : X = ∅ := Finset.subset_empty.1 x1
            rw [this] at x4
            simp at x4; omega
          · exact h
      have hnod : nodes m2 rest < nodes G.eb (top :: rest) := by
        refine Nat.lt_of_lt_of_le ?_ c4
        rw [f3]
        simp only [nodes, c3]
        simp
      refine ⟨_, rfl, ⟨rfl, hcoreK I3.upd, ?_⟩, ?_, ?_⟩
      · cases hrest : rest with
        | nil =>
          left
          refine ⟨rfl, hrs, ?_⟩
          subst hrest
          have hU := I3.upd
          rw [p1, p2] at hU
          have hs3 : G'.searchCur - p.req G0 = b + p.req G0 := by
            rw [hsc', p2]; simp
          obtain ⟨G5, q1, q2, q3⟩ := hU.pop ok hr (n := p.req G0) hs3
            (by show G'.searchCur - p.req G0 ≤ _; omega) I3.zero
          exact ⟨G5, q1, q2, hc0.trans (Nat.le_refl _) q3⟩
        | cons t rest' =>
          right; right
          rw [← hrest]
          refine ⟨by rw [hrest]; simp, husub, by simp only; omega, Nat.lt_trans hnod a4, a6, G0, p, ok,
            hc0, p1, p2, g, I3, rfl, p4⟩
      · unfold emu; simp only [hst]; omega
      · exact hcomm _ _ rfl hpend

theorem EInv.fuel {Gs G : Graph} {E : Enum} {Q : Nat → Prop} {b k : Nat}
    (h : EInv Q b Gs k G E) :
    emu Gs (G, E) < (G.nVert + 2) * 2 ^ (G.maxDeg + 2) := by
  obtain ⟨_, hc, h⟩ := h
  rw [hc.frame.nVert, hc.frame.maxDeg]
  unfold emu
  simp only
  have hn : nodes G.eb E.states < 2 ^ (Gs.maxDeg + 1) := by
    have hpos : 0 < 2 ^ (Gs.maxDeg + 1) := Nat.pos_of_ne_zero (by simp)
    rcases h with ⟨h1, _⟩ | ⟨h1, _⟩ | ⟨_, _, _, h1, _⟩
    · rw [h1]; exact hpos
    · rw [h1]; exact hpos
    · exact h1
  have e1 : 2 ^ (Gs.maxDeg + 2) = 2 ^ (Gs.maxDeg + 1) + 2 ^ (Gs.maxDeg + 1) := by
    rw [Nat.pow_succ]; omega
  have e2 : (Gs.nVert - E.cur) * 2 ^ (Gs.maxDeg + 2) ≤ Gs.nVert * 2 ^ (Gs.maxDeg + 2) :=
    Nat.mul_le_mul_right _ (by omega)
  have e3 : (Gs.nVert + 2) * 2 ^ (Gs.maxDeg + 2) =
      Gs.nVert * 2 ^ (Gs.maxDeg + 2) + 2 * 2 ^ (Gs.maxDeg + 2) := Nat.add_mul _ _ _
  clear * - hn e1 e2 e3
  omega

/-- One call of `process_graph` for sizes above one: it either reports one pending rooted
clique, which is then no longer pending, or nothing is pending. -/
theorem enumGraph_spec {Gs G : Graph} {E : Enum} {Q : Nat → Prop} {b k : Nat} (hQ : Q k) (h2 : 2 ≤ k)
    (h : EInv Q b Gs k G E) :
    ∃ G' E' v, G.enumGraph E = .ok (G', E', v) ∧ EInv Q b Gs k G' E' ∧
      ((v < Gs.nVert ∧ E'.cur = v ∧ E'.states ≠ [] ∧
          Pnd Gs k G E v (bset G'.eb (Gs.vb v)) ∧
          ∀ r C, Pnd Gs k G' E' r C ↔
            (Pnd Gs k G E r C ∧ ¬ (r = v ∧ C = bset G'.eb (Gs.vb v)))) ∨
       (v = Gs.nVert ∧ E'.cur = Gs.nVert ∧ OkAt b G' ∧ ∀ r C, ¬ Pnd Gs k G E r C)) := by
  unfold enumGraph
  rw [if_neg (by rw [h.1]; omega), if_neg (by rw [h.1]; omega)]
  obtain ⟨⟨G', E', v⟩, q1, q2, q3⟩ := loop_rule (body := enumBody)
    (fun s => EInv Q b Gs k s.1 s.2 ∧ ∀ r C, Pnd Gs k s.1 s.2 r C ↔ Pnd Gs k G E r C)
    (fun q => EInv Q b Gs k q.1 q.2.1 ∧
      ((q.2.2 < Gs.nVert ∧ q.2.1.cur = q.2.2 ∧ q.2.1.states ≠ [] ∧
          Pnd Gs k G E q.2.2 (bset q.1.eb (Gs.vb q.2.2)) ∧
          ∀ r C, Pnd Gs k q.1 q.2.1 r C ↔
            (Pnd Gs k G E r C ∧ ¬ (r = q.2.2 ∧ C = bset q.1.eb (Gs.vb q.2.2)))) ∨
       (q.2.2 = Gs.nVert ∧ q.2.1.cur = Gs.nVert ∧ OkAt b q.1 ∧ ∀ r C, ¬ Pnd Gs k G E r C)))
    (emu Gs)
    (by
      rintro ⟨X, F⟩ ⟨a1, a2⟩
      simp only at a1 a2
      obtain ⟨q, b1, b2⟩ := enumBody_spec hQ h2 a1
      cases q with
      | inl s =>
        left
        obtain ⟨c1, c2, c3⟩ := b2
        exact ⟨s, b1, ⟨c1, fun r C => (c3 r C).trans (a2 r C)⟩, c2⟩
      | inr s =>
        right
        obtain ⟨Y, F', v⟩ := s
        obtain ⟨c1, c2, c3⟩ := b2
        refine ⟨_, b1, c1, ?_⟩
        simp only
        subst c2
        rcases c3 with ⟨d1, d2, d3, d4, d5⟩ | ⟨d1, d2, d3, d4, d5⟩
        · left
          exact ⟨d1, d2, d3, (a2 _ _).1 d4, fun r C => by rw [d5, a2]⟩
        · right
          subst d2 d3
          exact ⟨d1, d1, d4, fun r C h => d5 r C ((a2 r C).2 h)⟩)
    (s := (G, E)) (fuel := (G.nVert + 2) * 2 ^ (G.maxDeg + 2))
    ⟨h, fun _ _ => Iff.rfl⟩ h.fuel
  exact ⟨G', E', v, q1, q2, q3⟩

end Graph

end CM
