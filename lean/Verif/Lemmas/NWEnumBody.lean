import Verif.Lemmas.NWEnum

/-! # One step of `NWCliqueEnumerator::process_graph` (nw_enumerate.cpp:82-204) -/

namespace CM

open Graph

namespace NWG

open ExactNum

set_option linter.unusedSectionVars false

variable {R : Type} [Zero R] [Add R] [Sub R] [NatCast R] [LT R] [LE R] [DecidableLT R]
  [DecidableLE R] [ExactNum R] {Al : Nat → Finset Nat → Prop} {b : Nat}

/-- What has been achieved when an enumeration stops: one pending clique was reported. -/
def WRep (Hs : NWG R) (W : Rat) (H : NWG R) (E : WEnum R) (H' : NWG R) (E' : WEnum R) (v : Nat) : Prop :=
  v < Hs.g.nVert ∧ E'.cur = v ∧ (E'.states ≠ [] ∧ E'.states.length + 1 ≤ (bset H'.g.eb (Hs.g.vb v)).card) ∧
    WPnd Hs W H E v (bset H'.g.eb (Hs.g.vb v)) ∧
    Shr Hs (WPnd Hs W H' E')
      (fun r C => WPnd Hs W H E r C ∧ ¬ (r = v ∧ C = bset H'.g.eb (Hs.g.vb v)))

/-- The three ways an iteration of the enumeration loop ends. -/
def WEStep (Al : Nat → Finset Nat → Prop) (b : Nat) (Hs : NWG R) (W : Rat) (H : NWG R) (E : WEnum R)
    (q : (NWG R × WEnum R) ⊕ (NWG R × WEnum R × Nat)) : Prop :=
  match q with
  | .inl (H', E') => WEInv Al b Hs W H' E' ∧ wemu Hs (H', E') < wemu Hs (H, E) ∧
      Shr Hs (WPnd Hs W H' E') (WPnd Hs W H E)
  | .inr (H', E', v) => WEInv Al b Hs W H' E' ∧
      (WRep Hs W H E H' E' v ∨
       (v = Hs.g.nVert ∧ E.cur = Hs.g.nVert ∧ H' = H ∧ E' = E ∧ OkAt b H.g ∧
          ∀ r C, ¬ WPnd Hs W H E r C))

theorem enumBody_spec {Hs H : NWG R} {E : WEnum R} {W : Rat} (Xe : XE Hs)
    (hAl : ∀ v C, W ≤ Hs.wsum v C → Al v C) (h : WEInv Al b Hs W H E) :
    ∃ q, enumBody (H, E) = .ok q ∧ WEStep Al b Hs W H E q := by
  obtain ⟨hk, hc, hl, hwl, h⟩ := h
  unfold enumBody
  simp only
  rcases h with ⟨a1, a2, g', a3, a4, a5⟩ | ⟨a1, a2, a3⟩ |
    ⟨a1, a4, H0, p, ok, hc0, p1, p2, Wg, I, p3, hws, hcw⟩
  · rw [if_pos (by rw [hc.core.frame.nVert]; exact a2), a1]
    simp only
    rw [a3, ok_bind]
    have hcn : WCoreS Al b Hs { H with g := g' } := by
      refine ⟨?_, a5⟩
      conv_lhs => rw [hc.same]
    obtain ⟨H2, E2, b1, b2, b3, b4, b5⟩ := enumVertex_spec Xe a4 hcn hl hwl a2 a1 hk
    rw [b1, ok_bind]
    refine ⟨_, rfl, b2, ?_, b5.trans ?_⟩
    · unfold wemu
      simp only [a1, nodes, Nat.add_zero]
      have hn : nodes H2.g.eb E2.states < 2 ^ (Hs.g.maxDeg + 1) := by
        have hpos : 0 < 2 ^ (Hs.g.maxDeg + 1) := Nat.pos_of_ne_zero (by simp)
        rcases b2.2.2.2.2 with ⟨h1, _⟩ | ⟨h1, _⟩ | ⟨_, h1, _⟩
        · rw [h1]; exact hpos
        · rw [h1]; exact hpos
        · exact h1
      have e1 : 2 ^ (Hs.g.maxDeg + 2) = 2 ^ (Hs.g.maxDeg + 1) + 2 ^ (Hs.g.maxDeg + 1) := by
        rw [Nat.pow_succ]; omega
      have e2 : (Hs.g.nVert - E2.cur + 1) * 2 ^ (Hs.g.maxDeg + 2)
          ≤ (Hs.g.nVert - E.cur) * 2 ^ (Hs.g.maxDeg + 2) := Nat.mul_le_mul_right _ (by omega)
      rw [Nat.succ_mul] at e2
      clear * - e1 e2 hn
      omega
    · constructor
      · intro r C; unfold WPnd; rw [a1]; exact fun h => h
      · intro _ r C; unfold WPnd; rw [a1]; exact fun h => h
  · rw [if_neg (by rw [hc.core.frame.nVert]; omega)]
    refine ⟨_, rfl, ⟨hk, hc, hl, hwl, Or.inr (Or.inl ⟨a1, a2, a3⟩)⟩,
      Or.inr ⟨a2, a2, rfl, rfl, a3, ?_⟩⟩
    intro r C
    unfold WPnd
    rw [a1]
    simp only [PendW, and_false, false_or]
    rintro ⟨h1, h3, _⟩
    omega
  · -- inside a root
    have g := Wg.g
    have w := g.wf
    have hr : E.cur < H0.g.nVert := p1 ▸ g.hr
    have hrs : E.cur < Hs.g.nVert := by rw [← hc0.core.frame.nVert]; exact hr
    have hrG : E.cur < H.g.nVert := by rw [hc.core.frame.nVert]; exact hrs
    have F0 := hc0.frame
    have X0 := hc0.xe Xe
    rw [if_pos hrG]
    cases hst : E.states with
    | nil => exact absurd hst a1
    | cons top rest =>
    simp only
    rw [hst] at a4 I hcw
    have hNpos := N_pos w g.hr
    have hlv := I.lv
    have hlenL := Lv_len Wg I.lv
    simp only [List.length_cons] at hlenL
    unfold Lv at hlv
    obtain ⟨l1, l2, l3, l4, l5, l6, l7, l8, l9, l10, l11⟩ := hlv
    have hreqd : p.req H0.g = dlen (H0.g.V p.r).N := rfl
    have hoff : top.cand.off = candOff H0.g p rest.length := by rw [l2]
    have hclen : top.cand.len = (H0.g.V p.r).N := by rw [l2]
    have hce := candOff_end g rest.length
    have hlen1 : (rest.length + 2) * p.req H0.g ≤ (p.L + 2) * p.req H0.g :=
      Nat.mul_le_mul_right _ (by omega)
    have hroom := g.room
    have hebl := I.upd.frame.ebl
    have hin : top.cand.off + dlen top.cand.len ≤ H.g.eb.length := by
      rw [hoff, hclen]; omega
    have wG := I.upd.frame.wf w
    rw [vtx_ok wG hrG, ok_bind]
    rw [top.cand.count_pad H.g.eb (by omega) hin l8, ok_bind]
    simp only
    have hVG : H.g.V E.cur = H0.g.V p.r := by rw [I.upd.toEUpd.core.V, p1]
    rw [hVG, p3, hk]
    have hpc : ∀ (m : Mem) C st, PendW Hs (par E.cur) m W C st ↔ PendW H0 p m W C st := by
      intro m C st
      exact (PendW_iff F0 (p := par E.cur) (p' := p) p1.symm m W C st).symm
    have hnn0 : (∀ v, 0 ≤ val (Hs.w v)) → ∀ v, 0 ≤ val (H0.w v) := fun h v => by rw [F0.w]; exact h v
    obtain ⟨q, hq1, hq2⟩ := loop_rule
      (body := enumFor (H0.g.V p.r) (p.req H0.g) E.ws E.cliqueWeight (fin W))
      (fun (s : NWG R × WState R × Nat) => EI H0 p Al s.1 (s.2.1 :: rest) ∧
        s.2.1.id = top.id ∧ s.2.2 ≤ (H0.g.V p.r).N ∧
        (∀ c ∈ bset s.1.g.eb s.2.1.cand, s.2.2 ≤ c) ∧
        nodes s.1.g.eb (s.2.1 :: rest) ≤ nodes H.g.eb (top :: rest) ∧
        (∀ C, PendW H0 p s.1.g.eb W C (s.2.1 :: rest) → PendW H0 p H.g.eb W C (top :: rest)) ∧
        ((∀ v, 0 ≤ val (H0.w v)) → ∀ C, PendW H0 p H.g.eb W C (top :: rest) →
          PendW H0 p s.1.g.eb W C (s.2.1 :: rest)))
      (fun (q : EnumExit R) => match q with
        | .found H' top' => EI H0 p Al H' (top' :: rest) ∧ top'.id = top.id ∧
            (nodes H'.g.eb (top' :: rest) ≤ nodes H.g.eb (top :: rest) ∧
              rest.length + 2 ≤ (bset H'.g.eb (H0.g.vb p.r)).card) ∧
            PendW H0 p H.g.eb W (bset H'.g.eb (H0.g.vb p.r)) (top :: rest) ∧
            (∀ C, PendW H0 p H'.g.eb W C (top' :: rest) →
              (PendW H0 p H.g.eb W C (top :: rest) ∧ C ≠ bset H'.g.eb (H0.g.vb p.r))) ∧
            ((∀ v, 0 ≤ val (H0.w v)) → ∀ C, PendW H0 p H.g.eb W C (top :: rest) →
              C ≠ bset H'.g.eb (H0.g.vb p.r) → PendW H0 p H'.g.eb W C (top' :: rest))
        | .pushed H' top' new cw' => EI H0 p Al H' (new :: top' :: rest) ∧
            cw' = fin (lw H0 p (new :: top' :: rest)) ∧
            nodes H'.g.eb (new :: top' :: rest) < nodes H.g.eb (top :: rest) ∧
            (∀ C, PendW H0 p H'.g.eb W C (new :: top' :: rest) →
              PendW H0 p H.g.eb W C (top :: rest)) ∧
            ((∀ v, 0 ≤ val (H0.w v)) → ∀ C, PendW H0 p H.g.eb W C (top :: rest) →
              PendW H0 p H'.g.eb W C (new :: top' :: rest))
        | .done H' top' => EI H0 p Al H' (top' :: rest) ∧ top'.id = top.id ∧
            bset H'.g.eb top'.cand = ∅ ∧
            nodes H'.g.eb (top' :: rest) ≤ nodes H.g.eb (top :: rest) ∧
            (∀ C, PendW H0 p H'.g.eb W C (top' :: rest) →
              PendW H0 p H.g.eb W C (top :: rest)) ∧
            ((∀ v, 0 ≤ val (H0.w v)) → ∀ C, PendW H0 p H.g.eb W C (top :: rest) →
              PendW H0 p H'.g.eb W C (top' :: rest)))
      (fun s => (H0.g.V p.r).N - s.2.2)
      (by
        rintro ⟨H1, top1, j1⟩ ⟨b1, b2, b3, b4, b5, b6, b7⟩
        simp only at b1 b2 b3 b4 b5 b6 b7
        have hcw1 : E.cliqueWeight = fin (lw H0 p (top1 :: rest)) := by
          rw [hcw, lw_cons, lw_cons, b2]
        rcases enumFor_spec X0 Wg (fun C hC => hAl _ C (by rwa [F0.wsum] at hC)) hws b1 hcw1 b3 b4 (T := W) with
          ⟨H', top', c1, c2, c3, c4, c5, c6, c7, c8⟩ |
          ⟨H', top', c1, c2, c3, c4, c5, c6⟩ | ⟨H', top', new, cw', c1, c2, c3, c4, c5⟩ | ⟨c1, c2⟩
        · left
          exact ⟨_, c1, ⟨c3, c4.trans b2, by simp only; omega, c5, Nat.le_trans c6 b5,
            fun C h => b6 C (c7 C h), fun hn C h => c8 hn C (b7 hn C h)⟩, by simp only; omega⟩
        · right
          refine ⟨_, c1, c2, c3.trans b2, ⟨Nat.le_trans c4.1 b5, c4.2⟩, b6 _ c5, ?_, ?_⟩
          · intro C h
            have := (c6 C).1 h
            exact ⟨b6 C this.1, this.2⟩
          · intro hn C h1 h2
            exact (c6 C).2 ⟨b7 hn C h1, h2⟩
        · right
          exact ⟨_, c1, c2, c3, Nat.lt_of_lt_of_le c4 b5, fun C h => b6 C ((c5 C).1 h),
            fun hn C h => (c5 C).2 (b7 hn C h)⟩
        · right
          exact ⟨_, c1, b1, b2, c2, b5, b6, b7⟩)
      (s := ({ H with g := { H.g with eb := H.g.eb } }, top, top.startAt))
      (fuel := (H0.g.V p.r).N + 2)
      ⟨I, rfl, l7, fun c hc => (l9 c hc).1, Nat.le_refl _, fun _ h => h, fun _ _ h => h⟩
      (by simp only; omega)
    rw [hq1, ok_bind]
    have hcomm : ∀ (H' : NWG R) (E' : WEnum R), E'.cur = E.cur →
        (∀ C, PendW H0 p H'.g.eb W C E'.states → PendW H0 p H.g.eb W C (top :: rest)) →
        ((∀ v, 0 ≤ val (H0.w v)) → ∀ C, PendW H0 p H.g.eb W C (top :: rest) →
          PendW H0 p H'.g.eb W C E'.states) →
        Shr Hs (WPnd Hs W H' E') (WPnd Hs W H E) := by
      intro H' E' e1 e2 e3
      constructor
      · intro r C
        unfold WPnd
        rw [e1, hpc, hpc, hst]
        rintro (⟨d1, d2⟩ | d)
        · exact Or.inl ⟨d1, e2 C d2⟩
        · exact Or.inr d
      · intro hn r C
        unfold WPnd
        rw [e1, hpc, hpc, hst]
        rintro (⟨d1, d2⟩ | d)
        · exact Or.inl ⟨d1, e3 (hnn0 hn) C d2⟩
        · exact Or.inr d
    cases q with
    | found H' top' =>
      obtain ⟨c1, c0, c2, c3, c4, c5⟩ := hq2
      simp only
      refine ⟨_, rfl, ⟨rfl, hc0.trans (c1.core p2 ok g.hr), hl, hwl, Or.inr (Or.inr ?_)⟩, Or.inl ?_⟩
      · refine ⟨by simp, Nat.lt_of_le_of_lt c2.1 a4, H0, p, ok, hc0, p1, p2, Wg, c1, rfl, hws, ?_⟩
        simp only
        rw [hcw, lw_cons, lw_cons, c0]
      · have hvbe : Hs.g.vb E.cur = H0.g.vb p.r := by rw [p1, hc0.core.frame.vb]
        refine ⟨hrs, rfl, ⟨by simp, by rw [hvbe]; exact c2.2⟩, ?_, ?_, ?_⟩
        · left
          rw [hvbe, hpc, hst]
          exact ⟨rfl, c3⟩
        · intro r C
          unfold WPnd
          simp only
          rw [hpc, hpc, hst, hvbe]
          rintro (⟨d1, d2⟩ | d)
          · have := c4 C d2
            exact ⟨Or.inl ⟨d1, this.1⟩, fun h => this.2 h.2⟩
          · exact ⟨Or.inr d, by omega⟩
        · intro hn r C
          unfold WPnd
          simp only
          rw [hpc, hpc, hst, hvbe]
          rintro ⟨⟨d1, d2⟩ | d, d3⟩
          · exact Or.inl ⟨d1, c5 (hnn0 hn) C d2 (fun h => d3 ⟨d1, h⟩)⟩
          · exact Or.inr d
    | pushed H' top' new cw' =>
      obtain ⟨c1, c0, c2, c4, c5⟩ := hq2
      simp only
      refine ⟨_, rfl, ⟨rfl, hc0.trans (c1.core p2 ok g.hr), hl, hwl, Or.inr (Or.inr ?_)⟩, ?_, ?_⟩
      · exact ⟨by simp, Nat.lt_trans c2 a4, H0, p, ok, hc0, p1, p2, Wg, c1, rfl, hws, c0⟩
      · unfold wemu; simp only [hst]; omega
      · exact hcomm _ _ rfl c4 c5
    | done H' top' =>
      obtain ⟨I2, c0, c3, c4, c5, c6⟩ := hq2
      simp only
      clear l1 l2 l3 l4 l5 l6 l7 l8 l9 l10 l11 hlen1 hin hoff hclen
      have hlv := I2.lv
      unfold Lv at hlv
      obtain ⟨l1, l2, l3, l4, l5, l6, l7, l8, l9, l10, l11⟩ := hlv
      have hroff : top'.res.off = p.ro := by rw [l1]
      have hebl := I2.upd.frame.ebl
      have hlen1 : (rest.length + 2) * p.req H0.g ≤ (p.L + 2) * p.req H0.g :=
        Nat.mul_le_mul_right _ (by omega)
      have hlen2 : (rest.length + 2) * p.req H0.g = (rest.length + 1) * p.req H0.g + p.req H0.g :=
        Nat.succ_mul _ _
      have hlen3 : 1 * p.req H0.g ≤ (rest.length + 1) * p.req H0.g :=
        Nat.mul_le_mul_right _ (by omega)
      have hsc : H'.g.searchCur = p.B + (rest.length + 2) * p.req H0.g := I2.sc
      have hebb := w.eblen
      obtain ⟨m1, d1, d2, d3⟩ := clearMemory_spec (G := H'.g) (p.req H0.g) (by omega) (by omega)
        (by omega)
      rw [d1, ok_bind]
      simp only
      have hrc := g.hrc
      have hid := div_lt_dlen l3
      obtain ⟨m2, e1, e2, e3⟩ := top'.res.reset_spec m1 top'.id (by rw [hroff]; omega)
      rw [e1, ok_bind]
      rw [hroff] at e3
      have hsc' : H'.g.searchCur - p.req H0.g = p.B + (rest.length + 1) * p.req H0.g := by omega
      rw [hsc'] at d3
      have hbit : ∀ a, bitAt m2 a = (!decide (a = 64 * p.ro + top'.id) &&
          (if 64 * (p.B + (rest.length + 1) * p.req H0.g) ≤ a then false else bitAt H'.g.eb a)) := by
        intro a
        rw [e3, d3]
        by_cases h1 : 64 * (p.B + (rest.length + 1) * p.req H0.g) ≤ a
        · rw [if_pos h1]
          by_cases h2 : a < 64 * H'.g.searchCur
          · rw [if_pos ⟨h1, h2⟩]
          · rw [if_neg (by omega), I2.zero a (by omega)]
        · rw [if_neg h1, if_neg (by omega)]
      have hdl := @dlen_le (H0.g.V p.r).N
      have hwsl := hws.len
      rw [rd_getD (0 : R) (show top'.id < E.ws.length by omega), ok_bind]
      have hlow : ∀ l, l < rest.length → ∀ i, i < 64 * p.req H0.g →
          bitAt m2 (64 * candOff H0.g p l + i) = bitAt H'.g.eb (64 * candOff H0.g p l + i) := by
        intro l hl i hi
        have h1 := candOff_end g l
        have h2 : (l + 2) * p.req H0.g ≤ (rest.length + 1) * p.req H0.g :=
          Nat.mul_le_mul_right _ (by omega)
        have h3 := ro_candOff g l
        rw [hbit, if_neg (by omega)]
        have : ¬ (64 * candOff H0.g p l + i = 64 * p.ro + top'.id) := by omega
        simp [this]
      obtain ⟨f1, f2, f3⟩ := Lv_congr H'.g.eb m2 rest hlow l11
      have hbl := bset_low hlow l11
      have hebo := w.eboEnd p.r g.hr
      have hBB := g.hB
      have I3 : EI H0 p Al { H' with g := { H'.g with
          searchCur := H'.g.searchCur - p.req H0.g
          eb := m2 } } rest := by
        refine ⟨?_, ?_, ?_, f1, ?_, ?_, ?_, ?_⟩
        · conv_lhs => rw [I2.same]
        · exact I2.upd.scratch (by omega) m2 _ (e2.trans d2) (fun a ha => by
            rw [hbit, if_neg (by omega)]
            have : ¬ (a = 64 * p.ro + top'.id) := by omega
            simp [this])
        · simp only; exact hsc'
        · show Ordd m2 rest
          refine Ordd_congr hbl ?_
          have ho := I2.ord
          cases rest with
          | nil => trivial
          | cons t rest' => exact ho.2
        · intro s hs
          simp only
          rw [hbl s hs]; exact I2.pot s (by simp [hs])
        · intro i hi
          simp only
          rw [hbit]
          by_cases h1 : 64 * (p.B + (rest.length + 1) * p.req H0.g) ≤ 64 * p.ro + i
          · rw [if_pos h1, Bool.and_false]
            have h0 : rest = [] := by
              by_contra hne
              have : 1 ≤ rest.length := by
                cases rest with
                | nil => exact absurd rfl hne
                | cons _ _ => simp
              have : 2 * p.req H0.g ≤ (rest.length + 1) * p.req H0.g :=
                Nat.mul_le_mul_right _ (by omega)
              omega
            rw [h0]; simp
          · rw [if_neg h1, I2.res i hi]
            by_cases h2 : i = top'.id
            · subst h2
              simp [l4]
            · have h3 : ¬ (64 * p.ro + i = 64 * p.ro + top'.id) := by omega
              simp [h3, h2]
        · intro a ha
          simp only at ha ⊢
          rw [hsc'] at ha
          rw [hbit, if_pos ha]; simp
      have hpend : ∀ C, PendW H0 p m2 W C rest ↔ PendW H0 p H'.g.eb W C (top' :: rest) := by
        intro C
        rw [PendW_congr W C hbl]
        conv_rhs => unfold PendW
        constructor
        · intro h; exact Or.inr h
        · rintro (⟨X, x1, x2, _⟩ | h)
          · rw [c3] at x1
            have : X = ∅ := Finset.subset_empty.1 x1
            rw [this] at x2
            simp at x2
          · exact h
      have hnod : nodes m2 rest < nodes H.g.eb (top :: rest) := by
        refine Nat.lt_of_lt_of_le ?_ c4
        rw [f3]
        simp only [nodes, c3]
        simp
      refine ⟨_, rfl, ⟨rfl, hc0.trans (I3.core p2 ok g.hr), hl, hwl, ?_⟩, ?_, ?_⟩
      · cases hrest : rest with
        | nil =>
          left
          refine ⟨rfl, hrs, ?_⟩
          subst hrest
          have hU := I3.upd
          rw [p1, p2] at hU
          have hs3 : H'.g.searchCur - p.req H0.g = b + p.req H0.g := by
            rw [hsc', p2]; simp
          obtain ⟨G5, q1, q2, q3⟩ := hU.pop ok hr (n := p.req H0.g) hs3
            (by show H'.g.searchCur - p.req H0.g ≤ _; omega) I3.zero
          exact ⟨G5, q1, q2, hc0.core.trans (Nat.le_refl _) q3⟩
        | cons t rest' =>
          right; right
          rw [← hrest]
          refine ⟨by rw [hrest]; simp, Nat.lt_trans hnod a4, H0, p, ok,
            hc0, p1, p2, Wg, I3, rfl, hws, ?_⟩
          simp only
          rw [hws.val _ (l10 (by rw [hrest]; simp)), hcw, lw_cons, c0]
          obtain ⟨hf1, hf2, _, _⟩ := Lv_facts g H'.g.eb rest l11
          rw [← wsum_ids (H0 := H0) (p := p) hf1]
          refine X0.sub w g.hr ?_ (by rw [← c0]; exact l3)
          intro i hi
          rw [List.mem_toFinset] at hi
          obtain ⟨t, ht, rfl⟩ := List.mem_map.1 hi
          exact hf2 t ht
      · unfold wemu; simp only [hst]; omega
      · exact hcomm _ _ rfl (fun C h => c5 C ((hpend C).1 h))
          (fun hn C h => (hpend C).2 (c6 hn C h))

theorem WEInv.fuel {Hs H : NWG R} {E : WEnum R} {W : Rat} (h : WEInv Al b Hs W H E) :
    wemu Hs (H, E) < (H.g.nVert + 2) * 2 ^ (H.g.maxDeg + 2) := by
  obtain ⟨_, hc, _, _, h⟩ := h
  rw [hc.core.frame.nVert, hc.core.frame.maxDeg]
  unfold wemu
  simp only
  have hn : nodes H.g.eb E.states < 2 ^ (Hs.g.maxDeg + 1) := by
    have hpos : 0 < 2 ^ (Hs.g.maxDeg + 1) := Nat.pos_of_ne_zero (by simp)
    rcases h with ⟨h1, _⟩ | ⟨h1, _⟩ | ⟨_, h1, _⟩
    · rw [h1]; exact hpos
    · rw [h1]; exact hpos
    · exact h1
  have e1 : 2 ^ (Hs.g.maxDeg + 2) = 2 ^ (Hs.g.maxDeg + 1) + 2 ^ (Hs.g.maxDeg + 1) := by
    rw [Nat.pow_succ]; omega
  have e2 : (Hs.g.nVert - E.cur) * 2 ^ (Hs.g.maxDeg + 2) ≤ Hs.g.nVert * 2 ^ (Hs.g.maxDeg + 2) :=
    Nat.mul_le_mul_right _ (by omega)
  have e3 : (Hs.g.nVert + 2) * 2 ^ (Hs.g.maxDeg + 2) =
      Hs.g.nVert * 2 ^ (Hs.g.maxDeg + 2) + 2 * 2 ^ (Hs.g.maxDeg + 2) := Nat.add_mul _ _ _
  clear * - hn e1 e2 e3
  omega

/-- One call of `process_graph`: it either reports one pending rooted clique, which is then no
longer pending, or nothing was to be reported (the latter for non-negative weights). -/
theorem enumGraph_spec {Hs H : NWG R} {E : WEnum R} {W : Rat} (Xe : XE Hs)
    (hAl : ∀ v C, W ≤ Hs.wsum v C → Al v C) (h : WEInv Al b Hs W H E) :
    ∃ H' E' v, H.enumGraph E = .ok (H', E', v) ∧ WEInv Al b Hs W H' E' ∧
      (WRep Hs W H E H' E' v ∨
       (v = Hs.g.nVert ∧ E'.cur = Hs.g.nVert ∧ E'.states = [] ∧ OkAt b H'.g ∧
          ((∀ x, 0 ≤ val (Hs.w x)) → ∀ r C, ¬ WPnd Hs W H E r C))) := by
  unfold enumGraph
  obtain ⟨⟨H', E', v⟩, q1, q2, q3⟩ := loop_rule (body := enumBody)
    (fun s => WEInv Al b Hs W s.1 s.2 ∧ Shr Hs (WPnd Hs W s.1 s.2) (WPnd Hs W H E))
    (fun q => WEInv Al b Hs W q.1 q.2.1 ∧
      (WRep Hs W H E q.1 q.2.1 q.2.2 ∨
       (q.2.2 = Hs.g.nVert ∧ q.2.1.cur = Hs.g.nVert ∧ q.2.1.states = [] ∧ OkAt b q.1.g ∧
        ((∀ x, 0 ≤ val (Hs.w x)) → ∀ r C, ¬ WPnd Hs W H E r C))))
    (wemu Hs)
    (by
      rintro ⟨X, F⟩ ⟨a1, a2⟩
      simp only at a1 a2
      obtain ⟨q, b1, b2⟩ := enumBody_spec Xe hAl a1
      cases q with
      | inl s =>
        left
        obtain ⟨c1, c2, c3⟩ := b2
        exact ⟨s, b1, ⟨c1, c3.trans a2⟩, c2⟩
      | inr s =>
        right
        obtain ⟨Y, F', v⟩ := s
        obtain ⟨c1, c3⟩ := b2
        refine ⟨_, b1, c1, ?_⟩
        simp only
        rcases c3 with ⟨d1, d2, d3, d4, d5⟩ | ⟨d0, d1, d2, d3, d4, d5⟩
        · left
          refine ⟨d1, d2, d3, a2.1 _ _ d4, d5.trans ⟨?_, ?_⟩⟩
          · rintro r C ⟨k1, k2⟩; exact ⟨a2.1 r C k1, k2⟩
          · rintro hn r C ⟨k1, k2⟩; exact ⟨a2.2 hn r C k1, k2⟩
        · right
          subst d2 d3
          refine ⟨d0, d1, ?_, d4, fun hn r C h => d5 r C (a2.2 hn r C h)⟩
          rcases c1.2.2.2.2 with ⟨h1, _⟩ | ⟨h1, _⟩ | ⟨_, _, H0, p, _, hc0, p1, _, Wg, _⟩
          · exact h1
          · exact h1
          · have := Wg.g.hr
            rw [hc0.core.frame.nVert] at this
            omega)
    (s := (H, E)) (fuel := (H.g.nVert + 2) * 2 ^ (H.g.maxDeg + 2))
    ⟨h, Shr.refl _⟩ h.fuel
  exact ⟨H', E', v, q1, q2, q3⟩

end NWG

end CM
