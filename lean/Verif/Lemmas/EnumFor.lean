import Verif.Lemmas.EnumScan

/-! # The inner loop of `CliqueEnumerator::process_graph` (enumerate.cpp:132-208) -/

namespace CM

namespace Graph

/-- What an enumeration rooted at `r` may have done between `G0` and `G`: only scratch
memory and the stored clique of `r` change. -/
structure EUpd (r B : Nat) (G0 G : Graph) : Prop where
  frame : Frame G0 G
  lim : G.limit = G0.limit
  vs : G.vs = G0.vs
  cm : G.curMax = G0.curMax
  loc : G.curLoc = G0.curLoc
  out : ∀ a, a < 64 * B →
    ¬ (64 * (G0.V r).ebo ≤ a ∧ a < 64 * ((G0.V r).ebo + dlen (G0.V r).N)) →
    bitAt G.eb a = bitAt G0.eb a
  pad : PadZero G.eb (G0.vb r)
  cl : IsCl G0 r (bset G.eb (G0.vb r))

theorem EUpd.refl {r B : Nat} {G0 : Graph} (hp : PadZero G0.eb (G0.vb r))
    (hc : IsCl G0 r (bset G0.eb (G0.vb r))) : EUpd r B G0 G0 :=
  ⟨Frame.refl _, rfl, rfl, rfl, rfl, fun _ _ _ => rfl, hp, hc⟩

theorem EUpd.scratch {r B : Nat} {G0 G : Graph} (h : EUpd r B G0 G)
    (hB : (G0.V r).ebo + dlen (G0.V r).N ≤ B)
    (eb : Mem) (sc : Nat) (hl : eb.length = G.eb.length)
    (hb : ∀ a, a < 64 * B → bitAt eb a = bitAt G.eb a) :
    EUpd r B G0 { G with eb := eb, searchCur := sc } := by
  have hd := @dlen_le (G0.V r).N
  have hwin : bset eb (G0.vb r) = bset G.eb (G0.vb r) := by
    unfold bset
    apply Finset.filter_congr
    intro x hx
    simp only [Finset.mem_range, vb] at hx ⊢
    rw [hb _ (by omega)]
  refine ⟨h.frame.trans (Frame.mk' G eb sc G.curMax G.curLoc hl), h.lim, h.vs, h.cm, h.loc,
    ?_, ?_, ?_⟩
  · intro a ha hna
    show bitAt eb a = _
    rw [hb a ha]; exact h.out a ha hna
  · intro i h1 h2
    show bitAt eb _ = _
    simp only [vb] at h1 h2
    rw [hb _ (by simp only [vb]; omega)]; exact h.pad i h1 h2
  · show IsCl G0 r (bset eb _)
    rw [hwin]; exact h.cl

/-- `EUpd`, and the stored clique of `r` is the old one or one of those `P r` allows. -/
structure EUpdS (P : Nat → Finset Nat → Prop) (r B : Nat) (G0 G : Graph) : Prop
    extends EUpd r B G0 G where
  keep : bset G.eb (G0.vb r) = bset G0.eb (G0.vb r) ∨ P r (bset G.eb (G0.vb r))

/-- Any clique may be stored. -/
abbrev anyCl : Nat → Finset Nat → Prop := fun _ _ => True

/-- The cliques of the sizes `Q`. -/
abbrev sized (Q : Nat → Prop) : Nat → Finset Nat → Prop := fun _ C => Q C.card

/-- `EUpd`, and the stored clique of `r` is the old one or has one of the sizes `Q`. -/
abbrev EUpdK (Q : Nat → Prop) (r B : Nat) (G0 G : Graph) : Prop := EUpdS (sized Q) r B G0 G

theorem EUpdS.scratch {P : Nat → Finset Nat → Prop} {r B : Nat} {G0 G : Graph}
    (h : EUpdS P r B G0 G)
    (hB : (G0.V r).ebo + dlen (G0.V r).N ≤ B)
    (eb : Mem) (sc : Nat) (hl : eb.length = G.eb.length)
    (hb : ∀ a, a < 64 * B → bitAt eb a = bitAt G.eb a) :
    EUpdS P r B G0 { G with eb := eb, searchCur := sc } := by
  have hd := @dlen_le (G0.V r).N
  have hwin : bset eb (G0.vb r) = bset G.eb (G0.vb r) := by
    unfold bset
    apply Finset.filter_congr
    intro x hx
    simp only [Finset.mem_range, vb] at hx ⊢
    rw [hb _ (by omega)]
  exact ⟨h.toEUpd.scratch hB eb sc hl hb, by rw [hwin]; exact h.keep⟩

section

variable (G0 : Graph) (p : SPar) (Q : Nat → Prop)

/-- A set of positions still to be reported by the levels of the stack. -/
def PendC (m : Mem) (k : Nat) (C : Finset Nat) : List SState → Prop
  | [] => False
  | s :: rest =>
    (∃ X : Finset Nat, X ⊆ bset m s.cand ∧ (∀ a ∈ X, ∀ b ∈ X, G0.A p.r a b) ∧
      C = ((s :: rest).map SState.id).toFinset ∪ X ∧ rest.length + 1 + X.card = k) ∨
    PendC m k C rest

/-- The vertex chosen at a level is no candidate of the level below. -/
def Ordd (m : Mem) : List SState → Prop
  | [] => True
  | [_] => True
  | s :: t :: rest => s.id ∉ bset m t.cand ∧ Ordd m (t :: rest)

/-- The invariant of the enumeration inside one root. -/
structure EI (G : Graph) (states : List SState) : Prop where
  upd : EUpdK Q p.r p.B G0 G
  sc : G.searchCur = p.B + (states.length + 1) * p.req G0
  lv : Lv G0 p G.eb states
  ord : Ordd G.eb states
  res : ∀ i, i < 64 * p.req G0 → bitAt G.eb (64 * p.ro + i) = decide (i ∈ states.map SState.id)
  zero : ∀ a, 64 * G.searchCur ≤ a → bitAt G.eb a = false

end

variable {G0 : Graph} {p : SPar}

theorem PendC_congr (m m' : Mem) (k : Nat) (C : Finset Nat) : ∀ states : List SState,
    (∀ l, l < states.length → ∀ i, i < 64 * p.req G0 →
      bitAt m' (64 * candOff G0 p l + i) = bitAt m (64 * candOff G0 p l + i)) →
    Lv G0 p m states →
    (PendC G0 p m' k C states ↔ PendC G0 p m k C states) ∧ (Ordd m states → Ordd m' states) := by
  intro states
  induction states with
  | nil => intro _ _; exact ⟨Iff.rfl, id⟩
  | cons s rest ih =>
    intro h hl
    unfold Lv at hl
    obtain ⟨l1, l2, l3, l4, l5, l6, l7, l8, l9, l10, l11⟩ := hl
    obtain ⟨i1, i2⟩ := ih (fun l hl' => h l (by simp; omega)) l11
    have hb : bset m' s.cand = bset m s.cand := by
      apply bset_congr rfl
      intro i hi
      rw [l2] at hi ⊢
      simp only at hi ⊢
      exact h rest.length (by simp) i (by have := @dlen_le (G0.V p.r).N; simp only [SPar.req]; omega)
    refine ⟨?_, ?_⟩
    · unfold PendC; rw [hb, i1]
    · cases rest with
      | nil => intro _; trivial
      | cons t rest' =>
        rintro ⟨h1, h2⟩
        refine ⟨?_, i2 h2⟩
        have hb' : bset m' t.cand = bset m t.cand := by
          apply bset_congr rfl
          unfold Lv at l11
          intro i hi
          rw [l11.2.1] at hi ⊢
          simp only at hi ⊢
          exact h rest'.length (by simp only [List.length_cons]; omega) i
            (by have := @dlen_le (G0.V p.r).N; simp only [SPar.req]; omega)
        rw [hb']; exact h1

/-- What is pending below a level does not contain the vertex chosen at that level. -/
theorem PendC_notMem {m : Mem} {k : Nat} {C : Finset Nat} {s : SState} : ∀ {rest : List SState},
    Lv G0 p m (s :: rest) → Ordd m (s :: rest) → PendC G0 p m k C rest →
    ¬ (∀ t ∈ s :: rest, t.id ∈ C) := by
  intro rest
  induction rest generalizing s with
  | nil => intro _ _ h; exact absurd h (by simp [PendC])
  | cons t rest ih =>
    intro hl ho hp hall
    have hl' := hl
    unfold Lv at hl'
    obtain ⟨l1, l2, l3, l4, l5, l6, l7, l8, l9, l10, l11⟩ := hl'
    unfold PendC at hp
    rcases hp with ⟨X, x1, x2, x3, x4⟩ | hp
    · have hsC := hall s (by simp)
      rw [x3, Finset.mem_union, List.mem_toFinset] at hsC
      rcases hsC with h | h
      · exact l4 h
      · exact ho.1 (x1 h)
    · exact ih l11 ho.2 hp (fun t' ht' => hall t' (List.mem_cons_of_mem _ ht'))

theorem enumScan_congr {G : Graph} {V V' : Vtx} (hN : V.N = V'.N) (he : V.elo = V'.elo)
    (U : Vtx) (cand : GBits) (eb : Mem) (a b c d f : Nat) :
    G.enumScan V U cand eb a b c d f = G.enumScan V' U cand eb a b c d f := by
  unfold enumScan nbr; rw [hN, he]

/-- Storing the clique found (`vertices[cur].bits.copy_data(res)`). -/
theorem store_spec {r B : Nat} {G0 G : Graph} (w : WF G0) (hr : r < G0.nVert)
    (h : EUpd r B G0 G) (hB : G0.ebSize < B) {res : GBits}
    (hlen : res.len = (G0.V r).N) (hB2 : B ≤ res.off)
    (hin : res.off + dlen (G0.V r).N ≤ G.eb.length) (hpad : PadZero G.eb res)
    (hcl : IsCl G0 r (bset G.eb res)) :
    ∃ eb, (G.vbits (G0.V r) >>= fun vb => vb.copyData res.off G.eb) = .ok eb ∧
      EUpd r B G0 { G with eb := eb } ∧ eb.length = G.eb.length ∧
      (∀ a, 64 * B ≤ a → bitAt eb a = bitAt G.eb a) ∧ bset eb (G0.vb r) = bset G.eb res := by
  have wG := h.frame.wf w
  have hebo := w.eboEnd r hr
  have hN := h.frame.N r
  have hE := h.frame.ebo r
  obtain ⟨eb, c1, c2, c3⟩ := (G.vb r).copyData_spec res.off G.eb
    (by simp only [vb]; rw [hN, hE]; omega) (by simp only [vb]; rw [hN]; omega)
    (by simp only [vb]; rw [hN, hE]; omega)
  simp only [vb, hN, hE] at c3
  have hvb : G.vbits (G0.V r) = .ok (G.vb r) := by
    unfold vbits vb; rw [wG.dang, hN, hE]; rfl
  have hwin : bset eb (G0.vb r) = bset G.eb res := by
    apply bset_congr
    · simp only [vb, hlen]
    · intro i hi
      simp only [vb] at hi ⊢
      have := @dlen_le (G0.V r).N
      rw [c3, if_pos (by omega)]
      congr 1; omega
  refine ⟨eb, by rw [hvb, ok_bind, c1], ?_, c2, ?_, hwin⟩
  · refine ⟨h.frame.trans (Frame.mk' G eb G.searchCur G.curMax G.curLoc c2), h.lim, h.vs, h.cm,
      h.loc, ?_, ?_, ?_⟩
    · intro a ha hna
      show bitAt eb a = _
      rw [c3, if_neg hna]; exact h.out a ha hna
    · intro i h1 h2
      show bitAt eb _ = _
      simp only [vb] at h1 h2 ⊢
      rw [c3, if_pos (by omega)]
      have := hpad i (by rw [hlen]; exact h1) (by rw [hlen]; exact h2)
      rw [← this]; congr 1; omega
    · show IsCl G0 r (bset eb _)
      rw [hwin]; exact hcl
  · intro a ha
    rw [c3, if_neg (by omega)]

/-- One iteration of the inner loop. -/
theorem enumFor_spec (g : p.Good G0) {Q : Nat → Prop} {G : Graph} {top : SState} {rest : List SState}
    {left j k : Nat} (hQ : Q k) (I : EI G0 p Q G (top :: rest))
    (hleft : left = (bset G.eb top.cand).card) (hk : rest.length + 2 ≤ k)
    (hj0 : j ≤ (G0.V p.r).N) (hst : ∀ c ∈ bset G.eb top.cand, j ≤ c) :
    (∃ G' top' left', enumFor (G0.V p.r) (p.req G0) (rest.length + 1) k (G, top, left, j)
        = .ok (.inl (G', top', left', j + 1)) ∧ j < (G0.V p.r).N ∧ EI G0 p Q G' (top' :: rest) ∧
        left' = (bset G'.eb top'.cand).card ∧ (∀ c ∈ bset G'.eb top'.cand, j + 1 ≤ c) ∧
        left' ≤ left ∧ nodes G'.eb rest = nodes G.eb rest ∧
        ∀ C, PendC G0 p G'.eb k C (top' :: rest) ↔ PendC G0 p G.eb k C (top :: rest)) ∨
    (∃ G' top', enumFor (G0.V p.r) (p.req G0) (rest.length + 1) k (G, top, left, j)
        = .ok (.inr (.found G' top')) ∧ EI G0 p Q G' (top' :: rest) ∧
        nodes G'.eb (top' :: rest) ≤ nodes G.eb (top :: rest) ∧
        PendC G0 p G.eb k (bset G'.eb (G0.vb p.r)) (top :: rest) ∧
        ∀ C, PendC G0 p G'.eb k C (top' :: rest) ↔
          (PendC G0 p G.eb k C (top :: rest) ∧ C ≠ bset G'.eb (G0.vb p.r))) ∨
    (∃ G' top' new, enumFor (G0.V p.r) (p.req G0) (rest.length + 1) k (G, top, left, j)
        = .ok (.inr (.pushed G' top' new)) ∧ EI G0 p Q G' (new :: top' :: rest) ∧
        nodes G'.eb (new :: top' :: rest) < nodes G.eb (top :: rest) ∧ rest.length + 3 ≤ k ∧
        ∀ C, PendC G0 p G'.eb k C (new :: top' :: rest) ↔ PendC G0 p G.eb k C (top :: rest)) ∨
    (enumFor (G0.V p.r) (p.req G0) (rest.length + 1) k (G, top, left, j)
        = .ok (.inr (.done G top)) ∧ bset G.eb top.cand = ∅) := by
  have w := g.wf
  have wG := I.upd.frame.wf w
  have hrG : p.r < G.nVert := by rw [I.upd.frame.nVert]; exact g.hr
  have hlv := I.lv
  unfold Lv at hlv
  obtain ⟨l1, l2, l3, l4, l5, l6, l7, l8, l9, l10, l11⟩ := hlv
  have hN := I.upd.frame.N p.r
  have hreqd : p.req G0 = dlen (G0.V p.r).N := rfl
  have hdl := @dlen_le (G0.V p.r).N
  have hebl := I.upd.frame.ebl
  have hroom := g.room
  have hce := candOff_end g rest.length
  have hcge := candOff_ge g rest.length
  have hlen1 : (rest.length + 2) * p.req G0 ≤ (p.L + 2) * p.req G0 :=
    Nat.mul_le_mul_right _ (by omega)
  have hebo := w.eboEnd p.r g.hr
  have hBB := g.hB
  have hreq : 0 < p.req G0 := dlen_pos (N_pos w g.hr)
  have hNlt := N_lt w g.hr
  have hoff : top.cand.off = candOff G0 p rest.length := by rw [l2]
  have hclen : top.cand.len = (G0.V p.r).N := by rw [l2]
  have hroff : top.res.off = p.ro := by rw [l1]
  have hrlen : top.res.len = (G0.V p.r).N := by rw [l1]
  unfold enumFor
  simp only
  by_cases hj : j < (G0.V p.r).N
  swap
  · right; right; right
    rw [if_neg hj]
    refine ⟨rfl, ?_⟩
    rw [Finset.eq_empty_iff_forall_notMem]
    intro c hc
    have h1 := hst c hc
    have h2 := (mem_bset.1 hc).1
    rw [hclen] at h2
    omega
  rw [if_pos hj, top.cand.test_spec G.eb j (by rw [hoff]; have := div_lt_dlen hj; omega), ok_bind]
  by_cases hjC : j ∈ bset G.eb top.cand
  swap
  · have hnb : ¬ bitAt G.eb (64 * top.cand.off + j) = true := fun h =>
      hjC (mem_bset.2 ⟨by rw [hclen]; exact hj, h⟩)
    rw [if_neg hnb]
    left
    refine ⟨G, top, left, rfl, hj, I, hleft, ?_, Nat.le_refl _, rfl, fun _ => Iff.rfl⟩
    intro c hc
    have := hst c hc
    have : c ≠ j := fun h => hjC (h ▸ hc)
    omega
  rw [if_pos (mem_bset.1 hjC).2]
  obtain ⟨m1, r1, r2, r3⟩ := top.cand.reset_spec G.eb j
    (by rw [hoff]; have := div_lt_dlen hj; omega)
  rw [r1, ok_bind]
  have hpad1 : PadZero m1 top.cand := by
    intro i h1 h2; rw [r3, l8 i h1 h2]; simp
  have hC1 : bset m1 top.cand = (bset G.eb top.cand).erase j := by
    ext x
    simp only [Finset.mem_erase, mem_bset, r3]
    simp only [Bool.and_eq_true, Bool.not_eq_true', decide_eq_false_iff_not]
    constructor
    · rintro ⟨h1, h2, h3⟩; exact ⟨by omega, h1, h3⟩
    · rintro ⟨h1, h2, h3⟩; exact ⟨h2, by omega, h3⟩
  have hin1 : top.cand.off + dlen top.cand.len ≤ m1.length := by
    rw [hoff, hclen, r2]; omega
  have hnbr : ({ G with eb := m1 } : Graph).nbr (G0.V p.r) j = .ok (G0.e p.r j) := by
    unfold nbr e
    rw [show ({ G with eb := m1 } : Graph).el = G0.el from I.upd.frame.el]
    exact rd_getD _ (by have := w.inEl p.r g.hr; omega)
  rw [hnbr, ok_bind]
  have F1 : Frame G0 ({ G with eb := m1 } : Graph) :=
    I.upd.frame.trans (Frame.mk' G m1 G.searchCur G.curMax G.curLoc r2)
  have w1 := F1.wf w
  have hvert := e_lt w g.hr hj
  rw [vtx_ok w1 (by rw [F1.nVert]; exact hvert), ok_bind]
  have hcard : (bset m1 top.cand).card = left - 1 := by
    rw [hC1, Finset.card_erase_of_mem hjC, hleft]
  have hlpos : 0 < left := by rw [hleft]; exact Finset.card_pos.2 ⟨j, hjC⟩
  have hleftN : left ≤ (G0.V p.r).N := by
    rw [hleft]
    have : bset G.eb top.cand ⊆ Finset.range (G0.V p.r).N := by
      intro x hx; rw [Finset.mem_range, ← hclen]; exact (mem_bset.1 hx).1
    simpa using Finset.card_le_card this
  have hus : usub left 1 = left - 1 := usub_eq hlpos (by omega)
  rw [hus]
  have hgt1 : ∀ k ∈ bset m1 top.cand, j < k := by
    intro k hk
    rw [hC1, Finset.mem_erase] at hk
    have := hst k hk.2
    omega
  obtain ⟨rm, pot, s1, s2, s3, s4, s5, s6⟩ := enumScan_spec (G := { G with eb := m1 }) w1
    (r := p.r) (j := j) (by rw [F1.nVert]; exact g.hr) (by rw [F1.N]; exact hj)
    (cand := top.cand) (eb := m1) (left := left - 1) (cs := rest.length + 1) (required := k)
    (by rw [F1.N]; exact hclen) hin1 hgt1 hcard.symm
  rw [F1.e] at s1
  rw [enumScan_congr (V := G0.V p.r) (V' := ({ G with eb := m1 } : Graph).V p.r)
    (F1.N _).symm (F1.elo _).symm]
  rw [s1, ok_bind]
  have hAeq : ∀ x, ({ G with eb := m1 } : Graph).A p.r j x ↔ G0.A p.r j x := by
    intro x; unfold A; rw [F1.nadj, F1.e, F1.e]
  simp only [hAeq] at s3 s6
  -- the lower levels are untouched by the reset
  have hlow : ∀ l, l < rest.length → ∀ i, i < 64 * p.req G0 →
      bitAt m1 (64 * candOff G0 p l + i) = bitAt G.eb (64 * candOff G0 p l + i) := by
    intro l hl i hi
    have := candOff_lt g hl
    rw [r3, hoff]
    have : ¬ (64 * candOff G0 p l + i = 64 * candOff G0 p rest.length + j) := by omega
    simp [this]
  obtain ⟨c1, c2, c3⟩ := Lv_congr G.eb m1 rest hlow l11
  -- cliques containing j
  have hXj : ∀ X : Finset Nat, X ⊆ bset G.eb top.cand → (∀ a ∈ X, ∀ b ∈ X, G0.A p.r a b) →
      j ∈ X → X.erase j ⊆ (bset m1 top.cand).filter (fun k => G0.A p.r j k) := by
    intro X h1 h2 h3 x hx
    rw [Finset.mem_erase] at hx
    rw [Finset.mem_filter, hC1, Finset.mem_erase]
    exact ⟨⟨hx.1, h1 hx.2⟩, h2 j h3 x hx.2⟩
  have hXn : ∀ X : Finset Nat, X ⊆ bset G.eb top.cand → j ∉ X → X ⊆ bset m1 top.cand := by
    intro X h1 h2 x hx
    rw [hC1, Finset.mem_erase]
    exact ⟨fun h => h2 (h ▸ hx), h1 hx⟩
  have hXs : ∀ X : Finset Nat, X ⊆ bset m1 top.cand → X ⊆ bset G.eb top.cand ∧ j ∉ X := by
    intro X h
    rw [hC1] at h
    exact ⟨fun x hx => Finset.mem_of_mem_erase (h hx), fun hjx => by simpa using h hjx⟩
  have hrmf : rm.toFinset ⊆ (bset m1 top.cand).filter (fun k => ¬ G0.A p.r j k) := by
    intro x hx
    rw [Finset.mem_filter]
    exact s3 x (List.mem_toFinset.1 hx)
  have hadjcard : ((bset m1 top.cand).filter (fun k => G0.A p.r j k)).card
      ≤ left - 1 - rm.length := by
    have h1 := Finset.card_le_card hrmf
    rw [List.toFinset_card_of_nodup s2] at h1
    have h2 := Finset.card_filter_add_card_filter_not (s := bset m1 top.cand)
      (fun k => G0.A p.r j k)
    rw [hcard] at h2
    omega
  have hlv1 : ∀ x ∈ bset m1 top.cand, j + 1 ≤ x ∧
      x ∉ (({ top with startAt := j + 1 } : SState) :: rest).map SState.id ∧
      ∀ t ∈ ({ top with startAt := j + 1 } : SState) :: rest, G0.A p.r t.id x := by
    intro x hx
    have hx' : x ∈ bset G.eb top.cand := by
      rw [hC1] at hx; exact Finset.mem_of_mem_erase hx
    refine ⟨hgt1 x hx, (l9 x hx').2.1, ?_⟩
    intro t ht
    rcases List.mem_cons.1 ht with ht | ht
    · rw [ht]; exact (l9 x hx').2.2 top (by simp)
    · exact (l9 x hx').2.2 t (by simp [ht])
  have hroco := ro_candOff g rest.length
  by_cases hpot : pot ≥ k
  swap
  · -- pruned
    left
    rw [if_neg hpot]
    refine ⟨_, _, _, rfl, hj, ⟨?_, I.sc, ?_, ?_, ?_, ?_⟩, hcard.symm, hgt1, by omega, c3, ?_⟩
    · exact I.upd.scratch (by omega) m1 G.searchCur r2 (fun a ha => by
        rw [r3, hoff]
        have : ¬ (a = 64 * candOff G0 p rest.length + j) := by omega
        simp [this])
    · unfold Lv
      exact ⟨l1, l2, l3, l4, l5, l6, by simp only; omega, hpad1, hlv1, by rw [hcard]; omega, c1⟩
    · show Ordd m1 ({ top with startAt := j + 1 } :: rest)
      have ho := I.ord
      cases rest with
      | nil => trivial
      | cons t rest' =>
        refine ⟨?_, (PendC_congr (G0 := G0) (p := p) G.eb m1 0 ∅ (t :: rest') hlow l11).2 ho.2⟩
        have hb' : bset m1 t.cand = bset G.eb t.cand := by
          apply bset_congr rfl
          unfold Lv at l11
          intro i hi
          rw [l11.2.1] at hi ⊢
          simp only at hi ⊢
          exact hlow rest'.length (by simp) i (by omega)
        rw [hb']; exact ho.1
    · intro i hi
      show bitAt m1 _ = _
      have h1 := I.res i hi
      rw [r3, hoff]
      have : ¬ (64 * p.ro + i = 64 * candOff G0 p rest.length + j) := by omega
      simp only [this, decide_false, Bool.not_false, Bool.true_and]
      exact h1
    · intro a ha
      show bitAt m1 a = false
      rw [r3, I.zero a ha]; simp
    · intro C
      show PendC G0 p m1 k C ({ top with startAt := j + 1 } :: rest) ↔ _
      unfold PendC
      rw [(PendC_congr (G0 := G0) (p := p) G.eb m1 k C rest hlow l11).1]
      apply or_congr_left
      constructor
      · rintro ⟨X, x1, x2, x3, x4⟩
        exact ⟨X, (hXs X x1).1, x2, x3, x4⟩
      · rintro ⟨X, x1, x2, x3, x4⟩
        by_cases hjX : j ∈ X
        · exfalso
          have h1 := Finset.card_le_card (hXj X x1 x2 hjX)
          rw [Finset.card_erase_of_mem hjX] at h1
          have := Finset.card_pos.2 ⟨j, hjX⟩
          omega
        · exact ⟨X, hXn X x1 hjX, x2, x3, x4⟩
  rw [if_pos hpot]
  have hjid : j ∉ (top :: rest).map SState.id := (l9 j hjC).2.1
  obtain ⟨f1, f2, f3, f4⟩ := Lv_facts g G.eb (top :: rest) I.lv
  by_cases hfull : rest.length + 1 + 1 ≥ k
  · -- found
    right; left
    rw [if_pos hfull]
    have hkeq : k = rest.length + 2 := by omega
    obtain ⟨m2, t1, t2, t3⟩ := GBits.set_spec top.res m1 j (by
      rw [hroff]
      have := div_lt_dlen hj
      have := g.hrc
      have h3 : 2 * p.req G0 ≤ (p.L + 2) * p.req G0 := Nat.mul_le_mul_right _ (by omega)
      simp only [SPar.req] at *
      omega)
    rw [t1, ok_bind]
    rw [hroff] at t3
    have hres2 : ∀ i, i < 64 * p.req G0 → bitAt m2 (64 * p.ro + i)
        = decide (i = j ∨ i ∈ (top :: rest).map SState.id) := by
      intro i hi
      rw [t3, r3, hoff, I.res i hi]
      have : ¬ (64 * p.ro + i = 64 * candOff G0 p rest.length + j) := by omega
      simp only [this, decide_false, Bool.not_false, Bool.true_and]
      rw [← Bool.decide_or]
      apply decide_eq_decide.2
      constructor
      · rintro (h | h)
        · left; omega
        · right; exact h
      · rintro (h | h)
        · left; omega
        · right; exact h
    have hbs : bset m2 top.res = insert j ((top :: rest).map SState.id).toFinset := by
      ext x
      rw [mem_bset, Finset.mem_insert, List.mem_toFinset, hroff, hrlen]
      constructor
      · rintro ⟨h1, h2⟩
        rw [hres2 x (by omega)] at h2
        simpa using h2
      · intro h
        have hx : x < (G0.V p.r).N := by
          rcases h with h | h
          · omega
          · obtain ⟨t, ht, rfl⟩ := List.mem_map.1 h
            exact f2 t ht
        refine ⟨hx, ?_⟩
        rw [hres2 x (by omega)]
        simpa using h
    have U2 : EUpdK Q p.r p.B G0 { ({ G with eb := m1 } : Graph) with eb := m2 } :=
      I.upd.scratch (by omega) m2 G.searchCur (t2.trans r2) (fun a ha => by
        rw [t3, r3, hoff]
        have h1 : ¬ (a = 64 * candOff G0 p rest.length + j) := by omega
        have h2 : ¬ (a = 64 * p.ro + j) := by have := g.hrc; omega
        simp [h1, h2])
    obtain ⟨m3, u1, u2, u3, u5, u6⟩ := store_spec (res := top.res)
      w g.hr U2.toEUpd g.hB hrlen (by have := g.hrc; rw [hroff]; omega)
      (by
        rw [hroff]
        show _ ≤ List.length m2
        have := g.hrc
        have h3 : 2 * p.req G0 ≤ (p.L + 2) * p.req G0 := Nat.mul_le_mul_right _ (by omega)
        simp only [SPar.req] at *
        omega)
      (by
        intro i h1 h2
        show bitAt m2 _ = false
        rw [hrlen] at h1 h2
        rw [hroff, hres2 i h2]
        simp only [decide_eq_false_iff_not, not_or]
        refine ⟨by omega, fun h => ?_⟩
        obtain ⟨t, ht, rfl⟩ := List.mem_map.1 h
        have := f2 t ht; omega)
      (by
        show IsCl G0 p.r (bset m2 _)
        rw [hbs]
        refine ⟨?_, ?_, ?_⟩
        · rw [Finset.mem_insert, List.mem_toFinset]; exact Or.inr (f3 (by simp))
        · intro i hi
          rw [Finset.mem_insert, List.mem_toFinset] at hi
          rcases hi with h | h
          · omega
          · obtain ⟨t, ht, rfl⟩ := List.mem_map.1 h
            exact f2 t ht
        · intro x hx y hy
          rw [Finset.mem_insert, List.mem_toFinset] at hx hy
          have hjt := (l9 j hjC).2.2
          rcases hx with hx | hx <;> rcases hy with hy | hy
          · rw [hx, hy]; exact A_refl w g.hr hj
          · obtain ⟨t, ht, rfl⟩ := List.mem_map.1 hy
            rw [hx]; exact A_symm w g.hr (f2 t ht) (hjt t ht)
          · obtain ⟨t, ht, rfl⟩ := List.mem_map.1 hx
            rw [hy]; exact hjt t ht
          · obtain ⟨t, ht, rfl⟩ := List.mem_map.1 hx
            obtain ⟨t', ht', rfl⟩ := List.mem_map.1 hy
            exact f4 t ht t' ht')
    have hvb2 : ({ G with eb := m1 } : Graph).vbits (G0.V p.r) =
        ({ ({ G with eb := m1 } : Graph) with eb := m2 } : Graph).vbits (G0.V p.r) := rfl
    rw [hvb2]
    rw [bind_eq_ok] at u1
    obtain ⟨vbv, ub1, ub2⟩ := u1
    rw [ub1, ok_bind]
    change vbv.copyData top.res.off m2 = _ at ub2
    rw [ub2, ok_bind]
    have hm3l : m3.length = G0.eb.length := by
      rw [u3]; show m2.length = _; rw [t2, r2, hebl]
    obtain ⟨m4, v1, v2, v3⟩ := GBits.reset_spec top.res m3 j (by
      rw [hroff]
      have := div_lt_dlen hj
      have := g.hrc
      have h3 : 2 * p.req G0 ≤ (p.L + 2) * p.req G0 := Nat.mul_le_mul_right _ (by omega)
      simp only [SPar.req] at *
      omega)
    rw [v1, ok_bind]
    rw [hroff] at v3
    have hm4 : ∀ a, 64 * p.B ≤ a → bitAt m4 a =
        (!decide (a = 64 * candOff G0 p rest.length + j) && bitAt G.eb a) := by
      intro a ha
      rw [v3, u5 a ha]
      show (_ && bitAt m2 a) = _
      rw [t3, r3, hoff]
      by_cases h1 : a = 64 * p.ro + j
      · have hne : ¬ (64 * p.ro + j = 64 * candOff G0 p rest.length + j) := by
          omega
        have hz := I.res j (by omega)
        rw [decide_eq_false hjid] at hz
        rw [h1]
        simp [hz]
      · simp [h1]
    have hC4 : bset m4 top.cand = bset m1 top.cand := by
      apply bset_congr rfl
      intro i hi
      rw [hm4 _ (by rw [hoff]; omega), r3, hoff]
    have hlow4 : ∀ l, l < rest.length → ∀ i, i < 64 * p.req G0 →
        bitAt m4 (64 * candOff G0 p l + i) = bitAt G.eb (64 * candOff G0 p l + i) := by
      intro l hl i hi
      have h1 := candOff_lt g hl
      have h2 := candOff_ge g l
      rw [hm4 _ (by omega)]
      have : ¬ (64 * candOff G0 p l + i = 64 * candOff G0 p rest.length + j) := by omega
      simp [this]
    have U4 : EUpdK Q p.r p.B G0 { ({ G with eb := m1 } : Graph) with eb := m4 } :=
      EUpdS.scratch (P := sized Q) ⟨u2, Or.inr (by
        rw [u6]
        show Q (bset m2 _).card
        have hcd : (bset m2 top.res).card = k := by
          rw [hbs, Finset.card_insert_of_notMem (by rw [List.mem_toFinset]; exact hjid),
            List.toFinset_card_of_nodup f1, List.length_map, List.length_cons]
          omega
        rw [hcd]; exact hQ)⟩ (by omega) m4 G.searchCur v2 (fun a ha => by
        rw [v3]
        have h2 : ¬ (a = 64 * p.ro + j) := by have := g.hrc; omega
        simp [h2])
    have hfin : bset m4 (G0.vb p.r) = insert j ((top :: rest).map SState.id).toFinset := by
      rw [← hbs]
      rw [show bset m4 (G0.vb p.r) = bset m3 (G0.vb p.r) from ?_]
      · exact u6
      · apply bset_congr rfl
        intro i hi
        simp only [vb] at hi ⊢
        rw [v3]
        have h2 : ¬ (64 * (G0.V p.r).ebo + i = 64 * p.ro + j) := by have := g.hrc; omega
        simp [h2]
    have hOrd : Ordd G.eb (top :: rest) := I.ord
    refine ⟨_, _, rfl, ⟨U4, I.sc, ?_, ?_, ?_, ?_⟩, ?_, ?_, ?_⟩
    · show Lv G0 p m4 _
      unfold Lv
      refine ⟨l1, l2, l3, l4, l5, l6, by simp only; omega, ?_, ?_, ?_,
        (Lv_congr G.eb m4 rest hlow4 l11).1⟩
      · intro i h1 h2
        have := hpad1 i h1 h2
        rw [r3] at this
        rw [hm4 _ (by rw [hoff]; omega), ← hoff]; exact this
      · show ∀ c ∈ bset m4 top.cand, _
        rw [hC4]; exact hlv1
      · show _ + (bset m4 top.cand).card ≤ _
        rw [hC4, hcard]; omega
    · show Ordd m4 ({ top with startAt := j + 1 } :: rest)
      cases rest with
      | nil => trivial
      | cons t rest' =>
        refine ⟨?_, (PendC_congr (G0 := G0) (p := p) G.eb m4 0 ∅ (t :: rest') hlow4 l11).2 hOrd.2⟩
        have hb' : bset m4 t.cand = bset G.eb t.cand := by
          apply bset_congr rfl
          unfold Lv at l11
          intro i hi
          rw [l11.2.1] at hi ⊢
          simp only at hi ⊢
          exact hlow4 rest'.length (by simp) i (by omega)
        rw [hb']; exact hOrd.1
    · intro i hi
      show bitAt m4 _ = _
      rw [hm4 _ (by have := g.hrc; omega), I.res i hi]
      have : ¬ (64 * p.ro + i = 64 * candOff G0 p rest.length + j) := by omega
      simp [this]
    · intro a ha
      show bitAt m4 a = false
      have ha' : 64 * G.searchCur ≤ a := ha
      rw [hm4 a (by rw [I.sc] at ha'; omega), I.zero a ha']; simp
    · show nodes m4 ({ top with startAt := j + 1 } :: rest) ≤ _
      simp only [nodes]
      rw [(Lv_congr G.eb m4 rest hlow4 l11).2.2, hC4, hcard, ← hleft]
      have e1 : 2 ^ (left - 1 + 1) ≤ 2 ^ (left + 1) :=
        Nat.pow_le_pow_right (by decide) (by omega)
      omega
    · show PendC G0 p G.eb k (bset m4 _) _
      rw [hfin]
      unfold PendC
      left
      refine ⟨{j}, by simpa using hjC, ?_, ?_, by simp; omega⟩
      · intro a ha b hb
        rw [Finset.mem_singleton] at ha hb
        rw [ha, hb]; exact A_refl w g.hr hj
      · rw [Finset.union_comm]; rfl
    · intro C
      show PendC G0 p m4 k C ({ top with startAt := j + 1 } :: rest) ↔ (_ ∧ C ≠ bset m4 _)
      rw [hfin]
      rw [PendC, PendC]
      rw [(PendC_congr (G0 := G0) (p := p) G.eb m4 k C rest hlow4 l11).1]
      have hnotlow : PendC G0 p G.eb k C rest →
          C ≠ insert j ((top :: rest).map SState.id).toFinset := by
        intro hp hC
        refine PendC_notMem I.lv hOrd hp ?_
        intro t ht
        rw [hC, Finset.mem_insert, List.mem_toFinset]
        exact Or.inr (List.mem_map.2 ⟨t, ht, rfl⟩)
      constructor
      · rintro (⟨X, x1, x2, x3, x4⟩ | hp)
        · have x1' : X ⊆ bset m4 top.cand := x1
          rw [hC4] at x1'
          obtain ⟨y1, y2⟩ := hXs X x1'
          refine ⟨Or.inl ⟨X, y1, x2, x3, x4⟩, ?_⟩
          intro hC
          have : j ∈ C := by rw [hC]; simp
          rw [x3, Finset.mem_union, List.mem_toFinset] at this
          rcases this with h | h
          · exact hjid h
          · exact y2 h
        · exact ⟨Or.inr hp, hnotlow hp⟩
      · rintro ⟨⟨X, x1, x2, x3, x4⟩ | hp, hne⟩
        · left
          refine ⟨X, ?_, x2, x3, x4⟩
          show X ⊆ bset m4 top.cand
          rw [hC4]
          apply hXn X x1
          intro hjX
          apply hne
          have hX1 : X.card = 1 := by omega
          obtain ⟨a, rfl⟩ := Finset.card_eq_one.1 hX1
          rw [Finset.mem_singleton] at hjX
          rw [x3, ← hjX, Finset.union_comm]; rfl
        · exact Or.inr hp
  · -- push
    right; right; left
    rw [if_neg hfull]
    have hsc := I.sc
    simp only [List.length_cons] at hsc
    have hL : rest.length + 1 + left ≤ p.L := by rw [hleft]; exact l10
    have hlen3 : (rest.length + 3) * p.req G0 ≤ (p.L + 2) * p.req G0 :=
      Nat.mul_le_mul_right _ (by omega)
    have hx3 : (rest.length + 3) * p.req G0 = (rest.length + 2) * p.req G0 + p.req G0 := by
      rw [show rest.length + 3 = (rest.length + 2) + 1 from rfl, Nat.succ_mul]
    have hebb := w.eblen
    have hsc2 : (rest.length + 1 + 1) * p.req G0 = (rest.length + 2) * p.req G0 := rfl
    rw [hsc2] at hsc
    rw [loadMemory_eq (G := { G with eb := m1 }) (p.req G0)
      (by show G.searchCur + _ < _; omega)]
    simp only
    have hnewoff : G.searchCur = candOff G0 p (rest.length + 1) := by
      rw [hsc]; unfold candOff; rw [if_neg (by omega)]
    have hclt := candOff_lt g (Nat.lt_succ_self rest.length)
    simp only [Nat.succ_eq_add_one] at hclt
    have hroN := ro_candOff g (rest.length + 1)
    have hlenm1 : m1.length = G0.eb.length := r2.trans hebl
    obtain ⟨m2, t1, t2, t3⟩ := GBits.copyData_spec ⟨G.searchCur, top.cand.len⟩ top.cand.off m1
      (by simp only; rw [hclen]; simp only [SPar.req] at *; omega)
      (by simp only; exact hin1)
      (by simp only; rw [hoff, hclen, hnewoff]; simp only [SPar.req] at *; omega)
    have hcf : GBits.copyFrom top.cand G.searchCur m1 =
        .ok (⟨candOff G0 p (rest.length + 1), (G0.V p.r).N⟩, m2) := by
      unfold GBits.copyFrom
      simp only
      rw [t1, ok_bind, hclen, hnewoff]
    rw [hcf, ok_bind]
    simp only
    obtain ⟨m3, v1, v2, v3⟩ := GBits.set_spec top.res m2 j (by
      rw [hroff]
      have := div_lt_dlen hj
      have := g.hrc
      have h3 : 2 * p.req G0 ≤ (p.L + 2) * p.req G0 := Nat.mul_le_mul_right _ (by omega)
      simp only [SPar.req] at *
      omega)
    rw [v1, ok_bind]
    obtain ⟨m4, y1, y2, y3⟩ := resets_spec ⟨candOff G0 p (rest.length + 1), (G0.V p.r).N⟩ rm m3 (by
      intro k hk
      have h1 := (mem_bset.1 (s3 k hk).1).1
      rw [hclen] at h1
      have := div_lt_dlen h1
      simp only [SPar.req] at *
      omega)
    rw [y1, ok_bind]
    simp only [hclen, hnewoff, hroff] at t3 v3 y3
    have hronc : p.ro + p.req G0 ≤ candOff G0 p (rest.length + 1) := by
      have := g.hrc
      have h3 : 2 * p.req G0 ≤ (rest.length + 2) * p.req G0 := Nat.mul_le_mul_right _ (by omega)
      rw [← hnewoff, hsc]; omega
    generalize hnc : candOff G0 p (rest.length + 1) = nc at *
    generalize htc : candOff G0 p rest.length = tc at *
    have hl4 : m4.length = G.eb.length := by rw [y2, v2, t2, r2]
    -- bits of m4
    have hb4 : ∀ a, a < 64 * nc → bitAt m4 a =
        (decide (a = 64 * p.ro + j) || (!decide (a = 64 * tc + j) && bitAt G.eb a)) := by
      intro a ha
      have h1 : ¬ (64 * nc ≤ a ∧ a - 64 * nc ∈ rm) := by omega
      have h2 : ¬ (64 * nc ≤ a ∧ a < 64 * (nc + dlen (G0.V p.r).N)) := by omega
      rw [y3, v3, t3, if_neg h2, r3, hoff]
      simp [h1]
    have hb4n : ∀ i, i < 64 * p.req G0 → bitAt m4 (64 * nc + i) =
        (!decide (i ∈ rm) && bitAt m1 (64 * tc + i)) := by
      intro i hi
      simp only [SPar.req] at *
      have h1 : (64 * nc ≤ 64 * nc + i ∧ 64 * nc + i < 64 * (nc + dlen (G0.V p.r).N)) := by
        omega
      have h2 : ¬ (64 * nc + i = 64 * p.ro + j) := by omega
      have h3 : 64 * nc + i - 64 * nc = i := by omega
      rw [y3, v3, t3, if_pos h1, hoff, h3]
      have h4 : (64 * nc ≤ 64 * nc + i) := by omega
      simp only [h2, h4, decide_false, Bool.false_or, true_and]
      rw [Nat.add_comm i]
    have hb4z : ∀ a, 64 * (nc + p.req G0) ≤ a → bitAt m4 a = false := by
      intro a ha
      simp only [SPar.req] at *
      have h2 : ¬ (64 * nc ≤ a ∧ a < 64 * (nc + dlen (G0.V p.r).N)) := by omega
      have h4 : ¬ (a = 64 * p.ro + j) := by omega
      rw [y3, v3, t3, if_neg h2, r3, I.zero a (by omega)]
      simp [h4]
    have hCn : bset m4 ⟨nc, (G0.V p.r).N⟩ = (bset m1 top.cand).filter (fun k => G0.A p.r j k) := by
      ext x
      rw [mem_bset, Finset.mem_filter, mem_bset, hoff, hclen]
      simp only
      constructor
      · rintro ⟨h1, h2⟩
        rw [hb4n x (by omega)] at h2
        simp only [Bool.and_eq_true, Bool.not_eq_true', decide_eq_false_iff_not] at h2
        refine ⟨⟨h1, h2.2⟩, ?_⟩
        by_contra hA
        refine h2.1 (s6 hpot x ?_ hA)
        rw [mem_bset, hoff, hclen]; exact ⟨h1, h2.2⟩
      · rintro ⟨⟨h1, h2⟩, h3⟩
        refine ⟨h1, ?_⟩
        rw [hb4n x (by omega), h2]
        have : x ∉ rm := fun h => (s3 x h).2 h3
        simp [this]
    have hC4 : bset m4 top.cand = bset m1 top.cand := by
      apply bset_congr rfl
      intro i hi
      rw [hclen] at hi
      rw [hoff, hb4 _ (by omega), r3, hoff]
      have : ¬ (64 * tc + i = 64 * p.ro + j) := by omega
      simp [this]
    have hlow4 : ∀ l, l < rest.length → ∀ i, i < 64 * p.req G0 →
        bitAt m4 (64 * candOff G0 p l + i) = bitAt G.eb (64 * candOff G0 p l + i) := by
      intro l hl i hi
      have h1 := candOff_lt g hl
      have h3 := ro_candOff g l
      rw [hb4 _ (by omega)]
      have h4 : ¬ (64 * candOff G0 p l + i = 64 * tc + j) := by omega
      have h5 : ¬ (64 * candOff G0 p l + i = 64 * p.ro + j) := by omega
      simp [h4, h5]
    obtain ⟨d1, d2, d3⟩ := Lv_congr G.eb m4 rest hlow4 l11
    have hnewcard : (bset m4 ⟨nc, (G0.V p.r).N⟩).card ≤ left - 1 := by
      rw [hCn, ← hcard]; exact Finset.card_filter_le _ _
    have hjt := (l9 j hjC).2.2
    have hjt' : ∀ t ∈ ({ top with startAt := j + 1 } : SState) :: rest, G0.A p.r t.id j := by
      intro t ht
      rcases List.mem_cons.1 ht with ht | ht
      · rw [ht]; exact hjt top (by simp)
      · exact hjt t (by simp [ht])
    have hLvtop : Lv G0 p m4 ({ top with startAt := j + 1 } :: rest) := by
      unfold Lv
      refine ⟨l1, by rw [htc]; exact l2, l3, l4, l5, l6, by simp only; omega, ?_, ?_, ?_, d1⟩
      · intro i h1 h2
        have := hpad1 i h1 h2
        simp only at h1 h2 ⊢
        rw [hclen] at h2
        rw [hoff] at this ⊢
        rw [hb4 _ (by omega)]
        rw [r3, hoff] at this
        have h5 : ¬ (64 * tc + i = 64 * p.ro + j) := by omega
        simpa [h5] using this
      · show ∀ c ∈ bset m4 top.cand, _
        rw [hC4]; exact hlv1
      · show _ + (bset m4 top.cand).card ≤ _
        rw [hC4, hcard]; omega
    refine ⟨_, _, _, rfl, ⟨?_, ?_, ?_, ?_, ?_, ?_⟩, ?_, by omega, ?_⟩
    · exact I.upd.scratch (by omega) m4 _ hl4 (fun a ha => by
        rw [hb4 a (by omega)]
        have h4 : ¬ (a = 64 * tc + j) := by omega
        have h5 : ¬ (a = 64 * p.ro + j) := by have := g.hrc; omega
        simp [h4, h5])
    · simp only [List.length_cons]
      rw [show rest.length + 1 + 1 + 1 = rest.length + 3 from rfl]
      omega
    · show Lv G0 p m4 (_ :: { top with startAt := j + 1 } :: rest)
      rw [Lv]
      refine ⟨l1, ?_, hj, hjid, hjt', by simp, by simp only; omega, ?_, ?_, ?_, hLvtop⟩
      · simp only [List.length_cons]; rw [hnc]
      · intro i h1 h2
        simp only at h1 h2 ⊢
        rw [hb4n i h2]
        have := hpad1 i (by rw [hclen]; exact h1) (by rw [hclen]; exact h2)
        rw [hoff] at this
        rw [this]; simp
      · show ∀ c ∈ bset m4 ⟨nc, (G0.V p.r).N⟩, _
        rw [hCn]
        intro c hc
        rw [Finset.mem_filter] at hc
        have h1 := hgt1 c hc.1
        have h2 := hlv1 c hc.1
        refine ⟨by simp only; omega, ?_, ?_⟩
        · simp only [List.map_cons, List.mem_cons, not_or]
          have h3 := h2.2.1
          simp only [List.map_cons, List.mem_cons, not_or] at h3
          exact ⟨by omega, h3⟩
        · intro t ht
          rcases List.mem_cons.1 ht with rfl | ht
          · exact hc.2
          · rcases List.mem_cons.1 ht with rfl | ht
            · exact h2.2.2 { top with startAt := j + 1 } (by simp)
            · exact h2.2.2 t (by simp [ht])
      · simp only [List.length_cons]
        omega
    · show Ordd m4 (_ :: { top with startAt := j + 1 } :: rest)
      have ho := I.ord
      refine ⟨?_, ?_⟩
      · show j ∉ bset m4 top.cand
        rw [hC4, hC1]; simp
      · cases rest with
        | nil => trivial
        | cons t rest' =>
          refine ⟨?_, (PendC_congr (G0 := G0) (p := p) G.eb m4 0 ∅ (t :: rest') hlow4 l11).2 ho.2⟩
          have hb' : bset m4 t.cand = bset G.eb t.cand := by
            apply bset_congr rfl
            unfold Lv at l11
            intro i hi
            rw [l11.2.1] at hi ⊢
            simp only at hi ⊢
            exact hlow4 rest'.length (by simp) i (by omega)
          rw [hb']; exact ho.1
    · intro i hi
      show bitAt m4 _ = _
      rw [hb4 _ (by have := g.hrc; omega), I.res i hi]
      have h4 : ¬ (64 * p.ro + i = 64 * tc + j) := by omega
      simp only [h4, decide_false, Bool.not_false, Bool.true_and]
      rw [← Bool.decide_or]
      apply decide_eq_decide.2
      simp only [List.map_cons, List.mem_cons]
      constructor
      · rintro (h | h)
        · left; omega
        · right; exact h
      · rintro (h | h)
        · left; omega
        · right; exact h
    · intro a ha
      show bitAt m4 a = false
      exact hb4z a (by simp only at ha; omega)
    · show nodes m4 (_ :: { top with startAt := j + 1 } :: rest) < _
      simp only [nodes]
      rw [d3, hC4, hcard, ← hleft]
      have e1 : 2 ^ ((bset m4 ⟨nc, (G0.V p.r).N⟩).card + 1) ≤ 2 ^ (left - 1 + 1) :=
        Nat.pow_le_pow_right (by decide) (by omega)
      have e2 : left - 1 + 1 = left := by omega
      rw [e2] at e1 ⊢
      have e3 : 2 ^ (left + 1) = 2 ^ left + 2 ^ left := by rw [Nat.pow_succ]; omega
      have e4 : 0 < 2 ^ left := Nat.pos_of_ne_zero (by simp)
      have e5 : 0 < 2 ^ ((bset m4 ⟨nc, (G0.V p.r).N⟩).card + 1) := Nat.pos_of_ne_zero (by simp)
      clear * - e1 e3 e4 e5
      omega
    · intro C
      show PendC G0 p m4 k C (_ :: { top with startAt := j + 1 } :: rest) ↔ _
      rw [PendC, PendC, PendC]
      rw [(PendC_congr (G0 := G0) (p := p) G.eb m4 k C rest hlow4 l11).1]
      simp only [List.length_cons, List.map_cons]
      rw [hC4, hCn]
      constructor
      · rintro (⟨X, x1, x2, x3, x4⟩ | ⟨X, x1, x2, x3, x4⟩ | hp)
        · left
          have hjX : j ∉ X := fun h => by
            have := hgt1 j (Finset.mem_filter.1 (x1 h)).1; omega
          refine ⟨insert j X, ?_, ?_, ?_, ?_⟩
          · intro x hx
            rcases Finset.mem_insert.1 hx with rfl | hx
            · exact hjC
            · have := (Finset.mem_filter.1 (x1 hx)).1
              rw [hC1] at this
              exact Finset.mem_of_mem_erase this
          · intro a ha b hb
            rcases Finset.mem_insert.1 ha with ha | ha <;> rcases Finset.mem_insert.1 hb with hb | hb
            · rw [ha, hb]; exact A_refl w g.hr hj
            · rw [ha]; exact (Finset.mem_filter.1 (x1 hb)).2
            · rw [hb]
              exact A_symm w g.hr hj (Finset.mem_filter.1 (x1 ha)).2
            · exact x2 a ha b hb
          · rw [x3]
            ext x
            simp only [Finset.mem_union, List.mem_toFinset, List.mem_cons, Finset.mem_insert]
            constructor
            · rintro ((h | h) | h)
              · exact Or.inr (Or.inl h)
              · exact Or.inl h
              · exact Or.inr (Or.inr h)
            · rintro (h | h | h)
              · exact Or.inl (Or.inr h)
              · exact Or.inl (Or.inl h)
              · exact Or.inr h
          · rw [Finset.card_insert_of_notMem hjX]; omega
        · left
          exact ⟨X, (hXs X x1).1, x2, x3, x4⟩
        · exact Or.inr hp
      · rintro (⟨X, x1, x2, x3, x4⟩ | hp)
        · by_cases hjX : j ∈ X
          · left
            refine ⟨X.erase j, hXj X x1 x2 hjX, ?_, ?_, ?_⟩
            · intro a ha b hb
              exact x2 a (Finset.mem_of_mem_erase ha) b (Finset.mem_of_mem_erase hb)
            · rw [x3]
              ext x
              simp only [Finset.mem_union, List.mem_toFinset, List.mem_cons, Finset.mem_erase]
              constructor
              · rintro (h | h)
                · exact Or.inl (Or.inr h)
                · by_cases hxj : x = j
                  · exact Or.inl (Or.inl hxj)
                  · exact Or.inr ⟨hxj, h⟩
              · rintro ((h | h) | h)
                · rw [h]; exact Or.inr hjX
                · exact Or.inl h
                · exact Or.inr h.2
            · rw [Finset.card_erase_of_mem hjX]
              have := Finset.card_pos.2 ⟨j, hjX⟩
              omega
          · exact Or.inr (Or.inl ⟨X, hXn X x1 hjX, x2, x3, x4⟩)
        · exact Or.inr (Or.inr hp)

end Graph

end CM
