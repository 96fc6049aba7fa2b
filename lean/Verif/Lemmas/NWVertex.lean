import Verif.Lemmas.NWStack

/-! # `NWStackDFS::process_vertex`, `NWStackDFS::process_graph` (nw_dfs.cpp:7-193) -/

namespace CM

open Graph

namespace NWG

open ExactNum

set_option linter.unusedSectionVars false

variable {R : Type} [Zero R] [Add R] [Sub R] [NatCast R] [LT R] [LE R] [DecidableLT R]
  [DecidableLE R] [ExactNum R] {H0 : NWG R} {p : SPar}

/-- The invariant of the `while` loop of `NWStackDFS::process_vertex`; `Q` says which
clique weights were pending at the start. -/
def WInv (H0 : NWG R) (p : SPar) (Q : Rat → Prop) (s : NWG R × List (WState R) × R) : Prop :=
  SInv H0 p s.1 s.2.1 ∧ (s.2.1 ≠ [] → s.2.2 = fin (lw H0 p s.2.1)) ∧
    ((∀ v, 0 ≤ val (H0.w v)) → ∀ T, Q T → T ≤ s.1.cm ∨ Pend H0 p s.1.g.eb T s.2.1)

theorem stackBody_spec (X : XN H0) (W : WGood H0 p) {ws : List R} (hws : Wts H0 p ws) {Q : Rat → Prop}
    {s : NWG R × List (WState R) × R} (I : WInv H0 p Q s) :
    (∃ s', stackBody p.r (H0.g.V p.r) (p.req H0.g) ws s = .ok (.inl s') ∧ WInv H0 p Q s' ∧
      nodes s'.1.g.eb s'.2.1 < nodes s.1.g.eb s.2.1) ∨
    (∃ q, stackBody p.r (H0.g.V p.r) (p.req H0.g) ws s = .ok (.inr q) ∧ SInv H0 p q.1 q.2 ∧
      (q.2 = [] ∨ q.1.lm ≤ q.1.cm) ∧
      ((∀ v, 0 ≤ val (H0.w v)) → ∀ T, Q T → T ≤ q.1.cm ∨ Pend H0 p q.1.g.eb T q.2)) := by
  obtain ⟨H, states, cw⟩ := s
  obtain ⟨I, hcw, hQ⟩ := I
  simp only at I hcw hQ
  unfold stackBody
  simp only
  cases states with
  | nil => exact Or.inr ⟨_, rfl, I, Or.inl rfl, hQ⟩
  | cons top rest =>
    simp only
    have XH : XN H := I.upd.xn X
    by_cases hlim : H.curMax ≥ H.limit
    · rw [if_pos hlim]
      exact Or.inr ⟨_, rfl, I, Or.inr ((XH.lim.le XH.cm).1 hlim), hQ⟩
    left
    rw [if_neg hlim]
    have g := W.g
    have w := g.wf
    have hNpos := N_pos w g.hr
    have hlv := I.lv
    have hlenL := Lv_len W I.lv
    simp only [List.length_cons] at hlenL
    unfold Lv at hlv
    obtain ⟨l1, l2, l3, l4, l5, l6, l7, l8, l9, l10, l11⟩ := hlv
    have hreqd : p.req H0.g = dlen (H0.g.V p.r).N := rfl
    have hoff : top.cand.off = candOff H0.g p rest.length := by rw [l2]
    have hclen : top.cand.len = (H0.g.V p.r).N := by rw [l2]
    have hroff : top.res.off = p.ro := by rw [l1]
    have hce := candOff_end g rest.length
    have hlen1 : (rest.length + 2) * p.req H0.g ≤ (p.L + 2) * p.req H0.g :=
      Nat.mul_le_mul_right _ (by omega)
    have hroom := g.room
    have hebl := I.upd.frame.frame.ebl
    have hin : top.cand.off + dlen top.cand.len ≤ H.g.eb.length := by
      rw [hoff, hclen]; omega
    rw [top.cand.count_pad H.g.eb (by omega) hin l8, ok_bind]
    simp only
    obtain ⟨sa, n1, n2, n3, n4, n5⟩ := top.cand.next_spec H.g.eb top.startAt hin l8
      (by rw [hclen]; exact l7)
    rw [n1, ok_bind]
    rw [hclen] at n3 n4
    have I1 : SInv H0 p H ({ top with startAt := sa } :: rest) := by
      refine ⟨I.upd, I.mono, I.sc, ?_, I.res, I.zero⟩
      unfold Lv
      refine ⟨l1, l2, l3, l4, l5, l6, n3, l8, ?_, l10, l11⟩
      intro c hc
      have h := l9 c hc
      refine ⟨n5 c hc h.1, h.2.1, h.2.2.1, ?_⟩
      intro t ht
      rcases List.mem_cons.1 ht with ht | ht
      · rw [ht]; exact h.2.2.2 top (by simp)
      · exact h.2.2.2 t (by simp [ht])
    have hcw' : cw = fin (lw H0 p (top :: rest)) := hcw (by simp)
    have hcardN : (bset H.g.eb top.cand).card ≤ (H0.g.V p.r).N := by
      have : bset H.g.eb top.cand ⊆ Finset.range (H0.g.V p.r).N := by
        intro x hx; rw [Finset.mem_range, ← hclen]; exact (mem_bset.1 hx).1
      simpa using Finset.card_le_card this
    obtain ⟨q, hq1, hq2⟩ := loop_rule
      (body := stackFor p.r (H0.g.V p.r) (p.req H0.g) ws cw)
      (fun (s : NWG R × WState R) => SInv H0 p s.1 (s.2 :: rest) ∧ s.2.id = top.id ∧
        (s.2.startAt < (H0.g.V p.r).N → s.2.startAt ∈ bset s.1.g.eb s.2.cand) ∧
        nodes s.1.g.eb (s.2 :: rest) ≤ nodes H.g.eb (top :: rest) ∧
        ((∀ v, 0 ≤ val (H0.w v)) → ∀ T, Q T → T ≤ s.1.cm ∨ Pend H0 p s.1.g.eb T (s.2 :: rest)))
      (fun (q : ForExit R) => match q with
        | .pushed H' top' new cw' => SInv H0 p H' (new :: top' :: rest) ∧
            cw' = fin (lw H0 p (new :: top' :: rest)) ∧
            nodes H'.g.eb (new :: top' :: rest) < nodes H.g.eb (top :: rest) ∧
            ((∀ v, 0 ≤ val (H0.w v)) → ∀ T, Q T →
              T ≤ H'.cm ∨ Pend H0 p H'.g.eb T (new :: top' :: rest))
        | .done H' top' j => j = (H0.g.V p.r).N ∧ SInv H0 p H' (top' :: rest) ∧
            top'.id = top.id ∧
            bset H'.g.eb top'.cand = ∅ ∧
            nodes H'.g.eb (top' :: rest) ≤ nodes H.g.eb (top :: rest) ∧
            ((∀ v, 0 ≤ val (H0.w v)) → ∀ T, Q T →
              T ≤ H'.cm ∨ Pend H0 p H'.g.eb T (top' :: rest)))
      (fun s => (bset s.1.g.eb s.2.cand).card)
      (by
        rintro ⟨H1, top1⟩ ⟨a1, a2, a3, a4, a5⟩
        simp only at a1 a2 a3 a4 a5
        rcases stackFor_spec X W (cw := cw) hws a1 (by rw [hcw', lw_cons, lw_cons, a2]) a3 with
          ⟨H', top', b1, b2, b3, b4, b5, b6, b7, b8⟩ |
          ⟨H', top', new, cw', b1, b2, b3, b4, b5, b6⟩ | ⟨b1, b2⟩
        · left
          refine ⟨_, b1, ⟨b2, b3.trans a2, b4, ?_, ?_⟩, b5⟩
          · simp only [nodes] at a4 ⊢
            rw [b6]
            have : 2 ^ ((bset H'.g.eb top'.cand).card + 1) ≤
              2 ^ ((bset H1.g.eb top1.cand).card + 1) :=
                Nat.pow_le_pow_right (by decide) (by omega)
            omega
          · intro hnn T hT
            simp only
            rcases a5 hnn T hT with h | h
            · left; exact le_trans h b7
            · exact b8 hnn T h
        · right
          refine ⟨_, b1, b2, b3, by omega, ?_⟩
          intro hnn T hT
          rcases a5 hnn T hT with h | h
          · left; rw [b5]; exact h
          · exact b6 hnn T h
        · right
          exact ⟨_, b1, rfl, a1, a2, b2, a4, a5⟩)
      (s := ({ H with g := { H.g with eb := H.g.eb } }, { top with startAt := sa }))
      (fuel := (H0.g.V p.r).N + 2)
      (by
        refine ⟨I1, rfl, n4, by simp [nodes], ?_⟩
        intro hnn T hT
        rcases hQ hnn T hT with h | h
        · exact Or.inl h
        · right
          simp only [Pend, lw_cons] at h ⊢
          exact h)
      (by simp only; omega)
    rw [hq1, ok_bind]
    cases q with
    | pushed H' top' new cw' =>
      obtain ⟨c1, c2, c3, c4⟩ := hq2
      exact ⟨_, rfl, ⟨c1, fun _ => c2, c4⟩, c3⟩
    | done H' top' j =>
      obtain ⟨c1, I2, cid, c3, c4, c5⟩ := hq2
      simp only
      rw [if_pos c1]
      clear l1 l2 l3 l4 l5 l6 l7 l8 l9 l10 l11 hlen1 hin hoff hclen hroff
      have hlv := I2.lv
      unfold Lv at hlv
      obtain ⟨l1, l2, l3, l4, l5, l6, l7, l8, l9, l10, l11⟩ := hlv
      have hroff : top'.res.off = p.ro := by rw [l1]
      have hebl := I2.upd.frame.frame.ebl
      have hlen1 : (rest.length + 2) * p.req H0.g ≤ (p.L + 2) * p.req H0.g :=
        Nat.mul_le_mul_right _ (by omega)
      have hlen2 : (rest.length + 2) * p.req H0.g = (rest.length + 1) * p.req H0.g + p.req H0.g :=
        Nat.succ_mul _ _
      have hlen3 : 1 * p.req H0.g ≤ (rest.length + 1) * p.req H0.g :=
        Nat.mul_le_mul_right _ (by omega)
      have hsc : H'.g.searchCur = p.B + (rest.length + 2) * p.req H0.g := I2.sc
      have hebb := w.eblen
      obtain ⟨m1, d1, d2, d3⟩ := clearMemory_spec (G := H'.g) (p.req H0.g) (by omega) (by omega)
        (by omega)
      rw [d1, ok_bind]
      simp only
      have hrc := g.hrc
      have hid := div_lt_dlen l3
      obtain ⟨m2, e1, e2, e3⟩ := top'.res.reset_spec m1 top'.id (by rw [hroff]; omega)
      rw [e1, ok_bind]
      rw [hroff] at e3
      have hwl := hws.len
      rw [rd_getD (0 : R) (show top'.id < ws.length by omega), ok_bind]
      have hsc' : H'.g.searchCur - p.req H0.g = p.B + (rest.length + 1) * p.req H0.g := by omega
      rw [hsc'] at d3
      have hbit : ∀ a, bitAt m2 a = (!decide (a = 64 * p.ro + top'.id) &&
          (if 64 * (p.B + (rest.length + 1) * p.req H0.g) ≤ a then false
            else bitAt H'.g.eb a)) := by
        intro a
        rw [e3, d3]
        by_cases h1 : 64 * (p.B + (rest.length + 1) * p.req H0.g) ≤ a
        · rw [if_pos h1]
          by_cases h2 : a < 64 * H'.g.searchCur
          · rw [if_pos ⟨h1, h2⟩]
          · rw [if_neg (by omega), I2.zero a (by omega)]
        · rw [if_neg h1, if_neg (by omega)]
      have hlow : ∀ l, l < rest.length → ∀ i, i < 64 * p.req H0.g →
          bitAt m2 (64 * candOff H0.g p l + i) = bitAt H'.g.eb (64 * candOff H0.g p l + i) := by
        intro l hl i hi
        have h1 := candOff_end g l
        have h2 : (l + 2) * p.req H0.g ≤ (rest.length + 1) * p.req H0.g :=
          Nat.mul_le_mul_right _ (by omega)
        have h3 := ro_candOff g l
        have hdl := @dlen_le (H0.g.V p.r).N
        rw [hbit, if_neg (by omega)]
        have : ¬ (64 * candOff H0.g p l + i = 64 * p.ro + top'.id) := by omega
        simp [this]
      obtain ⟨f1, f2, f3⟩ := Lv_congr H'.g.eb m2 rest hlow l11
      have hdl := @dlen_le (H0.g.V p.r).N
      have hebo := w.eboEnd p.r g.hr
      have hBB := g.hB
      refine ⟨_, rfl, ⟨⟨?_, I2.mono, ?_, f1, ?_, ?_⟩, ?_, ?_⟩, ?_⟩
      · exact I2.upd.scratch (by omega) m2 _ (e2.trans d2) (fun a ha => by
          rw [hbit, if_neg (by omega)]
          have : ¬ (a = 64 * p.ro + top'.id) := by omega
          simp [this])
      · simp only; exact hsc'
      · intro i hi
        simp only
        rw [hbit]
        by_cases h1 : 64 * (p.B + (rest.length + 1) * p.req H0.g) ≤ 64 * p.ro + i
        · rw [if_pos h1, Bool.and_false]
          have h0 : rest = [] := by
            by_contra hne
            have : 1 ≤ rest.length := by
              cases rest with
              | nil => exact absurd rfl hne
              | cons _ _ => simp
            have : 2 * p.req H0.g ≤ (rest.length + 1) * p.req H0.g :=
              Nat.mul_le_mul_right _ (by omega)
            omega
          rw [h0]; simp
        · rw [if_neg h1, I2.res i hi]
          by_cases h2 : i = top'.id
          · subst h2
            simp [l4]
          · have h3 : ¬ (64 * p.ro + i = 64 * p.ro + top'.id) := by omega
            simp [h3, h2]
      · intro a ha
        simp only at ha ⊢
        rw [hsc'] at ha
        rw [hbit, if_pos ha]; simp
      · simp only
        intro hne
        obtain ⟨k1, k2, _, _⟩ := Lv_facts g H'.g.eb rest l11
        rw [hws.val _ (l10 hne), hcw', lw_cons, ← cid, ← wsum_ids k1,
          X.sub w g.hr (fun i hi => ?_) l3]
        rw [List.mem_toFinset] at hi
        obtain ⟨t, ht, rfl⟩ := List.mem_map.1 hi
        exact k2 t ht
      · intro hnn T hT
        simp only
        rcases c5 hnn T hT with h | h
        · exact Or.inl h
        · right
          unfold Pend at h
          rcases h with ⟨X, x1, x2, _⟩ | h
          · rw [c3] at x1
            obtain ⟨x, hx⟩ := x2
            exact absurd (x1 hx) (by simp)
          · exact f2 T h
      · simp only
        refine Nat.lt_of_lt_of_le ?_ c4
        rw [f3]
        simp only [nodes, c3]
        simp

/-- A clique (as positions in the list of `r`) whose smallest vertex in the order
"weighted degree, then id" is `r`. -/
def WRooted {R : Type} [Zero R] [LT R] [LE R] (H : NWG R) (r : Nat) (S : Finset Nat) : Prop :=
  IsCl H.g r S ∧ ∀ i ∈ S, i ≠ (H.g.V r).spos → i ∈ H.wCand r

theorem WFrame.rooted {R : Type} [Zero R] [LT R] [LE R] {H H' : NWG R} (h : WFrame H H') (r : Nat) (S : Finset Nat) :
    WRooted H' r S ↔ WRooted H r S := by
  unfold WRooted; rw [h.frame.isCl, h.V, h.wCand]

/-- `rootState` followed by `fillCand`: the state in which a rooted search starts. -/
theorem root_spec {H : NWG R} (X : XN H) (w : WF H.g) (l : Lens H) {r L : Nat} (hr : r < H.g.nVert)
    (hB : H.g.ebSize < H.g.searchCur) (hL : ∀ S, IsCl H.g r S → S.card ≤ L) (hL1 : 1 ≤ L)
    (room : H.g.searchCur + (L + 2) * dlen (H.g.V r).N ≤ H.g.eb.length)
    (zero : ∀ a, 64 * H.g.searchCur ≤ a → bitAt H.g.eb a = false)
    (pad : PadZero H.g.eb (H.g.vb r)) {ws : List R} (hws : (H.g.V r).N ≤ ws.length) (pt : R) :
    ∃ (p : SPar) (G1 : Graph) (x : SState) (eb : Mem) (ws' : List R),
      p.r = r ∧ p.B = H.g.searchCur ∧ p.L = L ∧ WGood H p ∧ Wts H p ws' ∧
      ws'.length = ws.length ∧
      H.g.rootState (H.g.V r) (dlen (H.g.V r).N) = .ok (G1, x) ∧
      ({ H with g := G1 } : NWG R).fillCand r (H.g.V r) x.cand G1.eb ws
        = .ok (eb, ws', fin (H.wsum r (H.wCand r))) ∧
      SInv H p { H with g := { G1 with eb := eb } }
        [{ id := x.id, startAt := x.startAt, pot := pt, res := x.res, cand := x.cand }] ∧
      bset eb x.cand = H.wCand r ∧ x.id = (H.g.V r).spos ∧
      G1.searchCur = H.g.searchCur + 2 * dlen (H.g.V r).N ∧
      ∀ a, a < 64 * H.g.searchCur → bitAt eb a = bitAt H.g.eb a := by
  have hebb := w.eblen
  have hNpos := N_pos w hr
  have hsp := w.spos r hr
  have hdp := dlen_pos hNpos
  have hdl := @dlen_le (H.g.V r).N
  have h2L : (1 + 2) * dlen (H.g.V r).N ≤ (L + 2) * dlen (H.g.V r).N :=
    Nat.mul_le_mul_right _ (by omega)
  let ro := if H.g.argLR then H.g.searchCur else H.g.searchCur + dlen (H.g.V r).N
  let co := if H.g.argLR then H.g.searchCur + dlen (H.g.V r).N else H.g.searchCur
  have hrc : (ro = H.g.searchCur ∧ co = H.g.searchCur + dlen (H.g.V r).N) ∨
      (ro = H.g.searchCur + dlen (H.g.V r).N ∧ co = H.g.searchCur) := by
    simp only [ro, co]
    cases H.g.argLR <;> simp
  have hgood : WGood H ⟨r, H.g.searchCur, ro, co, L⟩ := ⟨⟨w, hr, hB, hrc, room, pad⟩, l, hL⟩
  obtain ⟨m1, s1, s2, s3⟩ := GBits.set_spec ⟨ro, (H.g.V r).N⟩ H.g.eb (H.g.V r).spos
    (by have := div_lt_dlen hsp; simp only; omega)
  let G1 : Graph := { H.g with
    searchCur := H.g.searchCur + dlen (H.g.V r).N + dlen (H.g.V r).N, eb := m1 }
  have hroot : H.g.rootState (H.g.V r) (dlen (H.g.V r).N) =
      .ok (G1, ⟨(H.g.V r).spos, 0, ⟨ro, (H.g.V r).N⟩, ⟨co, (H.g.V r).N⟩⟩) := by
    unfold rootState
    rw [loadMemory_eq _ (by omega)]
    simp only
    rw [loadMemory_eq _ (by simp only; omega)]
    simp only
    have hpair : (if H.g.argLR = true then (H.g.searchCur, H.g.searchCur + dlen (H.g.V r).N)
        else (H.g.searchCur + dlen (H.g.V r).N, H.g.searchCur)) = (ro, co) := by
      simp only [ro, co]
      cases H.g.argLR <;> rfl
    rw [hpair]
    simp only
    rw [s1, ok_bind]
  have F1 : WFrame H { H with g := G1 } := WFrame.mk' H m1 _ H.limit H.curMax H.curLoc s2
  have w1 : WF ({ H with g := G1 } : NWG R).g := F1.frame.wf w
  obtain ⟨m2, ws', t1, t2, t2w, t2v, t3⟩ := fillCand_spec (H := { H with g := G1 })
    ⟨X.w, X.sums, X.d, X.mc, X.cm, X.lim⟩ w1 (F1.lens l) (r := r)
    (by rw [F1.frame.nVert]; exact hr)
    ⟨co, (H.g.V r).N⟩ m1 ws (by rw [F1.V, s2]; simp only; omega) (by rw [F1.V]; exact hws)
  rw [F1.V, F1.wsum, F1.wCand] at t1
  rw [F1.wCand] at t2v t3
  simp only at s3 t3
  have hb : ∀ a, bitAt m2 a = (decide (64 * co ≤ a ∧ a - 64 * co ∈ H.wCand r) ||
      (decide (a = 64 * ro + (H.g.V r).spos) || bitAt H.g.eb a)) := by
    intro a; rw [t3, s3]
  have hz : ∀ i, i < 64 * dlen (H.g.V r).N →
      bitAt m2 (64 * ro + i) = decide (i = (H.g.V r).spos) := by
    intro i hi
    rw [hb, zero _ (by omega), Bool.or_false]
    have h1 : ¬ (64 * co ≤ 64 * ro + i ∧ 64 * ro + i - 64 * co ∈ H.wCand r) := by
      rintro ⟨h1, h2⟩
      have := (mem_wCand'.1 h2).1
      omega
    rw [decide_eq_false h1, Bool.false_or]
    apply decide_eq_decide.2; omega
  have hzc : ∀ i, i < 64 * dlen (H.g.V r).N →
      bitAt m2 (64 * co + i) = decide (i ∈ H.wCand r) := by
    intro i hi
    rw [hb, zero _ (by omega), Bool.or_false]
    have h1 : ¬ (64 * co + i = 64 * ro + (H.g.V r).spos) := by omega
    rw [decide_eq_false h1, Bool.or_false]
    apply decide_eq_decide.2
    have : 64 * co + i - 64 * co = i := by omega
    rw [this]
    exact ⟨fun h => h.2, fun h => ⟨by omega, h⟩⟩
  have hset : bset m2 ⟨co, (H.g.V r).N⟩ = H.wCand r := by
    ext x
    rw [mem_bset]
    simp only
    constructor
    · rintro ⟨h1, h2⟩
      rw [hzc x (by omega)] at h2
      simpa using h2
    · intro h
      have := (mem_wCand'.1 h).1
      refine ⟨this, ?_⟩
      rw [hzc x (by omega)]
      simpa using h
  have hlo : ∀ a, a < 64 * H.g.searchCur → bitAt m2 a = bitAt H.g.eb a := by
    intro a ha
    rw [hb]
    have h1 : ¬ (64 * co ≤ a ∧ a - 64 * co ∈ H.wCand r) := by omega
    have h2 : ¬ (a = 64 * ro + (H.g.V r).spos) := by omega
    simp [h1, h2]
  refine ⟨⟨r, H.g.searchCur, ro, co, L⟩, G1, _, m2, ws', rfl, rfl,
    rfl, hgood, ⟨by rw [t2w]; exact hws, ?_⟩, t2w, hroot, t1, ?_, hset, rfl,
    by simp only [G1]; omega, hlo⟩
  · intro i hi
    rw [t2v i hi, F1.we]
  have hebo := w.eboEnd r hr
  refine ⟨?_, le_refl _, ?_, ?_, ?_, ?_⟩
  · exact (WUpd.refl pad).scratch (by show _ ≤ H.g.searchCur; omega) m2 _ (t2.trans s2)
      hlo
  · simp only [G1, SPar.req, List.length_cons, List.length_nil]; omega
  · unfold Lv
    refine ⟨rfl, ?_, hsp, by simp, by simp, fun _ => rfl, Nat.zero_le _, ?_, ?_,
      fun h => absurd rfl h, trivial⟩
    · simp only [List.length_nil, candOff, if_true]
    · intro i h1 h2
      simp only at h1 h2 ⊢
      rw [hzc i h2]
      simp only [decide_eq_false_iff_not]
      intro h
      have := (mem_wCand'.1 h).1
      omega
    · rw [hset]
      intro c hc
      have hc' := mem_wCand'.1 hc
      refine ⟨Nat.zero_le _, hc, ?_, ?_⟩
      · simp; omega
      · intro t ht
        simp only [List.mem_singleton] at ht
        rw [ht]
        exact A_spos w hr hc'.1
  · intro i hi
    simp only at hi ⊢
    rw [hz i hi]
    simp
  · intro a ha
    simp only [G1] at ha ⊢
    rw [hb, zero a (by omega)]
    have h1 : ¬ (64 * co ≤ a ∧ a - 64 * co ∈ H.wCand r) := by
      rintro ⟨h1, h2⟩
      have := (mem_wCand'.1 h2).1
      omega
    have h2 : ¬ (a = 64 * ro + (H.g.V r).spos) := by omega
    simp [h1, h2]

/-- What a finished search of one root has achieved. -/
structure VDone (r : Nat) (H H' : NWG R) : Prop where
  upd : WUpd r H.g.searchCur H H'
  cur : H'.g.searchCur = H.g.searchCur
  zero : ∀ a, 64 * H.g.searchCur ≤ a → bitAt H'.g.eb a = false

theorem wrooted_le {H : NWG R} (hnn : ∀ v, 0 ≤ val (H.w v)) {r : Nat} {S : Finset Nat}
    (hS : WRooted H r S) : H.wsum r S ≤ H.wsum r (H.wCand r) + H.qe r (H.g.V r).spos := by
  rw [wsum_erase hS.1.1, add_comm]
  apply add_le_add_left
  apply wsum_mono hnn
  intro i hi
  rw [Finset.mem_erase] at hi
  exact hS.2 i hi.2 hi.1

theorem stackVertex_spec {H : NWG R} (X : XN H) (Rd : ReadyS H.g) (l : Lens H) {r : Nat} (hr : r < H.g.nVert)
    {ws : List R} (hws : ws.length = H.g.maxDeg) :
    ∃ H' ws', stackVertex (H, ws) r = .ok (H', ws') ∧ ws'.length = H.g.maxDeg ∧ VDone r H H' ∧
      H.cm ≤ H'.cm ∧
      ((∀ v, 0 ≤ val (H.w v)) → ∀ S, WRooted H r S → 2 ≤ S.card →
        H.wsum r S ≤ H'.cm ∨ H'.lm ≤ H'.cm) := by
  have w := Rd.wf
  obtain ⟨L, hL, hroom⟩ := Rd.room
  have hmax := dlen_mono (w.maxd r hr)
  have hmaxd := w.maxd r hr
  have hL0 := hL r hr
  have hrm : (L + 2) * dlen (H.g.V r).N ≤ (L + 2) * dlen H.g.maxDeg :=
    Nat.mul_le_mul_left _ hmax
  obtain ⟨p, G1, x, eb, ws', rfl, p2, p3, W, hw', hw'l, r1, r2, I, r4, r6, r5, _⟩ :=
    root_spec X w l hr Rd.bot (fun S hS => isCl_card_le w hL hr hS) (by omega) (by omega) Rd.zero
      (Rd.pad r hr) (ws := ws) (by omega) (fin (H.wsum r (H.wCand r)))
  have g := W.g
  have hreqd : p.req H.g = dlen (H.g.V p.r).N := rfl
  unfold stackVertex
  simp only
  rw [vtx_ok w hr, ok_bind, r1, ok_bind]
  simp only
  rw [r2, ok_bind]
  simp only
  rw [rd_wt l hr, ok_bind]
  have hebb := w.eblen
  have h2L : 2 * dlen (H.g.V p.r).N ≤ (L + 2) * dlen (H.g.V p.r).N :=
    Nat.mul_le_mul_right _ (by omega)
  have hwr : H.we p.r (H.g.V p.r).spos = H.w p.r := by unfold we; rw [w.self p.r hr]
  have hwq : H.qe p.r (H.g.V p.r).spos = val (H.w p.r) := by unfold qe; rw [hwr]
  have hpv : fin (H.wsum p.r (H.wCand p.r)) + H.w p.r =
      fin (H.wsum p.r (H.wCand p.r) + val (H.w p.r)) := by
    have hns : (H.g.V p.r).spos ∉ H.wCand p.r := fun h => (wCand_lt h).2 rfl
    rw [← hwr, X.add w hr (fun i hi => (wCand_lt hi).1) (w.spos p.r hr) hns, hwr, ← hwq]
    congr 1
    unfold wsum
    rw [Finset.sum_insert hns, add_comm]
  rw [hpv]
  have hlev : fin (H.wsum p.r (H.wCand p.r) + val (H.w p.r)) ≤ H.curMax ↔
      H.wsum p.r (H.wCand p.r) + val (H.w p.r) ≤ H.cm := by
    rw [(num_fin _).le X.cm, val_fin]; rfl
  by_cases hpot : fin (H.wsum p.r (H.wCand p.r) + val (H.w p.r)) ≤ H.curMax
  · rw [if_pos hpot]
    obtain ⟨g', q1, q2, q3, q6, q7⟩ := I.upd.pop w hr g.hB
      (n := 2 * dlen (H.g.V p.r).N) (by simp only; omega) (by simp only; omega)
    simp only at q1 q2 q3 q6 q7
    rw [q1, ok_bind]
    refine ⟨_, ws', rfl, by rw [hw'l, hws], ⟨p2 ▸ q2, q3.trans p2, ?_⟩, le_refl _, ?_⟩
    · intro a ha
      simp only
      by_cases h : a < 64 * G1.searchCur
      · exact q6 a (by omega) h
      · rw [q7 a (by omega)]; exact I.zero a (by simp only; omega)
    · intro hnn S hS _
      left
      have := wrooted_le hnn hS
      rw [hlev] at hpot
      rw [hwq] at this
      show _ ≤ H.cm
      linarith
  rw [if_neg hpot]
  let Q : Rat → Prop := fun T => Pend H p eb T
    [{
      id := x.id
      startAt := x.startAt
      pot := fin (H.wsum p.r (H.wCand p.r))
      res := x.res
      cand := x.cand }]
  obtain ⟨⟨H3, states⟩, l1, l2, l3, l4⟩ := loop_rule
    (body := stackBody p.r (H.g.V p.r) (dlen (H.g.V p.r).N) ws')
    (WInv H p Q)
    (fun q => SInv H p q.1 q.2 ∧ (q.2 = [] ∨ q.1.lm ≤ q.1.cm) ∧
      ((∀ v, 0 ≤ val (H.w v)) → ∀ T, Q T → T ≤ q.1.cm ∨ Pend H p q.1.g.eb T q.2))
    (fun s => nodes s.1.g.eb s.2.1)
    (fun s hs => stackBody_spec X W hw' hs)
    (s := ({ H with g := { G1 with eb := eb } }, [{
      id := x.id
      startAt := x.startAt
      pot := fin (H.wsum p.r (H.wCand p.r))
      res := x.res
      cand := x.cand }], H.w p.r))
    (fuel := 2 ^ ((H.g.V p.r).N + 1))
    ⟨I, fun _ => by simp only [lw, List.map_cons, List.map_nil, List.sum_cons, List.sum_nil, add_zero, r6, hwq]; exact X.w _ hr, fun _ T hT => Or.inr hT⟩
    (by
      simp only [nodes]
      rw [r4]
      have h1 := wCand_card_lt w hr
      have h2 : 2 ^ ((H.wCand p.r).card + 1) ≤ 2 ^ ((H.g.V p.r).N + 1) :=
        Nat.pow_le_pow_right (by decide) (by omega)
      have h3 : 0 < 2 ^ ((H.wCand p.r).card + 1) := Nat.pos_of_ne_zero (by simp)
      omega)
  rw [l1, ok_bind]
  simp only at l2 l3 l4 ⊢
  have hsc : H3.g.searchCur = p.B + (states.length + 1) * dlen (H.g.V p.r).N := l2.sc
  have hlenL : states.length ≤ L := by rw [← p3]; exact Lv_len W l2.lv
  have hln : (states.length + 1) * dlen (H.g.V p.r).N ≤ (L + 2) * dlen (H.g.V p.r).N :=
    Nat.mul_le_mul_right _ (by omega)
  have hsm : (states.length + 1) * dlen (H.g.V p.r).N =
      states.length * dlen (H.g.V p.r).N + dlen (H.g.V p.r).N := Nat.succ_mul _ _
  have hexit : ∃ g4, (if states.isEmpty then (Except.ok H3.g : M Graph)
        else H3.g.clearMemory (dlen (H.g.V p.r).N * states.length)) = .ok g4 ∧
      WUpd p.r p.B H { H3 with g := g4 } ∧ g4.searchCur = p.B + dlen (H.g.V p.r).N ∧
      ∀ a, 64 * (p.B + dlen (H.g.V p.r).N) ≤ a → bitAt g4.eb a = false := by
    cases states with
    | nil =>
      simp only [List.length_nil, Nat.zero_add, Nat.one_mul] at hsc
      exact ⟨H3.g, rfl, l2.upd, hsc, fun a ha => l2.zero a (by omega)⟩
    | cons s rest =>
      simp only [List.isEmpty_cons, Bool.false_eq_true, if_false]
      have hebl := l2.upd.frame.frame.ebl
      obtain ⟨m1, d1, d2, d3⟩ := clearMemory_spec (G := H3.g)
        (dlen (H.g.V p.r).N * (s :: rest).length)
        (by rw [Nat.mul_comm]; omega) (by omega) (by omega)
      have hbot : H3.g.searchCur - dlen (H.g.V p.r).N * (s :: rest).length
          = p.B + dlen (H.g.V p.r).N := by rw [Nat.mul_comm]; omega
      rw [hbot] at d1 d3
      refine ⟨_, d1, ?_, rfl, ?_⟩
      · have hebo := w.eboEnd p.r hr
        have := g.hB
        exact l2.upd.scratch (by omega) m1 _ d2 (fun a ha => by rw [d3, if_neg (by omega)])
      · intro a ha
        simp only
        rw [d3]
        split
        · rfl
        · exact l2.zero a (by omega)
  obtain ⟨g4, e1, e2, e3, e6⟩ := hexit
  rw [← ite_bind, e1, ok_bind]
  obtain ⟨g', q1, q2, q3, q6, q7⟩ := e2.pop w hr g.hB
    (n := dlen (H.g.V p.r).N) (by simp only; omega) (by simp only; omega)
  simp only at q1 q2 q3 q6 q7
  rw [q1, ok_bind]
  refine ⟨_, ws', rfl, by rw [hw'l, hws], ⟨p2 ▸ q2, q3.trans p2, ?_⟩, l2.mono, ?_⟩
  · intro a ha
    simp only
    by_cases h : a < 64 * g4.searchCur
    · exact q6 a (by omega) h
    · rw [q7 a (by omega)]; exact e6 a (by omega)
  · intro hnn S hS h2
    have hP : Q (H.wsum p.r S) := by
      simp only [Q, Pend, or_false]
      refine ⟨S.erase (H.g.V p.r).spos, ?_, ?_, ?_, ?_⟩
      · intro i hi
        rw [Finset.mem_erase] at hi
        rw [r4]
        exact hS.2 i hi.2 hi.1
      · rw [← Finset.card_pos, Finset.card_erase_of_mem hS.1.1]; omega
      · intro a ha b hb
        exact hS.1.2.2 a (Finset.mem_of_mem_erase ha) b (Finset.mem_of_mem_erase hb)
      · rw [wsum_erase hS.1.1]; simp [lw, r6]
    rcases l4 hnn _ hP with h | h
    · left; exact h
    · right
      rcases l3 with h' | h'
      · rw [h'] at h; exact absurd h (by simp [Pend])
      · exact h'

end NWG

end CM
