import Verif.Lemmas.AWEnumScan
import Verif.Lemmas.NWEnumFor

/-! # Arbitrary arithmetic: the inner loop of `NWCliqueEnumerator::process_graph`
(nw_enumerate.cpp:108-189) -/

namespace CM

open Graph

namespace NWG

namespace AW

set_option linter.unusedSectionVars false

variable {R : Type} [Zero R] [Add R] [Sub R] [NatCast R] [LT R] [LE R] [DecidableLT R]
  [DecidableLE R]

section

variable (H0 : NWG R) (p : SPar)

/-- A set of positions still to be reported by the levels of the stack. -/
def PendS (m : Mem) (C : Finset Nat) : List (WState R) → Prop
  | [] => False
  | s :: rest =>
    (∃ X : Finset Nat, X ⊆ bset m s.cand ∧ X.Nonempty ∧ (∀ a ∈ X, ∀ b ∈ X, H0.g.A p.r a b) ∧
      C = ((s :: rest).map WState.id).toFinset ∪ X) ∨
    PendS m C rest

/-- The invariant of the enumeration inside one root. -/
structure EI (H : NWG R) (states : List (WState R)) : Prop where
  same : H = { H0 with g := H.g }
  upd : EUpd p.r p.B H0.g H.g
  sc : H.g.searchCur = p.B + (states.length + 1) * p.req H0.g
  lv : Lv H0 p H.g.eb states
  ord : Ordd H.g.eb states
  res : ∀ i, i < 64 * p.req H0.g →
    bitAt H.g.eb (64 * p.ro + i) = decide (i ∈ states.map WState.id)
  zero : ∀ a, 64 * H.g.searchCur ≤ a → bitAt H.g.eb a = false

end

variable {H0 : NWG R} {p : SPar}

theorem PendS_congr {m m' : Mem} (C : Finset Nat) : ∀ {states : List (WState R)},
    (∀ s ∈ states, bset m' s.cand = bset m s.cand) →
    (PendS H0 p m' C states ↔ PendS H0 p m C states) := by
  intro states
  induction states with
  | nil => intro _; exact Iff.rfl
  | cons s rest ih =>
    intro h
    unfold PendS
    rw [h s (by simp), ih (fun t ht => h t (by simp [ht]))]

/-- What is pending below a level does not contain the vertex chosen at that level. -/
theorem PendS_notMem {m : Mem} {C : Finset Nat} {s : WState R} : ∀ {rest : List (WState R)},
    Lv H0 p m (s :: rest) → Ordd m (s :: rest) → PendS H0 p m C rest →
    ¬ (∀ t ∈ s :: rest, t.id ∈ C) := by
  intro rest
  induction rest generalizing s with
  | nil => intro _ _ h; exact absurd h (by simp [PendS])
  | cons t rest ih =>
    intro hl ho hp hall
    have hl' := hl
    unfold Lv at hl'
    obtain ⟨l1, l2, l3, l4, l5, l6, l7, l8, l9, l10, l11⟩ := hl'
    unfold PendS at hp
    rcases hp with ⟨X, x1, _, x2, x3⟩ | hp
    · have hsC := hall s (by simp)
      rw [x3, Finset.mem_union, List.mem_toFinset] at hsC
      rcases hsC with h | h
      · exact l4 h
      · exact ho.1 (x1 h)
    · exact ih l11 ho.2 hp (fun t' ht' => hall t' (List.mem_cons_of_mem _ ht'))

/-- One iteration of the inner loop. -/
theorem enumFor_spec (W : WGood H0 p) {H : NWG R} {top : WState R} {rest : List (WState R)}
    {ws : List R} {cw T : R} {j : Nat} (hwl : (H0.g.V p.r).N ≤ ws.length)
    (I : EI H0 p H (top :: rest))
    (hj0 : j ≤ (H0.g.V p.r).N) (hst : ∀ c ∈ bset H.g.eb top.cand, j ≤ c) :
    (∃ H' top', enumFor (H0.g.V p.r) (p.req H0.g) ws cw T (H, top, j)
        = .ok (.inl (H', top', j + 1)) ∧ j < (H0.g.V p.r).N ∧ EI H0 p H' (top' :: rest) ∧
        (∀ c ∈ bset H'.g.eb top'.cand, j + 1 ≤ c) ∧
        nodes H'.g.eb (top' :: rest) ≤ nodes H.g.eb (top :: rest) ∧
        (∀ C, PendS H0 p H'.g.eb C (top' :: rest) → PendS H0 p H.g.eb C (top :: rest))) ∨
    (∃ H' top', enumFor (H0.g.V p.r) (p.req H0.g) ws cw T (H, top, j)
        = .ok (.inr (.found H' top')) ∧ EI H0 p H' (top' :: rest) ∧
        (nodes H'.g.eb (top' :: rest) ≤ nodes H.g.eb (top :: rest) ∧
          rest.length + 2 ≤ (bset H'.g.eb (H0.g.vb p.r)).card) ∧
        PendS H0 p H.g.eb (bset H'.g.eb (H0.g.vb p.r)) (top :: rest) ∧
        ∀ C, PendS H0 p H'.g.eb C (top' :: rest) →
          (PendS H0 p H.g.eb C (top :: rest) ∧ C ≠ bset H'.g.eb (H0.g.vb p.r))) ∨
    (∃ H' top' new cw', enumFor (H0.g.V p.r) (p.req H0.g) ws cw T (H, top, j)
        = .ok (.inr (.pushed H' top' new cw')) ∧ EI H0 p H' (new :: top' :: rest) ∧
        nodes H'.g.eb (new :: top' :: rest) < nodes H.g.eb (top :: rest) ∧
        ∀ C, PendS H0 p H'.g.eb C (new :: top' :: rest) → PendS H0 p H.g.eb C (top :: rest)) ∨
    (enumFor (H0.g.V p.r) (p.req H0.g) ws cw T (H, top, j)
        = .ok (.inr (.done H top)) ∧ bset H.g.eb top.cand = ∅) := by
  have g := W.g
  have w := g.wf
  have wH := I.upd.frame.wf w
  have hrH : p.r < H.g.nVert := by rw [I.upd.frame.nVert]; exact g.hr
  have hlv := I.lv
  have hlenL := Lv_len W I.lv
  simp only [List.length_cons] at hlenL
  unfold Lv at hlv
  obtain ⟨l1, l2, l3, l4, l5, l6, l7, l8, l9, l10, l11⟩ := hlv
  have hreqd : p.req H0.g = dlen (H0.g.V p.r).N := rfl
  have hdl := @dlen_le (H0.g.V p.r).N
  have hebl := I.upd.frame.ebl
  have hroom := g.room
  have hce := candOff_end g rest.length
  have hcge := candOff_ge g rest.length
  have hlen1 : (rest.length + 2) * p.req H0.g ≤ (p.L + 2) * p.req H0.g :=
    Nat.mul_le_mul_right _ (by omega)
  have hebo := w.eboEnd p.r g.hr
  have hBB := g.hB
  have hreq : 0 < p.req H0.g := dlen_pos (N_pos w g.hr)
  have hNlt := N_lt w g.hr
  have hNpos := N_pos w g.hr
  have hoff : top.cand.off = candOff H0.g p rest.length := by rw [l2]
  have hclen : top.cand.len = (H0.g.V p.r).N := by rw [l2]
  have hroff : top.res.off = p.ro := by rw [l1]
  have hrlen : top.res.len = (H0.g.V p.r).N := by rw [l1]
  unfold enumFor
  simp only
  by_cases hj : j < (H0.g.V p.r).N
  swap
  · right; right; right
    rw [if_neg hj]
    refine ⟨rfl, ?_⟩
    rw [Finset.eq_empty_iff_forall_notMem]
    intro c hc
    have h1 := hst c hc
    have h2 := (mem_bset.1 hc).1
    rw [hclen] at h2
    omega
  rw [if_pos hj, top.cand.test_spec H.g.eb j (by rw [hoff]; have := div_lt_dlen hj; omega), ok_bind]
  by_cases hjC : j ∈ bset H.g.eb top.cand
  swap
  · have hnb : ¬ bitAt H.g.eb (64 * top.cand.off + j) = true := fun h =>
      hjC (mem_bset.2 ⟨by rw [hclen]; exact hj, h⟩)
    rw [if_neg hnb]
    left
    refine ⟨H, top, rfl, hj, I, ?_, Nat.le_refl _, fun _ h => h⟩
    intro c hc
    have := hst c hc
    have : c ≠ j := fun h => hjC (h ▸ hc)
    omega
  rw [if_pos (mem_bset.1 hjC).2]
  obtain ⟨m1, r1, r2, r3⟩ := top.cand.reset_spec H.g.eb j
    (by rw [hoff]; have := div_lt_dlen hj; omega)
  rw [r1, ok_bind]
  have hpad1 : PadZero m1 top.cand := by
    intro i h1 h2; rw [r3, l8 i h1 h2]; simp
  have hC1 : bset m1 top.cand = (bset H.g.eb top.cand).erase j := by
    ext x
    simp only [Finset.mem_erase, mem_bset, r3]
    simp only [Bool.and_eq_true, Bool.not_eq_true', decide_eq_false_iff_not]
    constructor
    · rintro ⟨h1, h2, h3⟩; exact ⟨by omega, h1, h3⟩
    · rintro ⟨h1, h2, h3⟩; exact ⟨h2, by omega, h3⟩
  have hin1 : top.cand.off + dlen top.cand.len ≤ m1.length := by
    rw [hoff, hclen, r2]; omega
  rw [top.cand.count_pad m1 (by omega) hin1 hpad1, ok_bind]
  simp only
  have hjw := (l9 j hjC).2.1
  rw [rd_getD (0 : R) (show j < ws.length by omega), ok_bind]
  generalize ws.getD j 0 = wj
  have U1 : EUpd p.r p.B H0.g ({ H.g with eb := m1 } : Graph) :=
    I.upd.scratch (by omega) m1 H.g.searchCur r2 (fun a ha => by
      rw [r3, hoff]
      have : ¬ (a = 64 * candOff H0.g p rest.length + j) := by omega
      simp [this])
  have hsame1 : ({ H with g := { H.g with eb := m1 } } : NWG R) =
      { H0 with g := ({ H with g := { H.g with eb := m1 } } : NWG R).g } := by
    conv_lhs => rw [I.same]
  have F1 : WFrame H0 ({ H with g := { H.g with eb := m1 } } : NWG R) := WFrame.ofSame hsame1 U1
  have w1 : WF ({ H with g := { H.g with eb := m1 } } : NWG R).g := F1.frame.wf w
  have hnbr : ({ H.g with eb := m1 } : Graph).nbr (H0.g.V p.r) j = .ok (H0.g.e p.r j) := by
    unfold nbr e
    rw [show ({ H.g with eb := m1 } : Graph).el = H0.g.el from I.upd.frame.el]
    exact rd_getD _ (by have := w.inEl p.r g.hr; omega)
  rw [hnbr, ok_bind]
  have hvert := e_lt w g.hr hj
  rw [show ({ H.g with eb := m1 } : Graph).vtx (H0.g.e p.r j) =
    .ok (({ H with g := { H.g with eb := m1 } } : NWG R).g.V (H0.g.e p.r j)) from
    vtx_ok w1 (by rw [F1.frame.nVert]; exact hvert), ok_bind]
  have hgt1 : ∀ k ∈ bset m1 top.cand, j < k := by
    intro k hk
    rw [hC1, Finset.mem_erase] at hk
    have := hst k hk.2
    omega
  obtain ⟨rm, cp, s1, s3, s6⟩ := enumScan_spec
    (H := { H with g := { H.g with eb := m1 } }) w1
    (r := p.r) (j := j) (by rw [F1.frame.nVert]; exact g.hr) (by rw [F1.V]; exact hj)
    (cand := top.cand) (eb := m1) (ws := ws) (cw := cw) (wj := wj) (required := T)
    (cp0 := top.pot)
    (by rw [F1.V]; exact hclen) hin1 hgt1
    (by rw [F1.V]; exact hwl)
  rw [F1.frame.e, F1.V p.r] at s1
  rw [s1, ok_bind]
  have hAeq : ∀ x, ({ H with g := { H.g with eb := m1 } } : NWG R).g.A p.r j x ↔
      H0.g.A p.r j x := by
    intro x; unfold A; rw [F1.frame.nadj, F1.frame.e, F1.frame.e]
  simp only [hAeq] at s3 s6
  simp only
  -- the lower levels are untouched by the reset
  have hlow : ∀ l, l < rest.length → ∀ i, i < 64 * p.req H0.g →
      bitAt m1 (64 * candOff H0.g p l + i) = bitAt H.g.eb (64 * candOff H0.g p l + i) := by
    intro l hl i hi
    have := candOff_lt g hl
    rw [r3, hoff]
    have : ¬ (64 * candOff H0.g p l + i = 64 * candOff H0.g p rest.length + j) := by omega
    simp [this]
  obtain ⟨c1, c3⟩ := Lv_congr H.g.eb m1 rest hlow l11
  have hbl := bset_low hlow l11
  have hXs : ∀ X : Finset Nat, X ⊆ bset m1 top.cand → X ⊆ bset H.g.eb top.cand ∧ j ∉ X := by
    intro X h
    rw [hC1] at h
    exact ⟨fun x hx => Finset.mem_of_mem_erase (h hx), fun hjx => by simpa using h hjx⟩
  have hcard : (bset m1 top.cand).card < (bset H.g.eb top.cand).card := by
    rw [hC1]; exact Finset.card_erase_lt_of_mem hjC
  have hlv1 : ∀ x ∈ bset m1 top.cand, j + 1 ≤ x ∧ x ∈ H0.wCand p.r ∧
      x ∉ (({ top with startAt := j + 1 } : WState R) :: rest).map WState.id ∧
      ∀ t ∈ ({ top with startAt := j + 1 } : WState R) :: rest, H0.g.A p.r t.id x := by
    intro x hx
    have hx' : x ∈ bset H.g.eb top.cand := by
      rw [hC1] at hx; exact Finset.mem_of_mem_erase hx
    refine ⟨hgt1 x hx, (l9 x hx').2.1, (l9 x hx').2.2.1, ?_⟩
    intro t ht
    rcases List.mem_cons.1 ht with ht | ht
    · rw [ht]; exact (l9 x hx').2.2.2 top (by simp)
    · exact (l9 x hx').2.2.2 t (by simp [ht])
  have hroco := ro_candOff g rest.length
  have hnodes1 : ∀ m', bset m' top.cand = bset m1 top.cand →
      nodes m' rest = nodes H.g.eb rest →
      nodes m' ({ top with startAt := j + 1 } :: rest) ≤ nodes H.g.eb (top :: rest) := by
    intro m' h1 h2
    simp only [nodes]
    rw [h1, h2]
    have : 2 ^ ((bset m1 top.cand).card + 1) ≤ 2 ^ ((bset H.g.eb top.cand).card + 1) :=
      Nat.pow_le_pow_right (by decide) (by omega)
    omega
  by_cases hpot : cp + cw + wj ≥ T
  swap
  · -- pruned
    left
    rw [if_neg hpot]
    refine ⟨_, _, rfl, hj, ⟨hsame1, U1, I.sc, ?_, ?_, ?_, ?_⟩, hgt1,
      hnodes1 m1 rfl c3, ?_⟩
    · unfold Lv
      exact ⟨l1, l2, l3, l4, l5, l6, by simp only; omega, hpad1, hlv1, l10, c1⟩
    · exact Ordd_low (s := top) rfl hbl I.ord
    · intro i hi
      show bitAt m1 _ = _
      have h1 := I.res i hi
      rw [r3, hoff]
      have : ¬ (64 * p.ro + i = 64 * candOff H0.g p rest.length + j) := by omega
      simp only [this, decide_false, Bool.not_false, Bool.true_and]
      exact h1
    · intro a ha
      show bitAt m1 a = false
      rw [r3, I.zero a ha]; simp
    · intro C
      show PendS H0 p m1 C ({ top with startAt := j + 1 } :: rest) → _
      unfold PendS
      rw [PendS_congr C hbl]
      rintro (⟨X, x1, x2, x3, x4⟩ | h)
      · exact Or.inl ⟨X, (hXs X x1).1, x2, x3, x4⟩
      · exact Or.inr h
  rw [if_pos hpot]
  have hjid : j ∉ (top :: rest).map WState.id := (l9 j hjC).2.2.1
  have hjt := (l9 j hjC).2.2.2
  have hcl := Lv_insert g I.lv hj hjt
  obtain ⟨f1, f2, f3, f4⟩ := Lv_facts g H.g.eb (top :: rest) I.lv
  by_cases hfull : cw + wj ≥ T
  · -- found
    right; left
    rw [if_pos hfull]
    obtain ⟨m2, t1, t2, t3⟩ := GBits.set_spec top.res m1 j (by
      rw [hroff]
      have := div_lt_dlen hj
      have := g.hrc
      have h3 : 2 * p.req H0.g ≤ (p.L + 2) * p.req H0.g := Nat.mul_le_mul_right _ (by omega)
      simp only [SPar.req] at *
      omega)
    rw [t1, ok_bind]
    rw [hroff] at t3
    have hres2 : ∀ i, i < 64 * p.req H0.g → bitAt m2 (64 * p.ro + i)
        = decide (i = j ∨ i ∈ (top :: rest).map WState.id) := by
      intro i hi
      rw [t3, r3, hoff, I.res i hi]
      have : ¬ (64 * p.ro + i = 64 * candOff H0.g p rest.length + j) := by omega
      simp only [this, decide_false, Bool.not_false, Bool.true_and]
      rw [← Bool.decide_or]
      apply decide_eq_decide.2
      constructor
      · rintro (h | h)
        · left; omega
        · right; exact h
      · rintro (h | h)
        · left; omega
        · right; exact h
    have hbs : bset m2 top.res = insert j ((top :: rest).map WState.id).toFinset := by
      ext x
      rw [mem_bset, Finset.mem_insert, List.mem_toFinset, hroff, hrlen]
      constructor
      · rintro ⟨h1, h2⟩
        rw [hres2 x (by omega)] at h2
        simpa using h2
      · intro h
        have hx : x < (H0.g.V p.r).N := by
          rcases h with h | h
          · omega
          · obtain ⟨t, ht, rfl⟩ := List.mem_map.1 h
            exact f2 t ht
        refine ⟨hx, ?_⟩
        rw [hres2 x (by omega)]
        simpa using h
    have U2 : EUpd p.r p.B H0.g { ({ H.g with eb := m1 } : Graph) with eb := m2 } :=
      I.upd.scratch (by omega) m2 H.g.searchCur (t2.trans r2) (fun a ha => by
        rw [t3, r3, hoff]
        have h1 : ¬ (a = 64 * candOff H0.g p rest.length + j) := by omega
        have h2 : ¬ (a = 64 * p.ro + j) := by have := g.hrc; omega
        simp [h1, h2])
    obtain ⟨m3, u1, u2, u3, u5, u6⟩ := Graph.store_spec (res := top.res)
      w g.hr U2 g.hB hrlen (by have := g.hrc; rw [hroff]; omega)
      (by
        rw [hroff]
        show _ ≤ List.length m2
        have := g.hrc
        have h3 : 2 * p.req H0.g ≤ (p.L + 2) * p.req H0.g := Nat.mul_le_mul_right _ (by omega)
        simp only [SPar.req] at *
        omega)
      (by
        intro i h1 h2
        show bitAt m2 _ = false
        rw [hrlen] at h1 h2
        rw [hroff, hres2 i h2]
        simp only [decide_eq_false_iff_not, not_or]
        refine ⟨by omega, fun h => ?_⟩
        obtain ⟨t, ht, rfl⟩ := List.mem_map.1 h
        have := f2 t ht; omega)
      (by
        show IsCl H0.g p.r (bset m2 _)
        rw [hbs]; exact hcl)
    have hvb2 : ({ H.g with eb := m1 } : Graph).vbits (H0.g.V p.r) =
        ({ ({ H.g with eb := m1 } : Graph) with eb := m2 } : Graph).vbits (H0.g.V p.r) := rfl
    rw [hvb2]
    rw [bind_eq_ok] at u1
    obtain ⟨vbv, ub1, ub2⟩ := u1
    rw [ub1, ok_bind]
    change vbv.copyData top.res.off m2 = _ at ub2
    rw [ub2, ok_bind]
    have hm3l : m3.length = H0.g.eb.length := by
      rw [u3]; show m2.length = _; rw [t2, r2, hebl]
    obtain ⟨m4, v1, v2, v3⟩ := GBits.reset_spec top.res m3 j (by
      rw [hroff]
      have := div_lt_dlen hj
      have := g.hrc
      have h3 : 2 * p.req H0.g ≤ (p.L + 2) * p.req H0.g := Nat.mul_le_mul_right _ (by omega)
      simp only [SPar.req] at *
      omega)
    rw [v1, ok_bind]
    rw [hroff] at v3
    have hm4 : ∀ a, 64 * p.B ≤ a → bitAt m4 a =
        (!decide (a = 64 * candOff H0.g p rest.length + j) && bitAt H.g.eb a) := by
      intro a ha
      rw [v3, u5 a ha]
      show (_ && bitAt m2 a) = _
      rw [t3, r3, hoff]
      by_cases h1 : a = 64 * p.ro + j
      · have hne : ¬ (64 * p.ro + j = 64 * candOff H0.g p rest.length + j) := by
          omega
        have hz := I.res j (by omega)
        rw [decide_eq_false hjid] at hz
        rw [h1]
        simp [hz]
      · simp [h1]
    have hC4 : bset m4 top.cand = bset m1 top.cand := by
      apply bset_congr rfl
      intro i hi
      rw [hm4 _ (by rw [hoff]; omega), r3, hoff]
    have hlow4 : ∀ l, l < rest.length → ∀ i, i < 64 * p.req H0.g →
        bitAt m4 (64 * candOff H0.g p l + i) = bitAt H.g.eb (64 * candOff H0.g p l + i) := by
      intro l hl i hi
      have h1 := candOff_lt g hl
      have h2 := candOff_ge g l
      rw [hm4 _ (by omega)]
      have : ¬ (64 * candOff H0.g p l + i = 64 * candOff H0.g p rest.length + j) := by omega
      simp [this]
    have hbl4 := bset_low hlow4 l11
    have hlc := Lv_congr H.g.eb m4 rest hlow4 l11
    have U4 : EUpd p.r p.B H0.g { ({ H.g with eb := m1 } : Graph) with eb := m4 } :=
      u2.scratch (by omega) m4 H.g.searchCur v2 (fun a ha => by
        rw [v3]
        have h2 : ¬ (a = 64 * p.ro + j) := by have := g.hrc; omega
        simp [h2])
    have hfin : bset m4 (H0.g.vb p.r) = insert j ((top :: rest).map WState.id).toFinset := by
      rw [← hbs]
      rw [show bset m4 (H0.g.vb p.r) = bset m3 (H0.g.vb p.r) from ?_]
      · exact u6
      · apply bset_congr rfl
        intro i hi
        simp only [vb] at hi ⊢
        rw [v3]
        have h2 : ¬ (64 * (H0.g.V p.r).ebo + i = 64 * p.ro + j) := by have := g.hrc; omega
        simp [h2]
    refine ⟨_, _, rfl, ⟨?_, U4, I.sc, ?_, ?_, ?_, ?_⟩,
      ⟨hnodes1 m4 hC4 hlc.2, by
        show _ ≤ (bset m4 _).card
        rw [hfin, Finset.card_insert_of_notMem (by rwa [List.mem_toFinset]),
          List.toFinset_card_of_nodup f1, List.length_map, List.length_cons]⟩, ?_, ?_⟩
    · conv_lhs => rw [I.same]
    · show Lv H0 p m4 _
      unfold Lv
      refine ⟨l1, l2, l3, l4, l5, l6, by simp only; omega, ?_, ?_, l10, hlc.1⟩
      · intro i h1 h2
        have := hpad1 i h1 h2
        rw [r3] at this
        rw [hm4 _ (by rw [hoff]; omega), ← hoff]; exact this
      · show ∀ c ∈ bset m4 top.cand, _
        rw [hC4]; exact hlv1
    · exact Ordd_low (s := top) rfl hbl4 I.ord
    · intro i hi
      show bitAt m4 _ = _
      rw [hm4 _ (by have := g.hrc; omega), I.res i hi]
      have : ¬ (64 * p.ro + i = 64 * candOff H0.g p rest.length + j) := by omega
      simp [this]
    · intro a ha
      show bitAt m4 a = false
      have ha' : 64 * H.g.searchCur ≤ a := ha
      rw [hm4 a (by rw [I.sc] at ha'; omega), I.zero a ha']; simp
    · show PendS H0 p H.g.eb (bset m4 _) _
      rw [hfin]
      unfold PendS
      left
      refine ⟨{j}, by simpa using hjC, by simp, ?_, ?_⟩
      · intro a ha b hb
        rw [Finset.mem_singleton] at ha hb
        rw [ha, hb]; exact A_refl w g.hr hj
      · rw [Finset.union_comm]; rfl
    · intro C
      show PendS H0 p m4 C ({ top with startAt := j + 1 } :: rest) → (_ ∧ C ≠ bset m4 _)
      rw [hfin]
      rw [PendS, PendS]
      rw [PendS_congr C hbl4]
      have hnotlow : PendS H0 p H.g.eb C rest →
          C ≠ insert j ((top :: rest).map WState.id).toFinset := by
        intro hp hC
        refine PendS_notMem I.lv I.ord hp ?_
        intro t ht
        rw [hC, Finset.mem_insert, List.mem_toFinset]
        exact Or.inr (List.mem_map.2 ⟨t, ht, rfl⟩)
      rintro (⟨X, x1, x2, x3, x4⟩ | hp)
      · have x1' : X ⊆ bset m4 top.cand := x1
        rw [hC4] at x1'
        obtain ⟨y1, y2⟩ := hXs X x1'
        refine ⟨Or.inl ⟨X, y1, x2, x3, x4⟩, ?_⟩
        intro hC
        have : j ∈ C := by rw [hC]; simp
        rw [x4, Finset.mem_union, List.mem_toFinset] at this
        rcases this with h | h
        · exact hjid h
        · exact y2 h
      · exact ⟨Or.inr hp, hnotlow hp⟩
  · -- push
    right; right; left
    rw [if_neg hfull]
    have hsc := I.sc
    simp only [List.length_cons] at hsc
    have hL : rest.length + 2 ≤ p.L := by
      have := W.hL _ hcl
      rw [Finset.card_insert_of_notMem (by rw [List.mem_toFinset]; exact hjid),
          List.toFinset_card_of_nodup f1] at this
      simp only [List.length_map, List.length_cons] at this
      omega
    have hlen3 : (rest.length + 3) * p.req H0.g ≤ (p.L + 2) * p.req H0.g :=
      Nat.mul_le_mul_right _ (by omega)
    have hx3 : (rest.length + 3) * p.req H0.g = (rest.length + 2) * p.req H0.g + p.req H0.g := by
      rw [show rest.length + 3 = (rest.length + 2) + 1 from rfl, Nat.succ_mul]
    have hebb := w.eblen
    have hsc2 : (rest.length + 1 + 1) * p.req H0.g = (rest.length + 2) * p.req H0.g := rfl
    rw [hsc2] at hsc
    rw [loadMemory_eq (G := { H.g with eb := m1 }) (p.req H0.g)
      (by show H.g.searchCur + _ < _; omega)]
    simp only
    have hnewoff : H.g.searchCur = candOff H0.g p (rest.length + 1) := by
      rw [hsc]; unfold candOff; rw [if_neg (by omega)]
    have hclt := candOff_lt g (Nat.lt_succ_self rest.length)
    simp only [Nat.succ_eq_add_one] at hclt
    have hroN := ro_candOff g (rest.length + 1)
    have hlenm1 : m1.length = H0.g.eb.length := r2.trans hebl
    obtain ⟨m2, t1, t2, t3⟩ := GBits.copyData_spec ⟨H.g.searchCur, top.cand.len⟩ top.cand.off m1
      (by simp only; rw [hclen]; simp only [SPar.req] at *; omega)
      (by simp only; exact hin1)
      (by simp only; rw [hoff, hclen, hnewoff]; simp only [SPar.req] at *; omega)
    have hcf : GBits.copyFrom top.cand H.g.searchCur m1 =
        .ok (⟨candOff H0.g p (rest.length + 1), (H0.g.V p.r).N⟩, m2) := by
      unfold GBits.copyFrom
      simp only
      rw [t1, ok_bind, hclen, hnewoff]
    rw [hcf, ok_bind]
    simp only
    obtain ⟨m3, v1, v2, v3⟩ := GBits.set_spec top.res m2 j (by
      rw [hroff]
      have := div_lt_dlen hj
      have := g.hrc
      have h3 : 2 * p.req H0.g ≤ (p.L + 2) * p.req H0.g := Nat.mul_le_mul_right _ (by omega)
      simp only [SPar.req] at *
      omega)
    rw [v1, ok_bind]
    obtain ⟨m4, y1, y2, y3⟩ := resets_spec ⟨candOff H0.g p (rest.length + 1), (H0.g.V p.r).N⟩ rm m3
      (by
        intro k hk
        have h1 := (mem_bset.1 (s3 k hk).1).1
        rw [hclen] at h1
        have := div_lt_dlen h1
        simp only [SPar.req] at *
        omega)
    rw [y1, ok_bind]
    simp only [hclen, hnewoff, hroff] at t3 v3 y3
    have hronc : p.ro + p.req H0.g ≤ candOff H0.g p (rest.length + 1) := by
      have := g.hrc
      have h3 : 2 * p.req H0.g ≤ (rest.length + 2) * p.req H0.g := Nat.mul_le_mul_right _ (by omega)
      rw [← hnewoff, hsc]; omega
    generalize hnc : candOff H0.g p (rest.length + 1) = nc at *
    generalize htc : candOff H0.g p rest.length = tc at *
    have hl4 : m4.length = H.g.eb.length := by rw [y2, v2, t2, r2]
    -- bits of m4
    have hb4 : ∀ a, a < 64 * nc → bitAt m4 a =
        (decide (a = 64 * p.ro + j) || (!decide (a = 64 * tc + j) && bitAt H.g.eb a)) := by
      intro a ha
      have h1 : ¬ (64 * nc ≤ a ∧ a - 64 * nc ∈ rm) := by omega
      have h2 : ¬ (64 * nc ≤ a ∧ a < 64 * (nc + dlen (H0.g.V p.r).N)) := by omega
      rw [y3, v3, t3, if_neg h2, r3, hoff]
      simp [h1]
    have hb4n : ∀ i, i < 64 * p.req H0.g → bitAt m4 (64 * nc + i) =
        (!decide (i ∈ rm) && bitAt m1 (64 * tc + i)) := by
      intro i hi
      simp only [SPar.req] at *
      have h1 : (64 * nc ≤ 64 * nc + i ∧ 64 * nc + i < 64 * (nc + dlen (H0.g.V p.r).N)) := by
        omega
      have h2 : ¬ (64 * nc + i = 64 * p.ro + j) := by omega
      have h3 : 64 * nc + i - 64 * nc = i := by omega
      rw [y3, v3, t3, if_pos h1, hoff, h3]
      have h4 : (64 * nc ≤ 64 * nc + i) := by omega
      simp only [h2, h4, decide_false, Bool.false_or, true_and]
      rw [Nat.add_comm i]
    have hb4z : ∀ a, 64 * (nc + p.req H0.g) ≤ a → bitAt m4 a = false := by
      intro a ha
      simp only [SPar.req] at *
      have h2 : ¬ (64 * nc ≤ a ∧ a < 64 * (nc + dlen (H0.g.V p.r).N)) := by omega
      have h4 : ¬ (a = 64 * p.ro + j) := by omega
      rw [y3, v3, t3, if_neg h2, r3, I.zero a (by omega)]
      simp [h4]
    have hCn : bset m4 ⟨nc, (H0.g.V p.r).N⟩ = H0.adjC p.r j (bset m1 top.cand) := by
      unfold adjC
      ext x
      rw [mem_bset, Finset.mem_filter, mem_bset, hoff, hclen]
      simp only
      constructor
      · rintro ⟨h1, h2⟩
        rw [hb4n x (by omega)] at h2
        simp only [Bool.and_eq_true, Bool.not_eq_true', decide_eq_false_iff_not] at h2
        refine ⟨⟨h1, h2.2⟩, ?_⟩
        by_contra hA
        refine h2.1 (s6 hpot x ?_ hA)
        rw [mem_bset, hoff, hclen]; exact ⟨h1, h2.2⟩
      · rintro ⟨⟨h1, h2⟩, h3⟩
        refine ⟨h1, ?_⟩
        rw [hb4n x (by omega), h2]
        have : x ∉ rm := fun h => (s3 x h).2 h3
        simp [this]
    have hADsub : ∀ x ∈ H0.adjC p.r j (bset m1 top.cand),
        x ∈ bset m1 top.cand ∧ H0.g.A p.r j x := by
      intro x hx; exact Finset.mem_filter.1 hx
    have hADcard : (H0.adjC p.r j (bset m1 top.cand)).card ≤ (bset m1 top.cand).card :=
      Finset.card_le_card fun x hx => (hADsub x hx).1
    have hC4 : bset m4 top.cand = bset m1 top.cand := by
      apply bset_congr rfl
      intro i hi
      rw [hclen] at hi
      rw [hoff, hb4 _ (by omega), r3, hoff]
      have : ¬ (64 * tc + i = 64 * p.ro + j) := by omega
      simp [this]
    have hlow4 : ∀ l, l < rest.length → ∀ i, i < 64 * p.req H0.g →
        bitAt m4 (64 * candOff H0.g p l + i) = bitAt H.g.eb (64 * candOff H0.g p l + i) := by
      intro l hl i hi
      have h1 := candOff_lt g hl
      have h3 := ro_candOff g l
      rw [hb4 _ (by omega)]
      have h4 : ¬ (64 * candOff H0.g p l + i = 64 * tc + j) := by omega
      have h5 : ¬ (64 * candOff H0.g p l + i = 64 * p.ro + j) := by omega
      simp [h4, h5]
    obtain ⟨d1, d3⟩ := Lv_congr H.g.eb m4 rest hlow4 l11
    have hbl4 := bset_low hlow4 l11
    have hjt' : ∀ t ∈ ({ top with startAt := j + 1 } : WState R) :: rest,
        H0.g.A p.r t.id j := by
      intro t ht
      rcases List.mem_cons.1 ht with ht | ht
      · rw [ht]; exact hjt top (by simp)
      · exact hjt t (by simp [ht])
    have hLvtop : Lv H0 p m4 ({ top with startAt := j + 1 } :: rest) := by
      unfold Lv
      refine ⟨l1, by rw [htc]; exact l2, l3, l4, l5, l6, by simp only; omega, ?_, ?_, l10, d1⟩
      · intro i h1 h2
        have := hpad1 i h1 h2
        simp only at h1 h2 ⊢
        rw [hclen] at h2
        rw [hoff] at this ⊢
        rw [hb4 _ (by omega)]
        rw [r3, hoff] at this
        have h5 : ¬ (64 * tc + i = 64 * p.ro + j) := by omega
        simpa [h5] using this
      · show ∀ c ∈ bset m4 top.cand, _
        rw [hC4]; exact hlv1
    refine ⟨_, _, _, _, rfl, ⟨?_, ?_, ?_, ?_, ?_, ?_, ?_⟩, ?_, ?_⟩
    · conv_lhs => rw [I.same]
    · exact I.upd.scratch (by omega) m4 _ hl4 (fun a ha => by
        rw [hb4 a (by omega)]
        have h4 : ¬ (a = 64 * tc + j) := by omega
        have h5 : ¬ (a = 64 * p.ro + j) := by have := g.hrc; omega
        simp [h4, h5])
    · simp only [List.length_cons]
      rw [show rest.length + 1 + 1 + 1 = rest.length + 3 from rfl]
      omega
    · show Lv H0 p m4 (_ :: { top with startAt := j + 1 } :: rest)
      rw [Lv]
      refine ⟨l1, ?_, hj, hjid, hjt', by simp, by simp only; omega, ?_, ?_, fun _ => hjw, hLvtop⟩
      · simp only [List.length_cons]; rw [hnc]
      · intro i h1 h2
        simp only at h1 h2 ⊢
        rw [hb4n i h2]
        have := hpad1 i (by rw [hclen]; exact h1) (by rw [hclen]; exact h2)
        rw [hoff] at this
        rw [this]; simp
      · show ∀ c ∈ bset m4 ⟨nc, (H0.g.V p.r).N⟩, _
        rw [hCn]
        intro c hc
        obtain ⟨hc1, hc2⟩ := hADsub c hc
        have h1 := hgt1 c hc1
        have h2 := hlv1 c hc1
        refine ⟨by simp only; omega, h2.2.1, ?_, ?_⟩
        · simp only [List.map_cons, List.mem_cons, not_or]
          have h3 := h2.2.2.1
          simp only [List.map_cons, List.mem_cons, not_or] at h3
          exact ⟨by omega, h3⟩
        · intro t ht
          rcases List.mem_cons.1 ht with rfl | ht
          · exact hc2
          · rcases List.mem_cons.1 ht with rfl | ht
            · exact h2.2.2.2 { top with startAt := j + 1 } (by simp)
            · exact h2.2.2.2 t (by simp [ht])
    · show Ordd m4 (_ :: { top with startAt := j + 1 } :: rest)
      refine ⟨?_, Ordd_low (s := top) rfl hbl4 I.ord⟩
      show j ∉ bset m4 top.cand
      rw [hC4, hC1]; simp
    · intro i hi
      show bitAt m4 _ = _
      rw [hb4 _ (by have := g.hrc; omega), I.res i hi]
      have h4 : ¬ (64 * p.ro + i = 64 * tc + j) := by omega
      simp only [h4, decide_false, Bool.not_false, Bool.true_and]
      rw [← Bool.decide_or]
      apply decide_eq_decide.2
      simp only [List.map_cons, List.mem_cons]
      constructor
      · rintro (h | h)
        · left; omega
        · right; exact h
      · rintro (h | h)
        · left; omega
        · right; exact h
    · intro a ha
      show bitAt m4 a = false
      exact hb4z a (by simp only at ha; omega)
    · show nodes m4 (_ :: { top with startAt := j + 1 } :: rest) < _
      simp only [nodes]
      rw [d3, hC4, hCn]
      generalize (bset m1 top.cand).card = x at *
      generalize (bset H.g.eb top.cand).card = y at *
      generalize (H0.adjC p.r j (bset m1 top.cand)).card = z at *
      have e1 : 2 ^ (z + 1) ≤ 2 ^ (x + 1) :=
        Nat.pow_le_pow_right (by decide) (by omega)
      have e3 : 2 ^ (x + 1) + 2 ^ (x + 1) ≤ 2 ^ (y + 1) := by
        have : 2 ^ (x + 1) + 2 ^ (x + 1) = 2 ^ (x + 2) := by rw [Nat.pow_succ 2 (x + 1)]; omega
        rw [this]
        exact Nat.pow_le_pow_right (by decide) (by omega)
      have e4 : 0 < 2 ^ (x + 1) := Nat.pos_of_ne_zero (by simp)
      have e5 : 0 < 2 ^ (z + 1) := Nat.pos_of_ne_zero (by simp)
      clear * - e1 e3 e4 e5
      omega
    · intro C
      show PendS H0 p m4 C (_ :: { top with startAt := j + 1 } :: rest) → _
      rw [PendS, PendS, PendS]
      rw [PendS_congr C hbl4]
      simp only [List.map_cons]
      rw [hC4, hCn]
      rintro (⟨X, x1, x2, x3, x4⟩ | ⟨X, x1, x2, x3, x4⟩ | hp)
      · left
        refine ⟨insert j X, ?_, by simp, ?_, ?_⟩
        · intro x hx
          rcases Finset.mem_insert.1 hx with rfl | hx
          · exact hjC
          · have := (Finset.mem_filter.1 (x1 hx)).1
            rw [hC1] at this
            exact Finset.mem_of_mem_erase this
        · intro a ha b hb
          rcases Finset.mem_insert.1 ha with ha | ha <;> rcases Finset.mem_insert.1 hb with hb | hb
          · rw [ha, hb]; exact A_refl w g.hr hj
          · rw [ha]; exact (Finset.mem_filter.1 (x1 hb)).2
          · rw [hb]
            exact A_symm w g.hr hj (Finset.mem_filter.1 (x1 ha)).2
          · exact x3 a ha b hb
        · rw [x4]
          ext x
          simp only [Finset.mem_union, List.mem_toFinset, List.mem_cons, Finset.mem_insert]
          constructor
          · rintro ((h | h) | h)
            · exact Or.inr (Or.inl h)
            · exact Or.inl h
            · exact Or.inr (Or.inr h)
          · rintro (h | h | h)
            · exact Or.inl (Or.inr h)
            · exact Or.inl (Or.inl h)
            · exact Or.inr h
      · left
        exact ⟨X, (hXs X x1).1, x2, x3, x4⟩
      · exact Or.inr hp

end AW

end NWG

end CM
