import Verif.Lemmas.AWScan
import Verif.Lemmas.NWStack

/-! # Arbitrary arithmetic: `NWStackDFS::process_vertex` (nw_dfs.cpp:25-193), the inner loop -/

namespace CM

open Graph

namespace NWG

namespace AW

set_option linter.unusedSectionVars false

variable {R : Type} [Zero R] [Add R] [Sub R] [NatCast R] [LT R] [LE R] [DecidableLT R]
  [DecidableLE R]

section

variable (H0 : NWG R) (p : SPar)

/-- The loop invariant of `NWStackDFS::process_vertex`. -/
structure SInv (H : NWG R) (states : List (WState R)) : Prop where
  upd : WUpd p.r p.B H0 H
  sc : H.g.searchCur = p.B + (states.length + 1) * p.req H0.g
  lv : Lv H0 p H.g.eb states
  res : ∀ i, i < 64 * p.req H0.g →
    bitAt H.g.eb (64 * p.ro + i) = decide (i ∈ states.map WState.id)
  zero : ∀ a, 64 * H.g.searchCur ≤ a → bitAt H.g.eb a = false

end

variable {H0 : NWG R} {p : SPar}

theorem Lv_congr (m m' : Mem) : ∀ states : List (WState R),
    (∀ l, l < states.length → ∀ i, i < 64 * p.req H0.g →
      bitAt m' (64 * candOff H0.g p l + i) = bitAt m (64 * candOff H0.g p l + i)) →
    Lv H0 p m states → Lv H0 p m' states ∧
      nodes m' states = nodes m states := by
  intro states
  induction states with
  | nil => intro _ _; exact ⟨trivial, rfl⟩
  | cons s rest ih =>
    intro h hl
    unfold Lv at hl ⊢
    obtain ⟨l1, l2, l3, l4, l5, l6, l7, l8, l9, l10, l11⟩ := hl
    obtain ⟨i1, i3⟩ := ih (fun l hl' => h l (by simp; omega)) l11
    have hb : bset m' s.cand = bset m s.cand := by
      apply bset_congr rfl
      intro i hi
      rw [l2] at hi ⊢
      simp only at hi ⊢
      exact h rest.length (by simp) i (by
        have := @dlen_le (H0.g.V p.r).N; simp only [SPar.req]; omega)
    have hp : PadZero m' s.cand := by
      intro i h1 h2
      have := l8 i h1 h2
      rw [l2] at h1 h2 this ⊢
      simp only at h1 h2 this ⊢
      rw [h rest.length (by simp) i h2]; exact this
    refine ⟨⟨l1, l2, l3, l4, l5, l6, l7, hp, by rw [hb]; exact l9, l10, i1⟩, ?_⟩
    · unfold nodes; rw [hb, i3]

theorem stackFor_spec (W : WGood H0 p) {H : NWG R} {top : WState R} {rest : List (WState R)}
    {ws : List R} {cw : R} (hwl : (H0.g.V p.r).N ≤ ws.length) (I : SInv H0 p H (top :: rest))
    (hst : top.startAt < (H0.g.V p.r).N → top.startAt ∈ bset H.g.eb top.cand) :
    (∃ H' top', stackFor p.r (H0.g.V p.r) (p.req H0.g) ws cw (H, top)
        = .ok (.inl (H', top')) ∧ SInv H0 p H' (top' :: rest) ∧ top'.id = top.id ∧
        (top'.startAt < (H0.g.V p.r).N → top'.startAt ∈ bset H'.g.eb top'.cand) ∧
        (bset H'.g.eb top'.cand).card < (bset H.g.eb top.cand).card ∧
        nodes H'.g.eb rest = nodes H.g.eb rest) ∨
    (∃ H' top' new cw', stackFor p.r (H0.g.V p.r) (p.req H0.g) ws cw (H, top)
        = .ok (.inr (.pushed H' top' new cw')) ∧ SInv H0 p H' (new :: top' :: rest) ∧
        nodes H'.g.eb (new :: top' :: rest) < nodes H.g.eb (top :: rest)) ∨
    (stackFor p.r (H0.g.V p.r) (p.req H0.g) ws cw (H, top)
        = .ok (.inr (.done H top (H0.g.V p.r).N)) ∧ bset H.g.eb top.cand = ∅) := by
  have g := W.g
  have w := g.wf
  have wH := I.upd.frame.frame.wf w
  have hrH : p.r < H.g.nVert := by rw [I.upd.frame.frame.nVert]; exact g.hr
  have hlv := I.lv
  have hlenL := Lv_len W I.lv
  simp only [List.length_cons] at hlenL
  unfold Lv at hlv
  obtain ⟨l1, l2, l3, l4, l5, l6, l7, l8, l9, l10, l11⟩ := hlv
  have hreqd : p.req H0.g = dlen (H0.g.V p.r).N := rfl
  have hdl := @dlen_le (H0.g.V p.r).N
  have hebl := I.upd.frame.frame.ebl
  have hroom := g.room
  have hce := candOff_end g rest.length
  have hcge := candOff_ge g rest.length
  have hlen1 : (rest.length + 2) * p.req H0.g ≤ (p.L + 2) * p.req H0.g :=
    Nat.mul_le_mul_right _ (by omega)
  have hebo := w.eboEnd p.r g.hr
  have hBB := g.hB
  have hreq : 0 < p.req H0.g := dlen_pos (N_pos w g.hr)
  have hNlt := N_lt w g.hr
  have hNpos := N_pos w g.hr
  unfold stackFor
  simp only
  by_cases hj : top.startAt < (H0.g.V p.r).N
  swap
  · -- no candidate left
    right; right
    rw [if_neg hj]
    have : top.startAt = (H0.g.V p.r).N := by omega
    refine ⟨by rw [this], ?_⟩
    rw [Finset.eq_empty_iff_forall_notMem]
    intro c hc
    have h1 := (l9 c hc).1
    have h2 := (mem_bset.1 hc).1
    rw [l2] at h2
    simp only at h2
    omega
  rw [if_pos hj]
  have hjC := hst hj
  generalize hjdef : top.startAt = j at hj hjC
  -- reset j
  have hoff : top.cand.off = candOff H0.g p rest.length := by rw [l2]
  have hclen : top.cand.len = (H0.g.V p.r).N := by rw [l2]
  have hroff : top.res.off = p.ro := by rw [l1]
  have hrlen : top.res.len = (H0.g.V p.r).N := by rw [l1]
  obtain ⟨m1, r1, r2, r3⟩ := top.cand.reset_spec H.g.eb j
    (by rw [hoff]; have := div_lt_dlen hj; omega)
  rw [r1, ok_bind]
  have hpad1 : PadZero m1 top.cand := by
    intro i h1 h2; rw [r3, l8 i h1 h2]; simp
  have hC1 : bset m1 top.cand = (bset H.g.eb top.cand).erase j := by
    ext x
    simp only [Finset.mem_erase, mem_bset, r3]
    simp only [Bool.and_eq_true, Bool.not_eq_true', decide_eq_false_iff_not]
    constructor
    · rintro ⟨h1, h2, h3⟩; exact ⟨by omega, h1, h3⟩
    · rintro ⟨h1, h2, h3⟩; exact ⟨h2, by omega, h3⟩
  have hin1 : top.cand.off + dlen top.cand.len ≤ m1.length := by
    rw [hoff, hclen, r2]; omega
  obtain ⟨sa, n1, n2, n3, n4, n5⟩ := top.cand.next_spec m1 (j + 1) hin1 hpad1
    (by rw [hclen]; omega)
  rw [n1, ok_bind]
  rw [hclen] at n3 n4
  have hjw := (l9 j hjC).2.1
  rw [rd_getD (0 : R) (show j < ws.length by omega), ok_bind]
  generalize ws.getD j 0 = wj
  rw [top.cand.count_pad m1 (by omega) hin1 hpad1, ok_bind]
  simp only
  have F1 : WFrame H0 ({ H with g := { H.g with eb := m1 } } : NWG R) :=
    I.upd.frame.trans (WFrame.mk' H m1 H.g.searchCur H.limit H.curMax H.curLoc r2)
  have w1 : WF ({ H with g := { H.g with eb := m1 } } : NWG R).g := F1.frame.wf w
  have hnbr : ({ H.g with eb := m1 } : Graph).nbr (H0.g.V p.r) j = .ok (H0.g.e p.r j) := by
    unfold nbr e
    rw [show ({ H.g with eb := m1 } : Graph).el = H0.g.el from I.upd.frame.frame.el]
    exact rd_getD _ (by have := w.inEl p.r g.hr; omega)
  rw [hnbr, ok_bind]
  have hvert := e_lt w g.hr hj
  rw [show ({ H.g with eb := m1 } : Graph).vtx (H0.g.e p.r j) =
    .ok (({ H with g := { H.g with eb := m1 } } : NWG R).g.V (H0.g.e p.r j)) from
    vtx_ok w1 (by rw [F1.frame.nVert]; exact hvert), ok_bind]
  have hgt1 : ∀ k ∈ bset m1 top.cand, j < k := by
    intro k hk
    rw [hC1, Finset.mem_erase] at hk
    have := (l9 k hk.2).1
    omega
  obtain ⟨rm, cp, s1, s3⟩ := stackScan_spec (H := { H with g := { H.g with eb := m1 } }) w1
    (r := p.r) (j := j) (by rw [F1.frame.nVert]; exact g.hr) (by rw [F1.V]; exact hj)
    (cand := top.cand) (eb := m1) (ws := ws) (k0 := sa)
    (by rw [F1.V]; exact hclen) hin1 hpad1 hgt1 (by rw [F1.V]; exact n3)
    (by rw [F1.V]; exact n4) (fun k hk => n5 k hk (hgt1 k hk))
    (by rw [F1.V]; exact hwl)
  rw [F1.frame.e, F1.V p.r] at s1
  rw [s1, ok_bind]
  have hAeq : ∀ x, ({ H with g := { H.g with eb := m1 } } : NWG R).g.A p.r j x ↔
      H0.g.A p.r j x := by
    intro x; unfold A; rw [F1.frame.nadj, F1.frame.e, F1.frame.e]
  have hadj : ({ H with g := { H.g with eb := m1 } } : NWG R).adjC p.r j (bset m1 top.cand)
      = H0.adjC p.r j (bset m1 top.cand) := by
    unfold adjC; apply Finset.filter_congr; intro x _; exact hAeq x
  rw [hadj]
  simp only [hAeq] at s3
  -- the lower levels are untouched by the reset
  have hlow : ∀ l, l < rest.length → ∀ i, i < 64 * p.req H0.g →
      bitAt m1 (64 * candOff H0.g p l + i) = bitAt H.g.eb (64 * candOff H0.g p l + i) := by
    intro l hl i hi
    have := candOff_lt g hl
    rw [r3, hoff]
    have : ¬ (64 * candOff H0.g p l + i = 64 * candOff H0.g p rest.length + j) := by omega
    simp [this]
  obtain ⟨c1, c3⟩ := Lv_congr H.g.eb m1 rest hlow l11
  have hcard : (bset m1 top.cand).card < (bset H.g.eb top.cand).card := by
    rw [hC1]; exact Finset.card_erase_lt_of_mem hjC
  generalize hpt : top.pot - wj = pt
  have hlv1 : ∀ x ∈ bset m1 top.cand, sa ≤ x ∧ x ∈ H0.wCand p.r ∧
      x ∉ (({ top with startAt := sa, pot := pt } : WState R) :: rest).map WState.id ∧
      ∀ t ∈ ({ top with startAt := sa, pot := pt } : WState R) :: rest, H0.g.A p.r t.id x := by
    intro x hx
    have hx' : x ∈ bset H.g.eb top.cand := by
      rw [hC1] at hx; exact Finset.mem_of_mem_erase hx
    refine ⟨n5 x hx (hgt1 x hx), (l9 x hx').2.1, (l9 x hx').2.2.1, ?_⟩
    intro t ht
    rcases List.mem_cons.1 ht with ht | ht
    · rw [ht]; exact (l9 x hx').2.2.2 top (by simp)
    · exact (l9 x hx').2.2.2 t (by simp [ht])
  have hroco := ro_candOff g rest.length
  generalize hadjdef : H0.adjC p.r j (bset m1 top.cand) = AD at *
  by_cases hpot : cp + cw + wj > H.curMax
  swap
  · -- pruned
    left
    rw [if_neg hpot]
    refine ⟨_, _, rfl, ⟨?_, I.sc, ?_, ?_, ?_⟩, rfl, n4, hcard, c3⟩
    · exact I.upd.scratch (by omega) m1 H.g.searchCur r2 (fun a ha => by
        rw [r3, hoff]
        have : ¬ (a = 64 * candOff H0.g p rest.length + j) := by omega
        simp [this])
    · unfold Lv
      exact ⟨l1, l2, l3, l4, l5, l6, n3, hpad1, hlv1, l10, c1⟩
    · intro i hi
      show bitAt m1 _ = _
      have h1 := I.res i hi
      rw [r3, hoff]
      have : ¬ (64 * p.ro + i = 64 * candOff H0.g p rest.length + j) := by omega
      simp only [this, decide_false, Bool.not_false, Bool.true_and]
      exact h1
    · intro a ha
      show bitAt m1 a = false
      rw [r3, I.zero a ha]; simp
  rw [if_pos hpot]
  by_cases hl0 : AD.card = 0
  · -- record
    left
    rw [if_pos hl0]
    obtain ⟨m2, t1, t2, t3⟩ := GBits.set_spec top.res m1 j (by
      rw [hroff]
      have := div_lt_dlen hj
      have := g.hrc
      have h3 : 2 * p.req H0.g ≤ (p.L + 2) * p.req H0.g := Nat.mul_le_mul_right _ (by omega)
      simp only [SPar.req] at *
      omega)
    rw [t1, ok_bind]
    rw [hroff] at t3
    have hjid : j ∉ (top :: rest).map WState.id := (l9 j hjC).2.2.1
    have hres2 : ∀ i, i < 64 * p.req H0.g → bitAt m2 (64 * p.ro + i)
        = decide (i = j ∨ i ∈ (top :: rest).map WState.id) := by
      intro i hi
      rw [t3, r3, hoff, I.res i hi]
      have : ¬ (64 * p.ro + i = 64 * candOff H0.g p rest.length + j) := by omega
      simp only [this, decide_false, Bool.not_false, Bool.true_and]
      rw [← Bool.decide_or]
      apply decide_eq_decide.2
      constructor
      · rintro (h | h)
        · left; omega
        · right; exact h
      · rintro (h | h)
        · left; omega
        · right; exact h
    obtain ⟨f1, f2, f3, f4⟩ := Lv_facts g H.g.eb (top :: rest) I.lv
    have hbs : bset m2 top.res = insert j ((top :: rest).map WState.id).toFinset := by
      ext x
      rw [mem_bset, Finset.mem_insert, List.mem_toFinset, hroff, hrlen]
      constructor
      · rintro ⟨h1, h2⟩
        rw [hres2 x (by omega)] at h2
        simpa using h2
      · intro h
        have hx : x < (H0.g.V p.r).N := by
          rcases h with h | h
          · omega
          · obtain ⟨t, ht, rfl⟩ := List.mem_map.1 h
            exact f2 t ht
        refine ⟨hx, ?_⟩
        rw [hres2 x (by omega)]
        simpa using h
    have U2 : WUpd p.r p.B H0 { H with g := { H.g with eb := m2 } } :=
      I.upd.scratch (by omega) m2 H.g.searchCur (t2.trans r2) (fun a ha => by
        rw [t3, r3, hoff]
        have h1 : ¬ (a = 64 * candOff H0.g p rest.length + j) := by omega
        have h2 : ¬ (a = 64 * p.ro + j) := by have := g.hrc; omega
        simp [h1, h2])
    obtain ⟨H3, u1, u2, u3, u4, u5⟩ := saveClique_spec (res := top.res)
      (size := cp + cw + wj) w W.l g.hr U2 g.hB hrlen
      (by have := g.hrc; rw [hroff]; omega)
      (by
        rw [hroff]
        show _ ≤ List.length m2
        have := g.hrc
        have h3 : 2 * p.req H0.g ≤ (p.L + 2) * p.req H0.g := Nat.mul_le_mul_right _ (by omega)
        simp only [SPar.req] at *
        omega)
      (by
        intro i h1 h2
        show bitAt m2 _ = false
        rw [hrlen] at h1 h2
        rw [hroff, hres2 i h2]
        simp only [decide_eq_false_iff_not, not_or]
        refine ⟨by omega, fun h => ?_⟩
        obtain ⟨t, ht, rfl⟩ := List.mem_map.1 h
        have := f2 t ht; omega)
      (by
        show IsCl H0.g p.r (bset m2 _)
        rw [hbs]
        refine ⟨?_, ?_, ?_⟩
        · rw [Finset.mem_insert, List.mem_toFinset]; exact Or.inr (f3 (by simp))
        · intro i hi
          rw [Finset.mem_insert, List.mem_toFinset] at hi
          rcases hi with h | h
          · omega
          · obtain ⟨t, ht, rfl⟩ := List.mem_map.1 h
            exact f2 t ht
        · intro x hx y hy
          rw [Finset.mem_insert, List.mem_toFinset] at hx hy
          have hjt := (l9 j hjC).2.2.2
          rcases hx with hx | hx <;> rcases hy with hy | hy
          · rw [hx, hy]; exact A_refl w g.hr hj
          · obtain ⟨t, ht, rfl⟩ := List.mem_map.1 hy
            rw [hx]; exact A_symm w g.hr (f2 t ht) (hjt t ht)
          · obtain ⟨t, ht, rfl⟩ := List.mem_map.1 hx
            rw [hy]; exact hjt t ht
          · obtain ⟨t, ht, rfl⟩ := List.mem_map.1 hx
            obtain ⟨t', ht', rfl⟩ := List.mem_map.1 hy
            exact f4 t ht t' ht')
    rw [u1, ok_bind]
    have hG3l : H3.g.eb.length = H0.g.eb.length := u2.frame.frame.ebl
    obtain ⟨m4, v1, v2, v3⟩ := GBits.reset_spec top.res H3.g.eb j (by
      rw [hroff]
      have := div_lt_dlen hj
      have := g.hrc
      have h3 : 2 * p.req H0.g ≤ (p.L + 2) * p.req H0.g := Nat.mul_le_mul_right _ (by omega)
      simp only [SPar.req] at *
      omega)
    rw [v1, ok_bind]
    rw [hroff] at v3
    -- memory above B after all this
    have hm4 : ∀ a, 64 * p.B ≤ a → bitAt m4 a =
        (!decide (a = 64 * candOff H0.g p rest.length + j) && bitAt H.g.eb a) := by
      intro a ha
      rw [v3, u5 a ha]
      show (_ && bitAt m2 a) = _
      rw [t3, r3, hoff]
      by_cases h1 : a = 64 * p.ro + j
      · have hne : ¬ (64 * p.ro + j = 64 * candOff H0.g p rest.length + j) := by
          omega
        have hz := I.res j (by omega)
        rw [decide_eq_false hjid] at hz
        rw [h1]
        simp [hz]
      · simp [h1]
    have hC4 : bset m4 top.cand = bset m1 top.cand := by
      apply bset_congr rfl
      intro i hi
      rw [hm4 _ (by rw [hoff]; omega), r3, hoff]
    have hlow4 : ∀ l, l < rest.length → ∀ i, i < 64 * p.req H0.g →
        bitAt m4 (64 * candOff H0.g p l + i) = bitAt H.g.eb (64 * candOff H0.g p l + i) := by
      intro l hl i hi
      have h1 := candOff_lt g hl
      have h2 := candOff_ge g l
      rw [hm4 _ (by omega)]
      have : ¬ (64 * candOff H0.g p l + i = 64 * candOff H0.g p rest.length + j) := by omega
      simp [this]
    have hlc := Lv_congr H.g.eb m4 rest hlow4 l11
    refine ⟨_, _, rfl, ⟨?_, ?_, ?_, ?_, ?_⟩, rfl, ?_, ?_, hlc.2⟩
    · exact u2.scratch (by omega) m4 H3.g.searchCur v2 (fun a ha => by
        rw [v3]
        have h2 : ¬ (a = 64 * p.ro + j) := by have := g.hrc; omega
        simp [h2])
    · show H3.g.searchCur = _
      rw [u4]; exact I.sc
    · show Lv H0 p m4 _
      unfold Lv
      refine ⟨l1, l2, l3, l4, l5, l6, n3, ?_, ?_, l10, hlc.1⟩
      · intro i h1 h2
        have := hpad1 i h1 h2
        rw [r3] at this
        rw [hm4 _ (by rw [hoff]; omega), ← hoff]; exact this
      · show ∀ c ∈ bset m4 top.cand, _
        rw [hC4]; exact hlv1
    · intro i hi
      show bitAt m4 _ = _
      rw [hm4 _ (by have := g.hrc; omega), I.res i hi]
      have : ¬ (64 * p.ro + i = 64 * candOff H0.g p rest.length + j) := by omega
      simp [this]
    · intro a ha
      show bitAt m4 a = false
      have ha' : 64 * H.g.searchCur ≤ a := by
        have h1 : 64 * H3.g.searchCur ≤ a := ha
        rwa [u4] at h1
      rw [hm4 a (by rw [I.sc] at ha'; omega), I.zero a ha']; simp
    · show sa < _ → sa ∈ bset m4 top.cand
      rw [hC4]; exact n4
    · show (bset m4 top.cand).card < _
      rw [hC4]; exact hcard
  · -- push
    right; left
    rw [if_neg hl0]
    have hsc := I.sc
    simp only [List.length_cons] at hsc
    have hjid : j ∉ (top :: rest).map WState.id := (l9 j hjC).2.2.1
    have hjt := (l9 j hjC).2.2.2
    have hL : rest.length + 2 ≤ p.L := by
      obtain ⟨f1, f2, f3, f4⟩ := Lv_facts g H.g.eb (top :: rest) I.lv
      have hcl : IsCl H0.g p.r (insert j ((top :: rest).map WState.id).toFinset) := by
        refine ⟨?_, ?_, ?_⟩
        · rw [Finset.mem_insert, List.mem_toFinset]; exact Or.inr (f3 (by simp))
        · intro i hi
          rw [Finset.mem_insert, List.mem_toFinset] at hi
          rcases hi with h | h
          · omega
          · obtain ⟨t, ht, rfl⟩ := List.mem_map.1 h
            exact f2 t ht
        · intro x hx y hy
          rw [Finset.mem_insert, List.mem_toFinset] at hx hy
          rcases hx with hx | hx <;> rcases hy with hy | hy
          · rw [hx, hy]; exact A_refl w g.hr hj
          · obtain ⟨t, ht, rfl⟩ := List.mem_map.1 hy
            rw [hx]; exact A_symm w g.hr (f2 t ht) (hjt t ht)
          · obtain ⟨t, ht, rfl⟩ := List.mem_map.1 hx
            rw [hy]; exact hjt t ht
          · obtain ⟨t, ht, rfl⟩ := List.mem_map.1 hx
            obtain ⟨t', ht', rfl⟩ := List.mem_map.1 hy
            exact f4 t ht t' ht'
      have := W.hL _ hcl
      rw [Finset.card_insert_of_notMem (by rw [List.mem_toFinset]; exact hjid),
          List.toFinset_card_of_nodup f1] at this
      simp only [List.length_map, List.length_cons] at this
      omega
    have hlen3 : (rest.length + 3) * p.req H0.g ≤ (p.L + 2) * p.req H0.g :=
      Nat.mul_le_mul_right _ (by omega)
    have hx3 : (rest.length + 3) * p.req H0.g = (rest.length + 2) * p.req H0.g + p.req H0.g := by
      rw [show rest.length + 3 = (rest.length + 2) + 1 from rfl, Nat.succ_mul]
    have hebb := w.eblen
    have hsc2 : (rest.length + 1 + 1) * p.req H0.g = (rest.length + 2) * p.req H0.g := rfl
    rw [hsc2] at hsc
    rw [loadMemory_eq (G := { H.g with eb := m1 }) (p.req H0.g)
      (by show H.g.searchCur + _ < _; omega)]
    simp only
    have hnewoff : H.g.searchCur = candOff H0.g p (rest.length + 1) := by
      rw [hsc]; unfold candOff; rw [if_neg (by omega)]
    have hclt := candOff_lt g (Nat.lt_succ_self rest.length)
    simp only [Nat.succ_eq_add_one] at hclt
    have hroN := ro_candOff g (rest.length + 1)
    have hlenm1 : m1.length = H0.g.eb.length := r2.trans hebl
    obtain ⟨m2, t1, t2, t3⟩ := GBits.copyData_spec ⟨H.g.searchCur, top.cand.len⟩ top.cand.off m1
      (by simp only; rw [hclen]; simp only [SPar.req] at *; omega)
      (by simp only; exact hin1)
      (by simp only; rw [hoff, hclen, hnewoff]; simp only [SPar.req] at *; omega)
    have hcf : GBits.copyFrom top.cand H.g.searchCur m1 =
        .ok (⟨candOff H0.g p (rest.length + 1), (H0.g.V p.r).N⟩, m2) := by
      unfold GBits.copyFrom
      simp only
      rw [t1, ok_bind, hclen, hnewoff]
    rw [hcf, ok_bind]
    simp only
    obtain ⟨m3, v1, v2, v3⟩ := GBits.set_spec top.res m2 j (by
      rw [hroff]
      have := div_lt_dlen hj
      have := g.hrc
      have h3 : 2 * p.req H0.g ≤ (p.L + 2) * p.req H0.g := Nat.mul_le_mul_right _ (by omega)
      simp only [SPar.req] at *
      omega)
    rw [v1, ok_bind]
    obtain ⟨m4, y1, y2, y3⟩ := resets_spec ⟨candOff H0.g p (rest.length + 1), (H0.g.V p.r).N⟩ rm m3
      (by
        intro k hk
        have h1 := (mem_bset.1 ((s3 k).1 hk).1).1
        rw [hclen] at h1
        have := div_lt_dlen h1
        simp only [SPar.req] at *
        omega)
    rw [y1, ok_bind]
    simp only [hclen, hnewoff, hroff] at t3 v3 y3
    have hronc : p.ro + p.req H0.g ≤ candOff H0.g p (rest.length + 1) := by
      have := g.hrc
      have h3 : 2 * p.req H0.g ≤ (rest.length + 2) * p.req H0.g := Nat.mul_le_mul_right _ (by omega)
      rw [← hnewoff, hsc]; omega
    generalize hnc : candOff H0.g p (rest.length + 1) = nc at *
    generalize htc : candOff H0.g p rest.length = tc at *
    have hl4 : m4.length = H.g.eb.length := by rw [y2, v2, t2, r2]
    -- bits of m4
    have hb4 : ∀ a, a < 64 * nc → bitAt m4 a =
        (decide (a = 64 * p.ro + j) || (!decide (a = 64 * tc + j) && bitAt H.g.eb a)) := by
      intro a ha
      have h1 : ¬ (64 * nc ≤ a ∧ a - 64 * nc ∈ rm) := by omega
      have h2 : ¬ (64 * nc ≤ a ∧ a < 64 * (nc + dlen (H0.g.V p.r).N)) := by omega
      rw [y3, v3, t3, if_neg h2, r3, hoff]
      simp [h1]
    have hb4n : ∀ i, i < 64 * p.req H0.g → bitAt m4 (64 * nc + i) =
        (!decide (i ∈ rm) && bitAt m1 (64 * tc + i)) := by
      intro i hi
      simp only [SPar.req] at *
      have h1 : (64 * nc ≤ 64 * nc + i ∧ 64 * nc + i < 64 * (nc + dlen (H0.g.V p.r).N)) := by
        omega
      have h2 : ¬ (64 * nc + i = 64 * p.ro + j) := by omega
      have h3 : 64 * nc + i - 64 * nc = i := by omega
      rw [y3, v3, t3, if_pos h1, hoff, h3]
      have h4 : (64 * nc ≤ 64 * nc + i) := by omega
      simp only [h2, h4, decide_false, Bool.false_or, true_and]
      rw [Nat.add_comm i]
    have hb4z : ∀ a, 64 * (nc + p.req H0.g) ≤ a → bitAt m4 a = false := by
      intro a ha
      simp only [SPar.req] at *
      have h2 : ¬ (64 * nc ≤ a ∧ a < 64 * (nc + dlen (H0.g.V p.r).N)) := by omega
      have h4 : ¬ (a = 64 * p.ro + j) := by omega
      rw [y3, v3, t3, if_neg h2, r3, I.zero a (by omega)]
      simp [h4]
    have hCn : bset m4 ⟨nc, (H0.g.V p.r).N⟩ = AD := by
      rw [← hadjdef]
      unfold adjC
      ext x
      rw [mem_bset, Finset.mem_filter, mem_bset, hoff, hclen]
      simp only
      constructor
      · rintro ⟨h1, h2⟩
        rw [hb4n x (by omega)] at h2
        simp only [Bool.and_eq_true, Bool.not_eq_true', decide_eq_false_iff_not] at h2
        refine ⟨⟨h1, h2.2⟩, ?_⟩
        by_contra hA
        refine h2.1 ((s3 x).2 ⟨?_, hA⟩)
        rw [mem_bset, hoff, hclen]; exact ⟨h1, h2.2⟩
      · rintro ⟨⟨h1, h2⟩, h3⟩
        refine ⟨h1, ?_⟩
        rw [hb4n x (by omega), h2]
        have : x ∉ rm := fun h => ((s3 x).1 h).2 h3
        simp [this]
    have hADsub : ∀ x ∈ AD, x ∈ bset m1 top.cand ∧ H0.g.A p.r j x := by
      intro x hx; rw [← hadjdef] at hx; exact Finset.mem_filter.1 hx
    have hADcard : AD.card ≤ (bset m1 top.cand).card :=
      Finset.card_le_card fun x hx => (hADsub x hx).1
    have hC4 : bset m4 top.cand = bset m1 top.cand := by
      apply bset_congr rfl
      intro i hi
      rw [hclen] at hi
      rw [hoff, hb4 _ (by omega), r3, hoff]
      have : ¬ (64 * tc + i = 64 * p.ro + j) := by omega
      simp [this]
    have hlow4 : ∀ l, l < rest.length → ∀ i, i < 64 * p.req H0.g →
        bitAt m4 (64 * candOff H0.g p l + i) = bitAt H.g.eb (64 * candOff H0.g p l + i) := by
      intro l hl i hi
      have h1 := candOff_lt g hl
      have h3 := ro_candOff g l
      rw [hb4 _ (by omega)]
      have h4 : ¬ (64 * candOff H0.g p l + i = 64 * tc + j) := by omega
      have h5 : ¬ (64 * candOff H0.g p l + i = 64 * p.ro + j) := by omega
      simp [h4, h5]
    obtain ⟨d1, d3⟩ := Lv_congr H.g.eb m4 rest hlow4 l11
    have hjt' : ∀ t ∈ ({ top with startAt := sa, pot := pt } : WState R) :: rest,
        H0.g.A p.r t.id j := by
      intro t ht
      rcases List.mem_cons.1 ht with ht | ht
      · rw [ht]; exact hjt top (by simp)
      · exact hjt t (by simp [ht])
    have hLvtop : Lv H0 p m4 ({ top with startAt := sa, pot := pt } :: rest) := by
      unfold Lv
      refine ⟨l1, by rw [htc]; exact l2, l3, l4, l5, l6, n3, ?_, ?_, l10, d1⟩
      · intro i h1 h2
        have := hpad1 i h1 h2
        simp only at h1 h2 ⊢
        rw [hclen] at h2
        rw [hoff] at this ⊢
        rw [hb4 _ (by omega)]
        rw [r3, hoff] at this
        have h5 : ¬ (64 * tc + i = 64 * p.ro + j) := by omega
        simpa [h5] using this
      · show ∀ c ∈ bset m4 top.cand, _
        rw [hC4]; exact hlv1
    refine ⟨_, _, _, _, rfl, ⟨?_, ?_, ?_, ?_, ?_⟩, ?_⟩
    · exact I.upd.scratch (by omega) m4 _ hl4 (fun a ha => by
        rw [hb4 a (by omega)]
        have h4 : ¬ (a = 64 * tc + j) := by omega
        have h5 : ¬ (a = 64 * p.ro + j) := by have := g.hrc; omega
        simp [h4, h5])
    · simp only [List.length_cons]
      rw [show rest.length + 1 + 1 + 1 = rest.length + 3 from rfl]
      omega
    · show Lv H0 p m4 (_ :: { top with startAt := sa, pot := pt } :: rest)
      rw [Lv]
      refine ⟨l1, ?_, hj, hjid, hjt', by simp, by simp only; omega, ?_, ?_, fun _ => hjw, hLvtop⟩
      · simp only [List.length_cons]; rw [hnc]
      · intro i h1 h2
        simp only at h1 h2 ⊢
        rw [hb4n i h2]
        have := hpad1 i (by rw [hclen]; exact h1) (by rw [hclen]; exact h2)
        rw [hoff] at this
        rw [this]; simp
      · show ∀ c ∈ bset m4 ⟨nc, (H0.g.V p.r).N⟩, _
        rw [hCn]
        intro c hc
        obtain ⟨hc1, hc2⟩ := hADsub c hc
        have h1 := hgt1 c hc1
        have h2 := hlv1 c hc1
        refine ⟨by simp only; omega, h2.2.1, ?_, ?_⟩
        · simp only [List.map_cons, List.mem_cons, not_or]
          have h3 := h2.2.2.1
          simp only [List.map_cons, List.mem_cons, not_or] at h3
          exact ⟨by omega, h3⟩
        · intro t ht
          rcases List.mem_cons.1 ht with rfl | ht
          · exact hc2
          · rcases List.mem_cons.1 ht with rfl | ht
            · exact h2.2.2.2 { top with startAt := sa, pot := pt } (by simp)
            · exact h2.2.2.2 t (by simp [ht])
    · intro i hi
      show bitAt m4 _ = _
      rw [hb4 _ (by have := g.hrc; omega), I.res i hi]
      have h4 : ¬ (64 * p.ro + i = 64 * tc + j) := by omega
      simp only [h4, decide_false, Bool.not_false, Bool.true_and]
      rw [← Bool.decide_or]
      apply decide_eq_decide.2
      simp only [List.map_cons, List.mem_cons]
      constructor
      · rintro (h | h)
        · left; omega
        · right; exact h
      · rintro (h | h)
        · left; omega
        · right; exact h
    · intro a ha
      show bitAt m4 a = false
      exact hb4z a (by simp only at ha; omega)
    · show nodes m4 (_ :: { top with startAt := sa, pot := pt } :: rest) < _
      simp only [nodes]
      rw [d3, hC4, hCn]
      generalize (bset m1 top.cand).card = x at *
      generalize (bset H.g.eb top.cand).card = y at *
      have e1 : 2 ^ (AD.card + 1) ≤ 2 ^ (x + 1) :=
        Nat.pow_le_pow_right (by decide) (by omega)
      have e3 : 2 ^ (x + 1) + 2 ^ (x + 1) ≤ 2 ^ (y + 1) := by
        have : 2 ^ (x + 1) + 2 ^ (x + 1) = 2 ^ (x + 2) := by rw [Nat.pow_succ 2 (x + 1)]; omega
        rw [this]
        exact Nat.pow_le_pow_right (by decide) (by omega)
      have e4 : 0 < 2 ^ (x + 1) := Nat.pos_of_ne_zero (by simp)
      have e5 : 0 < 2 ^ (AD.card + 1) := Nat.pos_of_ne_zero (by simp)
      clear * - e1 e3 e4 e5
      omega

end AW

end NWG

end CM
