import Verif.Lemmas.StackScan

/-! # `StackDFS::process_vertex` (dfs_stack.cpp:42-206) -/

namespace CM

namespace Graph

/-- Parameters of one rooted search: root, bottom of the scratch memory, offsets of the
result and of the root candidate set, and a bound on the size of rooted cliques. -/
structure SPar where
  r : Nat
  B : Nat
  ro : Nat
  co : Nat
  L : Nat

section

variable (G0 : Graph) (p : SPar)

/-- Words per bit set. -/
abbrev SPar.req : Nat := dlen (G0.V p.r).N

/-- Offset of the candidate set of stack level `l`. -/
def candOff (l : Nat) : Nat := if l = 0 then p.co else p.B + (l + 1) * p.req G0

structure SPar.Good : Prop where
  wf : WF G0
  hr : p.r < G0.nVert
  hB : G0.ebSize < p.B
  hrc : (p.ro = p.B ∧ p.co = p.B + p.req G0) ∨ (p.ro = p.B + p.req G0 ∧ p.co = p.B)
  room : p.B + (p.L + 2) * p.req G0 ≤ G0.eb.length
  pad : PadZero G0.eb (G0.vb p.r)

/-- The stack of a `StackDFS` (top first) as represented in memory. -/
def Lv (m : Mem) : List SState → Prop
  | [] => True
  | s :: rest =>
    s.res = ⟨p.ro, (G0.V p.r).N⟩ ∧ s.cand = ⟨candOff G0 p rest.length, (G0.V p.r).N⟩ ∧
    s.id < (G0.V p.r).N ∧ s.id ∉ rest.map SState.id ∧ (∀ t ∈ rest, G0.A p.r t.id s.id) ∧
    (rest = [] → s.id = (G0.V p.r).spos) ∧ s.startAt ≤ (G0.V p.r).N ∧ PadZero m s.cand ∧
    (∀ c ∈ bset m s.cand, s.startAt ≤ c ∧ c ∉ (s :: rest).map SState.id ∧
      ∀ t ∈ s :: rest, G0.A p.r t.id c) ∧
    rest.length + 1 + (bset m s.cand).card ≤ p.L ∧ Lv m rest

/-- Every vertex on the stack and every candidate belongs to the search rooted at `p.r`. -/
def Rt (m : Mem) : List SState → Prop
  | [] => True
  | s :: rest => (rest ≠ [] → s.id ∈ G0.rootCand p.r) ∧
    (∀ c ∈ bset m s.cand, c ∈ G0.rootCand p.r) ∧ Rt m rest

/-- A clique of size at least `T` is still to be found below some level. -/
def Pend (m : Mem) (T : Nat) : List SState → Prop
  | [] => False
  | s :: rest =>
    (∃ X : Finset Nat, X ⊆ bset m s.cand ∧ X.Nonempty ∧
      (∀ a ∈ X, ∀ b ∈ X, G0.A p.r a b) ∧ T ≤ rest.length + 1 + X.card) ∨ Pend m T rest

/-- Termination measure: bound on the number of search tree nodes still to visit. -/
def nodes (m : Mem) : List SState → Nat
  | [] => 0
  | s :: rest => (2 ^ ((bset m s.cand).card + 1) - 1) + nodes m rest

/-- The loop invariant of `StackDFS::process_vertex`. -/
structure SInv (G : Graph) (states : List SState) : Prop where
  upd : Upd p.r p.B G0 G
  sc : G.searchCur = p.B + (states.length + 1) * p.req G0
  lv : Lv G0 p G.eb states
  res : ∀ i, i < 64 * p.req G0 → bitAt G.eb (64 * p.ro + i) = decide (i ∈ states.map SState.id)
  zero : ∀ a, 64 * G.searchCur ≤ a → bitAt G.eb a = false
  rt : Rt G0 p G.eb states

end

variable {G0 : Graph} {p : SPar}

theorem candOff_lt (g : p.Good G0) {l l' : Nat} (h : l < l') :
    candOff G0 p l + p.req G0 ≤ candOff G0 p l' := by
  unfold candOff
  have hl' : ¬ l' = 0 := by omega
  rw [if_neg hl']
  by_cases hl : l = 0
  · rw [if_pos hl]
    have : 2 * p.req G0 ≤ (l' + 1) * p.req G0 := Nat.mul_le_mul_right _ (by omega)
    have := g.hrc
    omega
  · rw [if_neg hl]
    have : (l + 2) * p.req G0 ≤ (l' + 1) * p.req G0 := Nat.mul_le_mul_right _ (by omega)
    have h2 : (l + 2) * p.req G0 = (l + 1) * p.req G0 + p.req G0 := by
      rw [show l + 2 = (l + 1) + 1 from rfl, Nat.succ_mul]
    omega

theorem candOff_ge (g : p.Good G0) (l : Nat) : p.B ≤ candOff G0 p l := by
  unfold candOff; split
  · have := g.hrc; omega
  · omega

theorem candOff_end (g : p.Good G0) (l : Nat) :
    candOff G0 p l + p.req G0 ≤ p.B + (l + 2) * p.req G0 := by
  have h2 : (l + 2) * p.req G0 = (l + 1) * p.req G0 + p.req G0 := by
    rw [show l + 2 = (l + 1) + 1 from rfl, Nat.succ_mul]
  unfold candOff; split
  · subst_vars
    have := g.hrc
    simp only [Nat.zero_add, Nat.one_mul] at *
    omega
  · omega

theorem ro_candOff (g : p.Good G0) (l : Nat) :
    p.ro + p.req G0 ≤ candOff G0 p l ∨ candOff G0 p l + p.req G0 ≤ p.ro := by
  by_cases hl : l = 0
  · subst hl; unfold candOff; rw [if_pos rfl]; have := g.hrc; omega
  · left
    unfold candOff; rw [if_neg hl]
    have : 2 * p.req G0 ≤ (l + 1) * p.req G0 := Nat.mul_le_mul_right _ (by omega)
    have := g.hrc
    omega

theorem Lv_congr (m m' : Mem) : ∀ states : List SState,
    (∀ l, l < states.length → ∀ i, i < 64 * p.req G0 →
      bitAt m' (64 * candOff G0 p l + i) = bitAt m (64 * candOff G0 p l + i)) →
    Lv G0 p m states → Lv G0 p m' states ∧
      (∀ T, Pend G0 p m T states → Pend G0 p m' T states) ∧
      nodes m' states = nodes m states := by
  intro states
  induction states with
  | nil => intro _ _; exact ⟨trivial, fun T h => h, rfl⟩
  | cons s rest ih =>
    intro h hl
    unfold Lv at hl ⊢
    obtain ⟨l1, l2, l3, l4, l5, l6, l7, l8, l9, l10, l11⟩ := hl
    obtain ⟨i1, i2, i3⟩ := ih (fun l hl' => h l (by simp; omega)) l11
    have hb : bset m' s.cand = bset m s.cand := by
      apply bset_congr rfl
      intro i hi
      rw [l2] at hi ⊢
      simp only at hi ⊢
      exact h rest.length (by simp) i (by have := @dlen_le (G0.V p.r).N; simp only [SPar.req]; omega)
    have hp : PadZero m' s.cand := by
      intro i h1 h2
      have := l8 i h1 h2
      rw [l2] at h1 h2 this ⊢
      simp only at h1 h2 this ⊢
      rw [h rest.length (by simp) i h2]; exact this
    refine ⟨⟨l1, l2, l3, l4, l5, l6, l7, hp, by rw [hb]; exact l9, by rw [hb]; exact l10, i1⟩,
      ?_, ?_⟩
    · intro T hT
      unfold Pend at hT ⊢
      rw [hb]
      exact hT.imp id (i2 T)
    · unfold nodes; rw [hb, i3]

theorem Rt_congr (m m' : Mem) : ∀ states : List SState,
    (∀ l, l < states.length → ∀ i, i < 64 * p.req G0 →
      bitAt m' (64 * candOff G0 p l + i) = bitAt m (64 * candOff G0 p l + i)) →
    Lv G0 p m states → Rt G0 p m states → Rt G0 p m' states := by
  intro states
  induction states with
  | nil => intro _ _ _; trivial
  | cons s rest ih =>
    intro h hl ht
    unfold Lv at hl
    unfold Rt at ht ⊢
    obtain ⟨l1, l2, l3, l4, l5, l6, l7, l8, l9, l10, l11⟩ := hl
    have hb : bset m' s.cand = bset m s.cand := by
      apply bset_congr rfl
      intro i hi
      rw [l2] at hi ⊢
      simp only at hi ⊢
      exact h rest.length (by simp) i (by have := @dlen_le (G0.V p.r).N; simp only [SPar.req]; omega)
    rw [hb]
    exact ⟨ht.1, ht.2.1, ih (fun l hl' => h l (by simp; omega)) l11 ht.2.2⟩

theorem Rt_ids (m : Mem) : ∀ states : List SState, Lv G0 p m states → Rt G0 p m states →
    ∀ t ∈ states, t.id ≠ (G0.V p.r).spos → t.id ∈ G0.rootCand p.r := by
  intro states
  induction states with
  | nil => intro _ _ t ht; simp at ht
  | cons s rest ih =>
    intro hl hr t ht hne
    unfold Lv at hl
    unfold Rt at hr
    rcases List.mem_cons.1 ht with rfl | ht
    · by_cases h0 : rest = []
      · exact absurd (hl.2.2.2.2.2.1 h0) hne
      · exact hr.1 h0
    · exact ih hl.2.2.2.2.2.2.2.2.2.2 hr.2.2 t ht hne

theorem Lv_facts (g : p.Good G0) (m : Mem) : ∀ states : List SState, Lv G0 p m states →
    (states.map SState.id).Nodup ∧ (∀ t ∈ states, t.id < (G0.V p.r).N) ∧
    (states ≠ [] → (G0.V p.r).spos ∈ states.map SState.id) ∧
    (∀ s ∈ states, ∀ t ∈ states, G0.A p.r s.id t.id) := by
  intro states
  induction states with
  | nil => intro _; simp
  | cons s rest ih =>
    intro hl
    unfold Lv at hl
    obtain ⟨l1, l2, l3, l4, l5, l6, l7, l8, l9, l10, l11⟩ := hl
    obtain ⟨i1, i2, i3, i4⟩ := ih l11
    refine ⟨?_, ?_, ?_, ?_⟩
    · rw [List.map_cons, List.nodup_cons]; exact ⟨l4, i1⟩
    · intro t ht
      rcases List.mem_cons.1 ht with rfl | ht
      · exact l3
      · exact i2 t ht
    · intro _
      cases rest with
      | nil => simp [l6 rfl]
      | cons t rest => exact List.mem_cons_of_mem _ (i3 (by simp))
    · intro s1 h1 t1 h2
      rcases List.mem_cons.1 h1 with e1 | e1 <;> rcases List.mem_cons.1 h2 with e2 | e2
      · rw [e1, e2]; exact A_refl g.wf g.hr l3
      · rw [e1]; exact A_symm g.wf g.hr (i2 t1 e2) (l5 t1 e2)
      · rw [e2]; exact l5 s1 e1
      · exact i4 s1 e1 t1 e2

theorem stackScan_congr {G : Graph} {V V' : Vtx} (hN : V.N = V'.N) (he : V.elo = V'.elo)
    (U : Vtx) (cand : GBits) (eb : Mem) (a b c d : Nat) :
    G.stackScan V U cand eb a b c d = G.stackScan V' U cand eb a b c d := by
  unfold stackScan nbr; rw [hN, he]

/-- Facts about one processed candidate `j`, common to the three ways to continue. -/
theorem stackFor_spec (g : p.Good G0) {G : Graph} {top : SState} {rest : List SState}
    {left : Nat} (I : SInv G0 p G (top :: rest))
    (hleft : left = (bset G.eb top.cand).card)
    (hst : top.startAt < (G0.V p.r).N → top.startAt ∈ bset G.eb top.cand) :
    (∃ G' top' left', stackFor p.r (G0.V p.r) (p.req G0) (rest.length + 1) (G, top, left)
        = .ok (.inl (G', top', left')) ∧ SInv G0 p G' (top' :: rest) ∧
        left' = (bset G'.eb top'.cand).card ∧
        (top'.startAt < (G0.V p.r).N → top'.startAt ∈ bset G'.eb top'.cand) ∧
        left' < left ∧ nodes G'.eb rest = nodes G.eb rest ∧ G.curMax ≤ G'.curMax ∧
        ∀ T, Pend G0 p G.eb T (top :: rest) → T ≤ G'.curMax ∨ Pend G0 p G'.eb T (top' :: rest)) ∨
    (∃ G' top' new, stackFor p.r (G0.V p.r) (p.req G0) (rest.length + 1) (G, top, left)
        = .ok (.inr (.pushed G' top' new)) ∧ SInv G0 p G' (new :: top' :: rest) ∧
        nodes G'.eb (new :: top' :: rest) < nodes G.eb (top :: rest) ∧ G'.curMax = G.curMax ∧
        ∀ T, Pend G0 p G.eb T (top :: rest) →
          T ≤ G'.curMax ∨ Pend G0 p G'.eb T (new :: top' :: rest)) ∨
    (stackFor p.r (G0.V p.r) (p.req G0) (rest.length + 1) (G, top, left)
        = .ok (.inr (.done G top (G0.V p.r).N)) ∧ bset G.eb top.cand = ∅) := by
  have w := g.wf
  have wG := I.upd.frame.wf w
  have hrG : p.r < G.nVert := by rw [I.upd.frame.nVert]; exact g.hr
  have hlv := I.lv
  unfold Lv at hlv
  obtain ⟨l1, l2, l3, l4, l5, l6, l7, l8, l9, l10, l11⟩ := hlv
  have hN := I.upd.frame.N p.r
  have hreqd : p.req G0 = dlen (G0.V p.r).N := rfl
  have hdl := @dlen_le (G0.V p.r).N
  have hebl := I.upd.frame.ebl
  have hroom := g.room
  have hce := candOff_end g rest.length
  have hcge := candOff_ge g rest.length
  have hlen1 : (rest.length + 2) * p.req G0 ≤ (p.L + 2) * p.req G0 :=
    Nat.mul_le_mul_right _ (by omega)
  have hebo := w.eboEnd p.r g.hr
  have hBB := g.hB
  have hreq : 0 < p.req G0 := dlen_pos (N_pos w g.hr)
  have hNlt := N_lt w g.hr
  unfold stackFor
  simp only
  by_cases hj : top.startAt < (G0.V p.r).N
  swap
  · -- no candidate left
    right; right
    rw [if_neg hj]
    have : top.startAt = (G0.V p.r).N := by omega
    refine ⟨by rw [this], ?_⟩
    rw [Finset.eq_empty_iff_forall_notMem]
    intro c hc
    have h1 := (l9 c hc).1
    have h2 := (mem_bset.1 hc).1
    rw [l2] at h2
    simp only at h2
    omega
  rw [if_pos hj]
  have hjC := hst hj
  generalize hjdef : top.startAt = j at hj hjC
  -- reset j
  have hoff : top.cand.off = candOff G0 p rest.length := by rw [l2]
  have hclen : top.cand.len = (G0.V p.r).N := by rw [l2]
  have hroff : top.res.off = p.ro := by rw [l1]
  have hrlen : top.res.len = (G0.V p.r).N := by rw [l1]
  obtain ⟨m1, r1, r2, r3⟩ := top.cand.reset_spec G.eb j
    (by rw [hoff]; have := div_lt_dlen hj; omega)
  rw [r1, ok_bind]
  have hpad1 : PadZero m1 top.cand := by
    intro i h1 h2; rw [r3, l8 i h1 h2]; simp
  have hC1 : bset m1 top.cand = (bset G.eb top.cand).erase j := by
    ext x
    simp only [Finset.mem_erase, mem_bset, r3]
    simp only [Bool.and_eq_true, Bool.not_eq_true', decide_eq_false_iff_not]
    constructor
    · rintro ⟨h1, h2, h3⟩; exact ⟨by omega, h1, h3⟩
    · rintro ⟨h1, h2, h3⟩; exact ⟨h2, by omega, h3⟩
  have hin1 : top.cand.off + dlen top.cand.len ≤ m1.length := by
    rw [hoff, hclen, r2]; omega
  obtain ⟨sa, n1, n2, n3, n4, n5⟩ := top.cand.next_spec m1 (j + 1) hin1 hpad1
    (by rw [hclen]; omega)
  rw [n1, ok_bind]
  rw [hclen] at n3 n4
  have hnbr : ({ G with eb := m1 } : Graph).nbr (G0.V p.r) j = .ok (G0.e p.r j) := by
    unfold nbr e
    rw [show ({ G with eb := m1 } : Graph).el = G0.el from I.upd.frame.el]
    exact rd_getD _ (by have := w.inEl p.r g.hr; omega)
  rw [hnbr, ok_bind]
  have F1 : Frame G0 ({ G with eb := m1 } : Graph) :=
    I.upd.frame.trans (Frame.mk' G m1 G.searchCur G.curMax G.curLoc r2)
  have w1 := F1.wf w
  have hvert := e_lt w g.hr hj
  rw [vtx_ok w1 (by rw [F1.nVert]; exact hvert), ok_bind]
  have hcard : (bset m1 top.cand).card = left - 1 := by
    rw [hC1, Finset.card_erase_of_mem hjC, hleft]
  have hlpos : 0 < left := by rw [hleft]; exact Finset.card_pos.2 ⟨j, hjC⟩
  have hleftN : left ≤ (G0.V p.r).N := by
    rw [hleft]
    have : bset G.eb top.cand ⊆ Finset.range (G0.V p.r).N := by
      intro x hx; rw [Finset.mem_range, ← hclen]; exact (mem_bset.1 hx).1
    simpa using Finset.card_le_card this
  have hus : usub left 1 = left - 1 := usub_eq hlpos (by omega)
  rw [hus]
  have hgt1 : ∀ k ∈ bset m1 top.cand, j < k := by
    intro k hk
    rw [hC1, Finset.mem_erase] at hk
    have := (l9 k hk.2).1
    omega
  obtain ⟨rm, pot, s1, s2, s3, s4, s5, s6⟩ := stackScan_spec (G := { G with eb := m1 }) w1
    (r := p.r) (j := j) (by rw [F1.nVert]; exact g.hr) (by rw [F1.N]; exact hj)
    (cand := top.cand) (eb := m1) (left := left - 1) (cs := rest.length + 1) (k0 := sa)
    (by rw [F1.N]; exact hclen) hin1 hpad1 hgt1 hcard.symm (by rw [F1.N]; exact n3)
    (by rw [F1.N]; exact n4) (fun k hk => n5 k hk (hgt1 k hk))
  rw [F1.e] at s1
  rw [stackScan_congr (V := G0.V p.r) (V' := ({ G with eb := m1 } : Graph).V p.r)
    (F1.N _).symm (F1.elo _).symm]
  rw [s1, ok_bind]
  have hAeq : ∀ x, ({ G with eb := m1 } : Graph).A p.r j x ↔ G0.A p.r j x := by
    intro x; unfold A; rw [F1.nadj, F1.e, F1.e]
  simp only [hAeq] at s3 s6
  have hcm : ({ G with eb := m1 } : Graph).curMax = G.curMax := rfl
  rw [hcm] at s6
  simp only [hcm]
  -- the lower levels are untouched by the reset
  have hlow : ∀ l, l < rest.length → ∀ i, i < 64 * p.req G0 →
      bitAt m1 (64 * candOff G0 p l + i) = bitAt G.eb (64 * candOff G0 p l + i) := by
    intro l hl i hi
    have := candOff_lt g hl
    rw [r3, hoff]
    have : ¬ (64 * candOff G0 p l + i = 64 * candOff G0 p rest.length + j) := by omega
    simp [this]
  obtain ⟨c1, c2, c3⟩ := Lv_congr G.eb m1 rest hlow l11
  -- cliques containing j
  have hXj : ∀ X : Finset Nat, X ⊆ bset G.eb top.cand → (∀ a ∈ X, ∀ b ∈ X, G0.A p.r a b) →
      j ∈ X → X.erase j ⊆ (bset m1 top.cand).filter (fun k => G0.A p.r j k) := by
    intro X h1 h2 h3 x hx
    rw [Finset.mem_erase] at hx
    rw [Finset.mem_filter, hC1, Finset.mem_erase]
    exact ⟨⟨hx.1, h1 hx.2⟩, h2 j h3 x hx.2⟩
  have hXn : ∀ X : Finset Nat, X ⊆ bset G.eb top.cand → j ∉ X → X ⊆ bset m1 top.cand := by
    intro X h1 h2 x hx
    rw [hC1, Finset.mem_erase]
    exact ⟨fun h => h2 (h ▸ hx), h1 hx⟩
  have hrmf : rm.toFinset ⊆ (bset m1 top.cand).filter (fun k => ¬ G0.A p.r j k) := by
    intro x hx
    rw [Finset.mem_filter]
    exact s3 x (List.mem_toFinset.1 hx)
  have hadjcard : ((bset m1 top.cand).filter (fun k => G0.A p.r j k)).card
      ≤ left - 1 - rm.length := by
    have h1 := Finset.card_le_card hrmf
    rw [List.toFinset_card_of_nodup s2] at h1
    have h2 := Finset.card_filter_add_card_filter_not (s := bset m1 top.cand)
      (fun k => G0.A p.r j k)
    rw [hcard] at h2
    omega
  have hlv1 : ∀ x ∈ bset m1 top.cand, sa ≤ x ∧
      x ∉ (({ top with startAt := sa } : SState) :: rest).map SState.id ∧
      ∀ t ∈ ({ top with startAt := sa } : SState) :: rest, G0.A p.r t.id x := by
    intro x hx
    have hx' : x ∈ bset G.eb top.cand := by
      rw [hC1] at hx; exact Finset.mem_of_mem_erase hx
    refine ⟨n5 x hx (hgt1 x hx), (l9 x hx').2.1, ?_⟩
    intro t ht
    rcases List.mem_cons.1 ht with ht | ht
    · rw [ht]; exact (l9 x hx').2.2 top (by simp)
    · exact (l9 x hx').2.2 t (by simp [ht])
  have hroco := ro_candOff g rest.length
  have hrt := I.rt
  unfold Rt at hrt
  obtain ⟨rt1, rt2, rt3⟩ := hrt
  have rt4 : ∀ c ∈ bset m1 top.cand, c ∈ G0.rootCand p.r := by
    intro c hc
    rw [hC1] at hc
    exact rt2 c (Finset.mem_of_mem_erase hc)
  have rt5 := Rt_congr G.eb m1 rest hlow l11 rt3
  by_cases hpot : pot > G.curMax
  swap
  · -- pruned
    left
    rw [if_neg hpot]
    refine ⟨_, _, _, rfl, ⟨?_, I.sc, ?_, ?_, ?_, ⟨rt1, rt4, rt5⟩⟩, hcard.symm, n4, by omega, c3,
      Nat.le_refl _, ?_⟩
    · exact I.upd.scratch (by omega) m1 G.searchCur r2 (fun a ha => by
        rw [r3, hoff]
        have : ¬ (a = 64 * candOff G0 p rest.length + j) := by omega
        simp [this])
    · unfold Lv
      exact ⟨l1, l2, l3, l4, l5, l6, n3, hpad1, hlv1, by rw [hcard]; omega, c1⟩
    · intro i hi
      show bitAt m1 _ = _
      have h1 := I.res i hi
      rw [r3, hoff]
      have : ¬ (64 * p.ro + i = 64 * candOff G0 p rest.length + j) := by omega
      simp only [this, decide_false, Bool.not_false, Bool.true_and]
      exact h1
    · intro a ha
      show bitAt m1 a = false
      rw [r3, I.zero a ha]; simp
    · intro T hT
      unfold Pend at hT ⊢
      rcases hT with ⟨X, x1, x2, x3, x4⟩ | hT
      · by_cases hjX : j ∈ X
        · left
          have h1 := Finset.card_le_card (hXj X x1 x3 hjX)
          rw [Finset.card_erase_of_mem hjX] at h1
          have := Finset.card_pos.2 x2
          show T ≤ G.curMax
          omega
        · right; left
          exact ⟨X, hXn X x1 hjX, x2, x3, x4⟩
      · right; right
        exact c2 T hT
  rw [if_pos hpot]
  by_cases hl0 : left - 1 = 0
  · -- record
    left
    rw [if_pos hl0]
    have hrm0 : rm.length = 0 := by omega
    have hempty : bset m1 top.cand = ∅ := by rw [← Finset.card_eq_zero, hcard]; exact hl0
    obtain ⟨m2, t1, t2, t3⟩ := GBits.set_spec top.res m1 j (by
      rw [hroff]
      have := div_lt_dlen hj
      have := g.hrc
      have h3 : 2 * p.req G0 ≤ (p.L + 2) * p.req G0 := Nat.mul_le_mul_right _ (by omega)
      simp only [SPar.req] at *
      omega)
    rw [t1, ok_bind]
    rw [hroff] at t3
    have hjid : j ∉ (top :: rest).map SState.id := (l9 j hjC).2.1
    have hres2 : ∀ i, i < 64 * p.req G0 → bitAt m2 (64 * p.ro + i)
        = decide (i = j ∨ i ∈ (top :: rest).map SState.id) := by
      intro i hi
      rw [t3, r3, hoff, I.res i hi]
      have : ¬ (64 * p.ro + i = 64 * candOff G0 p rest.length + j) := by omega
      simp only [this, decide_false, Bool.not_false, Bool.true_and]
      rw [← Bool.decide_or]
      apply decide_eq_decide.2
      constructor
      · rintro (h | h)
        · left; omega
        · right; exact h
      · rintro (h | h)
        · left; omega
        · right; exact h
    obtain ⟨f1, f2, f3, f4⟩ := Lv_facts g G.eb (top :: rest) I.lv
    have hbs : bset m2 top.res = insert j ((top :: rest).map SState.id).toFinset := by
      ext x
      rw [mem_bset, Finset.mem_insert, List.mem_toFinset, hroff, hrlen]
      constructor
      · rintro ⟨h1, h2⟩
        rw [hres2 x (by omega)] at h2
        simpa using h2
      · intro h
        have hx : x < (G0.V p.r).N := by
          rcases h with h | h
          · omega
          · obtain ⟨t, ht, rfl⟩ := List.mem_map.1 h
            exact f2 t ht
        refine ⟨hx, ?_⟩
        rw [hres2 x (by omega)]
        simpa using h
    have U2 : Upd p.r p.B G0 { ({ G with eb := m1 } : Graph) with eb := m2 } :=
      I.upd.scratch (by omega) m2 G.searchCur (t2.trans r2) (fun a ha => by
        rw [t3, r3, hoff]
        have h1 : ¬ (a = 64 * candOff G0 p rest.length + j) := by omega
        have h2 : ¬ (a = 64 * p.ro + j) := by have := g.hrc; omega
        simp [h1, h2])
    obtain ⟨G3, u1, u2, u3, u4, u5, u6⟩ := saveClique_spec (res := top.res)
      (size := pot) w g.hr U2 g.hB hrlen (by have := g.hrc; rw [hroff]; omega)
      (by
        rw [hroff]
        show _ ≤ List.length m2
        have := g.hrc
        have h3 : 2 * p.req G0 ≤ (p.L + 2) * p.req G0 := Nat.mul_le_mul_right _ (by omega)
        simp only [SPar.req] at *
        omega)
      (by
        intro i h1 h2
        show bitAt m2 _ = false
        rw [hrlen] at h1 h2
        rw [hroff, hres2 i h2]
        simp only [decide_eq_false_iff_not, not_or]
        refine ⟨by omega, fun h => ?_⟩
        obtain ⟨t, ht, rfl⟩ := List.mem_map.1 h
        have := f2 t ht; omega)
      (by
        show Rooted G0 p.r (bset m2 _)
        rw [hbs]
        refine ⟨⟨?_, ?_, ?_⟩, ?_⟩
        · rw [Finset.mem_insert, List.mem_toFinset]; exact Or.inr (f3 (by simp))
        · intro i hi
          rw [Finset.mem_insert, List.mem_toFinset] at hi
          rcases hi with h | h
          · omega
          · obtain ⟨t, ht, rfl⟩ := List.mem_map.1 h
            exact f2 t ht
        · intro x hx y hy
          rw [Finset.mem_insert, List.mem_toFinset] at hx hy
          have hjt := (l9 j hjC).2.2
          rcases hx with hx | hx <;> rcases hy with hy | hy
          · rw [hx, hy]; exact A_refl w g.hr hj
          · obtain ⟨t, ht, rfl⟩ := List.mem_map.1 hy
            rw [hx]; exact A_symm w g.hr (f2 t ht) (hjt t ht)
          · obtain ⟨t, ht, rfl⟩ := List.mem_map.1 hx
            rw [hy]; exact hjt t ht
          · obtain ⟨t, ht, rfl⟩ := List.mem_map.1 hx
            obtain ⟨t', ht', rfl⟩ := List.mem_map.1 hy
            exact f4 t ht t' ht'
        · intro x hx hne
          rw [Finset.mem_insert, List.mem_toFinset] at hx
          rcases hx with rfl | hx
          · exact rt2 _ hjC
          · obtain ⟨t, ht, rfl⟩ := List.mem_map.1 hx
            exact Rt_ids G.eb _ I.lv I.rt t ht hne)
      (by
        show (bset m2 _).card = pot
        rw [hbs, Finset.card_insert_of_notMem (by rw [List.mem_toFinset]; exact hjid),
          List.toFinset_card_of_nodup f1]
        simp only [List.length_map, List.length_cons]
        omega)
      hpot
    rw [u1, ok_bind]
    have hG3l : G3.eb.length = G0.eb.length := u2.frame.ebl
    obtain ⟨m4, v1, v2, v3⟩ := GBits.reset_spec top.res G3.eb j (by
      rw [hroff]
      have := div_lt_dlen hj
      have := g.hrc
      have h3 : 2 * p.req G0 ≤ (p.L + 2) * p.req G0 := Nat.mul_le_mul_right _ (by omega)
      simp only [SPar.req] at *
      omega)
    rw [v1, ok_bind]
    rw [hroff] at v3
    -- memory above B after all this
    have hm4 : ∀ a, 64 * p.B ≤ a → bitAt m4 a =
        (!decide (a = 64 * candOff G0 p rest.length + j) && bitAt G.eb a) := by
      intro a ha
      rw [v3, u5 a ha]
      show (_ && bitAt m2 a) = _
      rw [t3, r3, hoff]
      by_cases h1 : a = 64 * p.ro + j
      · have hne : ¬ (64 * p.ro + j = 64 * candOff G0 p rest.length + j) := by
          omega
        have hz := I.res j (by omega)
        rw [decide_eq_false hjid] at hz
        rw [h1]
        simp [hz]
      · simp [h1]
    have hC4 : bset m4 top.cand = bset m1 top.cand := by
      apply bset_congr rfl
      intro i hi
      rw [hm4 _ (by rw [hoff]; omega), r3, hoff]
    have hlow4 : ∀ l, l < rest.length → ∀ i, i < 64 * p.req G0 →
        bitAt m4 (64 * candOff G0 p l + i) = bitAt G.eb (64 * candOff G0 p l + i) := by
      intro l hl i hi
      have h1 := candOff_lt g hl
      have h2 := candOff_ge g l
      rw [hm4 _ (by omega)]
      have : ¬ (64 * candOff G0 p l + i = 64 * candOff G0 p rest.length + j) := by omega
      simp [this]
    refine ⟨_, _, _, rfl, ⟨?_, ?_, ?_, ?_, ?_, ⟨rt1, by
      show ∀ c ∈ bset m4 top.cand, _
      rw [hC4]; exact rt4, Rt_congr G.eb m4 rest hlow4 l11 rt3⟩⟩, ?_, ?_, by omega, ?_, ?_, ?_⟩
    · exact u2.scratch (by omega) m4 G3.searchCur v2 (fun a ha => by
        rw [v3]
        have h2 : ¬ (a = 64 * p.ro + j) := by have := g.hrc; omega
        simp [h2])
    · show G3.searchCur = _
      rw [u4]; exact I.sc
    · show Lv G0 p m4 _
      unfold Lv
      refine ⟨l1, l2, l3, l4, l5, l6, n3, ?_, ?_, ?_, ?_⟩
      · intro i h1 h2
        have := hpad1 i h1 h2
        rw [r3] at this
        rw [hm4 _ (by rw [hoff]; omega), ← hoff]; exact this
      · show ∀ c ∈ bset m4 top.cand, _
        rw [hC4]; exact hlv1
      · show _ + (bset m4 top.cand).card ≤ _
        rw [hC4, hcard]; omega
      · refine (Lv_congr G.eb m4 rest ?_ l11).1
        intro l hl i hi
        have h1 := candOff_lt g hl
        have h2 := candOff_ge g l
        rw [hm4 _ (by omega)]
        have : ¬ (64 * candOff G0 p l + i = 64 * candOff G0 p rest.length + j) := by omega
        simp [this]
    · intro i hi
      show bitAt m4 _ = _
      rw [hm4 _ (by have := g.hrc; omega), I.res i hi]
      have : ¬ (64 * p.ro + i = 64 * candOff G0 p rest.length + j) := by omega
      simp [this]
    · intro a ha
      show bitAt m4 a = false
      have ha' : 64 * G.searchCur ≤ a := by
        have h1 : 64 * G3.searchCur ≤ a := ha
        rwa [u4] at h1
      rw [hm4 a (by rw [I.sc] at ha'; omega), I.zero a ha']; simp
    · show left - 1 = (bset m4 top.cand).card
      rw [hC4, hcard]
    · show sa < _ → sa ∈ bset m4 top.cand
      rw [hC4]; exact n4
    · refine (Lv_congr G.eb m4 rest ?_ l11).2.2
      intro l hl i hi
      have h1 := candOff_lt g hl
      have h2 := candOff_ge g l
      rw [hm4 _ (by omega)]
      have : ¬ (64 * candOff G0 p l + i = 64 * candOff G0 p rest.length + j) := by omega
      simp [this]
    · show G.curMax ≤ G3.curMax
      omega
    · intro T hT
      unfold Pend at hT ⊢
      rcases hT with ⟨X, x1, x2, x3, x4⟩ | hT
      · by_cases hjX : j ∈ X
        · left
          show T ≤ G3.curMax
          have h1 := Finset.card_le_card (hXj X x1 x3 hjX)
          rw [Finset.card_erase_of_mem hjX, hempty] at h1
          simp only [Finset.filter_empty, Finset.card_empty] at h1
          omega
        · exfalso
          obtain ⟨x, hx⟩ := x2
          have := hXn X x1 hjX hx
          rw [hempty] at this
          simp at this
      · right; right
        refine (Lv_congr G.eb m4 rest ?_ l11).2.1 T hT
        intro l hl i hi
        have h1 := candOff_lt g hl
        have h2 := candOff_ge g l
        rw [hm4 _ (by omega)]
        have : ¬ (64 * candOff G0 p l + i = 64 * candOff G0 p rest.length + j) := by omega
        simp [this]
  · -- push
    right; left
    rw [if_neg hl0]
    have hsc := I.sc
    simp only [List.length_cons] at hsc
    have hL : rest.length + 1 + left ≤ p.L := by rw [hleft]; exact l10
    have hlen3 : (rest.length + 3) * p.req G0 ≤ (p.L + 2) * p.req G0 :=
      Nat.mul_le_mul_right _ (by omega)
    have hx3 : (rest.length + 3) * p.req G0 = (rest.length + 2) * p.req G0 + p.req G0 := by
      rw [show rest.length + 3 = (rest.length + 2) + 1 from rfl, Nat.succ_mul]
    have hebb := w.eblen
    have hsc2 : (rest.length + 1 + 1) * p.req G0 = (rest.length + 2) * p.req G0 := rfl
    rw [hsc2] at hsc
    rw [loadMemory_eq (G := { G with eb := m1 }) (p.req G0)
      (by show G.searchCur + _ < _; omega)]
    simp only
    have hnewoff : G.searchCur = candOff G0 p (rest.length + 1) := by
      rw [hsc]; unfold candOff; rw [if_neg (by omega)]
    have hclt := candOff_lt g (Nat.lt_succ_self rest.length)
    simp only [Nat.succ_eq_add_one] at hclt
    have hroN := ro_candOff g (rest.length + 1)
    have hlenm1 : m1.length = G0.eb.length := r2.trans hebl
    obtain ⟨m2, t1, t2, t3⟩ := GBits.copyData_spec ⟨G.searchCur, top.cand.len⟩ top.cand.off m1
      (by simp only; rw [hclen]; simp only [SPar.req] at *; omega)
      (by simp only; exact hin1)
      (by simp only; rw [hoff, hclen, hnewoff]; simp only [SPar.req] at *; omega)
    have hcf : GBits.copyFrom top.cand G.searchCur m1 =
        .ok (⟨candOff G0 p (rest.length + 1), (G0.V p.r).N⟩, m2) := by
      unfold GBits.copyFrom
      simp only
      rw [t1, ok_bind, hclen, hnewoff]
    rw [hcf, ok_bind]
    simp only
    obtain ⟨m3, v1, v2, v3⟩ := GBits.set_spec top.res m2 j (by
      rw [hroff]
      have := div_lt_dlen hj
      have := g.hrc
      have h3 : 2 * p.req G0 ≤ (p.L + 2) * p.req G0 := Nat.mul_le_mul_right _ (by omega)
      simp only [SPar.req] at *
      omega)
    rw [v1, ok_bind]
    obtain ⟨m4, y1, y2, y3⟩ := resets_spec ⟨candOff G0 p (rest.length + 1), (G0.V p.r).N⟩ rm m3 (by
      intro k hk
      have h1 := (mem_bset.1 (s3 k hk).1).1
      rw [hclen] at h1
      have := div_lt_dlen h1
      simp only [SPar.req] at *
      omega)
    rw [y1, ok_bind]
    simp only [hclen, hnewoff, hroff] at t3 v3 y3
    have hronc : p.ro + p.req G0 ≤ candOff G0 p (rest.length + 1) := by
      have := g.hrc
      have h3 : 2 * p.req G0 ≤ (rest.length + 2) * p.req G0 := Nat.mul_le_mul_right _ (by omega)
      rw [← hnewoff, hsc]; omega
    generalize hnc : candOff G0 p (rest.length + 1) = nc at *
    generalize htc : candOff G0 p rest.length = tc at *
    have hl4 : m4.length = G.eb.length := by rw [y2, v2, t2, r2]
    have hjid : j ∉ (top :: rest).map SState.id := (l9 j hjC).2.1
    -- bits of m4
    have hb4 : ∀ a, a < 64 * nc → bitAt m4 a =
        (decide (a = 64 * p.ro + j) || (!decide (a = 64 * tc + j) && bitAt G.eb a)) := by
      intro a ha
      have h1 : ¬ (64 * nc ≤ a ∧ a - 64 * nc ∈ rm) := by omega
      have h2 : ¬ (64 * nc ≤ a ∧ a < 64 * (nc + dlen (G0.V p.r).N)) := by omega
      rw [y3, v3, t3, if_neg h2, r3, hoff]
      simp [h1]
    have hb4n : ∀ i, i < 64 * p.req G0 → bitAt m4 (64 * nc + i) =
        (!decide (i ∈ rm) && bitAt m1 (64 * tc + i)) := by
      intro i hi
      simp only [SPar.req] at *
      have h1 : (64 * nc ≤ 64 * nc + i ∧ 64 * nc + i < 64 * (nc + dlen (G0.V p.r).N)) := by
        omega
      have h2 : ¬ (64 * nc + i = 64 * p.ro + j) := by omega
      have h3 : 64 * nc + i - 64 * nc = i := by omega
      rw [y3, v3, t3, if_pos h1, hoff, h3]
      have h4 : (64 * nc ≤ 64 * nc + i) := by omega
      simp only [h2, h4, decide_false, Bool.false_or, true_and]
      rw [Nat.add_comm i]
    have hb4z : ∀ a, 64 * (nc + p.req G0) ≤ a → bitAt m4 a = false := by
      intro a ha
      simp only [SPar.req] at *
      have h2 : ¬ (64 * nc ≤ a ∧ a < 64 * (nc + dlen (G0.V p.r).N)) := by omega
      have h4 : ¬ (a = 64 * p.ro + j) := by omega
      rw [y3, v3, t3, if_neg h2, r3, I.zero a (by omega)]
      simp [h4]
    have hCn : bset m4 ⟨nc, (G0.V p.r).N⟩ = (bset m1 top.cand).filter (fun k => G0.A p.r j k) := by
      ext x
      rw [mem_bset, Finset.mem_filter, mem_bset, hoff, hclen]
      simp only
      constructor
      · rintro ⟨h1, h2⟩
        rw [hb4n x (by omega)] at h2
        simp only [Bool.and_eq_true, Bool.not_eq_true', decide_eq_false_iff_not] at h2
        refine ⟨⟨h1, h2.2⟩, ?_⟩
        by_contra hA
        refine h2.1 (s6 hpot x ?_ hA)
        rw [mem_bset, hoff, hclen]; exact ⟨h1, h2.2⟩
      · rintro ⟨⟨h1, h2⟩, h3⟩
        refine ⟨h1, ?_⟩
        rw [hb4n x (by omega), h2]
        have : x ∉ rm := fun h => (s3 x h).2 h3
        simp [this]
    have hC4 : bset m4 top.cand = bset m1 top.cand := by
      apply bset_congr rfl
      intro i hi
      rw [hclen] at hi
      rw [hoff, hb4 _ (by omega), r3, hoff]
      have : ¬ (64 * tc + i = 64 * p.ro + j) := by omega
      simp [this]
    have hlow4 : ∀ l, l < rest.length → ∀ i, i < 64 * p.req G0 →
        bitAt m4 (64 * candOff G0 p l + i) = bitAt G.eb (64 * candOff G0 p l + i) := by
      intro l hl i hi
      have h1 := candOff_lt g hl
      have h3 := ro_candOff g l
      rw [hb4 _ (by omega)]
      have h4 : ¬ (64 * candOff G0 p l + i = 64 * tc + j) := by omega
      have h5 : ¬ (64 * candOff G0 p l + i = 64 * p.ro + j) := by omega
      simp [h4, h5]
    obtain ⟨d1, d2, d3⟩ := Lv_congr G.eb m4 rest hlow4 l11
    have hnewcard : (bset m4 ⟨nc, (G0.V p.r).N⟩).card ≤ left - 1 := by
      rw [hCn, ← hcard]; exact Finset.card_filter_le _ _
    have hjt := (l9 j hjC).2.2
    have hjt' : ∀ t ∈ ({ top with startAt := sa } : SState) :: rest, G0.A p.r t.id j := by
      intro t ht
      rcases List.mem_cons.1 ht with ht | ht
      · rw [ht]; exact hjt top (by simp)
      · exact hjt t (by simp [ht])
    have hLvtop : Lv G0 p m4 ({ top with startAt := sa } :: rest) := by
      unfold Lv
      refine ⟨l1, by rw [htc]; exact l2, l3, l4, l5, l6, n3, ?_, ?_, ?_, d1⟩
      · intro i h1 h2
        have := hpad1 i h1 h2
        simp only at h1 h2 ⊢
        rw [hclen] at h2
        rw [hoff] at this ⊢
        rw [hb4 _ (by omega)]
        rw [r3, hoff] at this
        have h5 : ¬ (64 * tc + i = 64 * p.ro + j) := by omega
        simpa [h5] using this
      · show ∀ c ∈ bset m4 top.cand, _
        rw [hC4]; exact hlv1
      · show _ + (bset m4 top.cand).card ≤ _
        rw [hC4, hcard]; omega
    refine ⟨_, _, _, rfl, ⟨?_, ?_, ?_, ?_, ?_, ?_⟩, ?_, rfl, ?_⟩
    · exact I.upd.scratch (by omega) m4 _ hl4 (fun a ha => by
        rw [hb4 a (by omega)]
        have h4 : ¬ (a = 64 * tc + j) := by omega
        have h5 : ¬ (a = 64 * p.ro + j) := by have := g.hrc; omega
        simp [h4, h5])
    · simp only [List.length_cons]
      rw [show rest.length + 1 + 1 + 1 = rest.length + 3 from rfl]
      omega
    · show Lv G0 p m4 (_ :: { top with startAt := sa } :: rest)
      rw [Lv]
      refine ⟨l1, ?_, hj, hjid, hjt', by simp, by simp only; omega, ?_, ?_, ?_, hLvtop⟩
      · simp only [List.length_cons]; rw [hnc]
      · intro i h1 h2
        simp only at h1 h2 ⊢
        rw [hb4n i h2]
        have := hpad1 i (by rw [hclen]; exact h1) (by rw [hclen]; exact h2)
        rw [hoff] at this
        rw [this]; simp
      · show ∀ c ∈ bset m4 ⟨nc, (G0.V p.r).N⟩, _
        rw [hCn]
        intro c hc
        rw [Finset.mem_filter] at hc
        have h1 := hgt1 c hc.1
        have h2 := hlv1 c hc.1
        refine ⟨by simp only; omega, ?_, ?_⟩
        · simp only [List.map_cons, List.mem_cons, not_or]
          have h3 := h2.2.1
          simp only [List.map_cons, List.mem_cons, not_or] at h3
          exact ⟨by omega, h3⟩
        · intro t ht
          rcases List.mem_cons.1 ht with rfl | ht
          · exact hc.2
          · rcases List.mem_cons.1 ht with rfl | ht
            · exact h2.2.2 { top with startAt := sa } (by simp)
            · exact h2.2.2 t (by simp [ht])
      · simp only [List.length_cons]
        omega
    · intro i hi
      show bitAt m4 _ = _
      rw [hb4 _ (by have := g.hrc; omega), I.res i hi]
      have h4 : ¬ (64 * p.ro + i = 64 * tc + j) := by omega
      simp only [h4, decide_false, Bool.not_false, Bool.true_and]
      rw [← Bool.decide_or]
      apply decide_eq_decide.2
      simp only [List.map_cons, List.mem_cons]
      constructor
      · rintro (h | h)
        · left; omega
        · right; exact h
      · rintro (h | h)
        · left; omega
        · right; exact h
    · intro a ha
      show bitAt m4 a = false
      exact hb4z a (by simp only at ha; omega)
    · show Rt G0 p m4 (_ :: { top with startAt := sa } :: rest)
      rw [Rt, Rt]
      refine ⟨fun _ => rt2 j hjC, ?_, rt1, ?_, Rt_congr G.eb m4 rest hlow4 l11 rt3⟩
      · show ∀ c ∈ bset m4 ⟨nc, (G0.V p.r).N⟩, _
        rw [hCn]
        intro c hc
        exact rt4 c (Finset.mem_filter.1 hc).1
      · show ∀ c ∈ bset m4 top.cand, _
        rw [hC4]; exact rt4
    · show nodes m4 (_ :: { top with startAt := sa } :: rest) < _
      simp only [nodes]
      rw [d3, hC4, hcard, ← hleft]
      have e1 : 2 ^ ((bset m4 ⟨nc, (G0.V p.r).N⟩).card + 1) ≤ 2 ^ (left - 1 + 1) :=
        Nat.pow_le_pow_right (by decide) (by omega)
      have e2 : left - 1 + 1 = left := by omega
      rw [e2] at e1 ⊢
      have e3 : 2 ^ (left + 1) = 2 ^ left + 2 ^ left := by rw [Nat.pow_succ]; omega
      have e4 : 0 < 2 ^ left := Nat.pos_of_ne_zero (by simp)
      have e5 : 0 < 2 ^ ((bset m4 ⟨nc, (G0.V p.r).N⟩).card + 1) := Nat.pos_of_ne_zero (by simp)
      clear * - e1 e3 e4 e5
      omega
    · intro T hT
      right
      show Pend G0 p m4 T (_ :: { top with startAt := sa } :: rest)
      unfold Pend at hT
      rw [Pend, Pend]
      simp only [List.length_cons]
      rw [hC4]
      rcases hT with ⟨X, x1, x2, x3, x4⟩ | hT
      · by_cases hjX : j ∈ X
        · by_cases hXe : (X.erase j).Nonempty
          · left
            refine ⟨X.erase j, ?_, hXe, ?_, ?_⟩
            · rw [hCn]; exact hXj X x1 x3 hjX
            · intro a ha b hb
              exact x3 a (Finset.mem_of_mem_erase ha) b (Finset.mem_of_mem_erase hb)
            · rw [Finset.card_erase_of_mem hjX]
              have := Finset.card_pos.2 x2
              omega
          · right; left
            have hX1 : X.card = 1 := by
              rw [Finset.not_nonempty_iff_eq_empty] at hXe
              have := Finset.card_erase_of_mem hjX
              rw [hXe, Finset.card_empty] at this
              have := Finset.card_pos.2 x2
              omega
            have hne : (bset m1 top.cand).Nonempty := by
              rw [← Finset.card_pos, hcard]; omega
            obtain ⟨c, hc⟩ := hne
            refine ⟨{c}, by simpa using hc, by simp, ?_, by simp; omega⟩
            intro a ha b hb
            rw [Finset.mem_singleton] at ha hb
            rw [ha, hb]
            have := (mem_bset.1 hc).1
            rw [hclen] at this
            exact A_refl w g.hr this
        · right; left
          exact ⟨X, hXn X x1 hjX, x2, x3, x4⟩
      · right; right
        exact d2 T hT

end Graph

end CM
