import Verif.Lemmas.NWEnumScan

/-! # The inner loop of `NWCliqueEnumerator::process_graph` (nw_enumerate.cpp:108-189) -/

namespace CM

open Graph

namespace NWG

/-- The vertex chosen at a level is no candidate of the level below. -/
def Ordd {R : Type} (m : Mem) : List (WState R) → Prop
  | [] => True
  | [_] => True
  | s :: t :: rest => s.id ∉ bset m t.cand ∧ Ordd m (t :: rest)

section

variable {R : Type} [Zero R] [LT R] [LE R] {H0 : NWG R} {p : SPar}

/-- The candidate sets of levels whose memory is untouched. -/
theorem bset_low {m m' : Mem} : ∀ {states : List (WState R)},
    (∀ l, l < states.length → ∀ i, i < 64 * p.req H0.g →
      bitAt m' (64 * candOff H0.g p l + i) = bitAt m (64 * candOff H0.g p l + i)) →
    Lv H0 p m states → ∀ s ∈ states, bset m' s.cand = bset m s.cand := by
  intro states
  induction states with
  | nil => intro _ _ s hs; simp at hs
  | cons s rest ih =>
    intro h hl t ht
    unfold Lv at hl
    obtain ⟨l1, l2, l3, l4, l5, l6, l7, l8, l9, l10, l11⟩ := hl
    rcases List.mem_cons.1 ht with rfl | ht
    · apply bset_congr rfl
      intro i hi
      rw [l2] at hi ⊢
      simp only at hi ⊢
      exact h rest.length (by simp) i (by
        have := @dlen_le (H0.g.V p.r).N; simp only [SPar.req]; omega)
    · exact ih (fun l hl' => h l (by simp; omega)) l11 t ht

omit [Zero R] [LT R] [LE R] in
/-- An object that differs from `H0` only in its graph. -/
theorem WFrame.ofSame {H : NWG R} {r B : Nat} (hs : H = { H0 with g := H.g })
    (hu : EUpd r B H0.g H.g) : WFrame H0 H := by
  rw [hs]
  exact ⟨hu.frame, hu.vs, hu.loc, rfl, rfl, rfl, hu.lim⟩

/-- The vertices on the stack with one more candidate form a clique. -/
theorem Lv_insert (g : p.Good H0.g) {m : Mem} {top : WState R} {rest : List (WState R)}
    (h : Lv H0 p m (top :: rest)) {j : Nat} (hj : j < (H0.g.V p.r).N)
    (hjt : ∀ t ∈ top :: rest, H0.g.A p.r t.id j) :
    IsCl H0.g p.r (insert j ((top :: rest).map WState.id).toFinset) := by
  obtain ⟨f1, f2, f3, f4⟩ := Lv_facts g m (top :: rest) h
  have w := g.wf
  refine ⟨?_, ?_, ?_⟩
  · rw [Finset.mem_insert, List.mem_toFinset]; exact Or.inr (f3 (by simp))
  · intro i hi
    rw [Finset.mem_insert, List.mem_toFinset] at hi
    rcases hi with h | h
    · omega
    · obtain ⟨t, ht, rfl⟩ := List.mem_map.1 h
      exact f2 t ht
  · intro x hx y hy
    rw [Finset.mem_insert, List.mem_toFinset] at hx hy
    rcases hx with hx | hx <;> rcases hy with hy | hy
    · rw [hx, hy]; exact A_refl w g.hr hj
    · obtain ⟨t, ht, rfl⟩ := List.mem_map.1 hy
      rw [hx]; exact A_symm w g.hr (f2 t ht) (hjt t ht)
    · obtain ⟨t, ht, rfl⟩ := List.mem_map.1 hx
      rw [hy]; exact hjt t ht
    · obtain ⟨t, ht, rfl⟩ := List.mem_map.1 hx
      obtain ⟨t', ht', rfl⟩ := List.mem_map.1 hy
      exact f4 t ht t' ht'

end

section

variable {R : Type}

theorem Ordd_congr {m m' : Mem} : ∀ {states : List (WState R)},
    (∀ s ∈ states, bset m' s.cand = bset m s.cand) → Ordd m states → Ordd m' states := by
  intro states
  induction states with
  | nil => intro _ _; trivial
  | cons s rest ih =>
    intro h ho
    cases rest with
    | nil => trivial
    | cons t rest =>
      refine ⟨?_, ih (fun u hu => h u (by simp [hu])) ho.2⟩
      rw [h t (by simp)]; exact ho.1

/-- Changing the top state but for its id. -/
theorem Ordd_top {m : Mem} {s s' : WState R} {rest : List (WState R)} (hid : s'.id = s.id)
    (h : Ordd m (s :: rest)) : Ordd m (s' :: rest) := by
  cases rest with
  | nil => trivial
  | cons t rest => exact ⟨by rw [hid]; exact h.1, h.2⟩

/-- The order condition when only the levels below are known to be untouched. -/
theorem Ordd_low {m m' : Mem} {s s' : WState R} {rest : List (WState R)} (hid : s'.id = s.id)
    (h : ∀ t ∈ rest, bset m' t.cand = bset m t.cand) (ho : Ordd m (s :: rest)) :
    Ordd m' (s' :: rest) := by
  cases rest with
  | nil => trivial
  | cons t rest =>
    refine ⟨?_, Ordd_congr h ho.2⟩
    rw [hid, h t (by simp)]; exact ho.1

end

open ExactNum

set_option linter.unusedSectionVars false

variable {R : Type} [Zero R] [Add R] [Sub R] [NatCast R] [LT R] [LE R] [DecidableLT R]
  [DecidableLE R] [ExactNum R] 

section

variable (H0 : NWG R) (p : SPar)

/-- Together with a clique of weight `b`, the set `X` reaches the weight `W`, and it does so
only when its last element is added (the first element is always added). -/
def Heavy (b W : Rat) (X : Finset Nat) : Prop :=
  W ≤ b + H0.wsum p.r X ∧
    ∀ t ∈ X, (X.filter (· < t)).Nonempty → b + H0.wsum p.r (X.filter (· < t)) < W

/-- A set of positions still to be reported by the levels of the stack. -/
def PendW (m : Mem) (W : Rat) (C : Finset Nat) : List (WState R) → Prop
  | [] => False
  | s :: rest =>
    (∃ X : Finset Nat, X ⊆ bset m s.cand ∧ X.Nonempty ∧ (∀ a ∈ X, ∀ b ∈ X, H0.g.A p.r a b) ∧
      C = ((s :: rest).map WState.id).toFinset ∪ X ∧ Heavy H0 p (lw H0 p (s :: rest)) W X) ∨
    PendW m W C rest

/-- The invariant of the enumeration inside one root; it stores cliques which `Al` allows. -/
structure EI (Al : Nat → Finset Nat → Prop) (H : NWG R) (states : List (WState R)) : Prop where
  same : H = { H0 with g := H.g }
  upd : EUpdS Al p.r p.B H0.g H.g
  sc : H.g.searchCur = p.B + (states.length + 1) * p.req H0.g
  lv : Lv H0 p H.g.eb states
  ord : Ordd H.g.eb states
  pot : ∀ s ∈ states, ∃ P : Finset Nat, (∀ i ∈ P, i < (H0.g.V p.r).N) ∧
    bset H.g.eb s.cand ⊆ P ∧ s.pot = fin (H0.wsum p.r P)
  res : ∀ i, i < 64 * p.req H0.g →
    bitAt H.g.eb (64 * p.ro + i) = decide (i ∈ states.map WState.id)
  zero : ∀ a, 64 * H.g.searchCur ≤ a → bitAt H.g.eb a = false

end

variable {H0 : NWG R} {p : SPar}

theorem heavy_single {b W : Rat} {j : Nat} : Heavy H0 p b W {j} ↔ W ≤ b + H0.qe p.r j := by
  unfold Heavy
  constructor
  · rintro ⟨h, _⟩; simpa [wsum] using h
  · intro h
    refine ⟨by simpa [wsum] using h, ?_⟩
    intro t ht hne
    rw [Finset.mem_singleton] at ht
    subst ht
    obtain ⟨x, hx⟩ := hne
    rw [Finset.mem_filter, Finset.mem_singleton] at hx
    omega

theorem heavy_insert {b W : Rat} {j : Nat} {X : Finset Nat} (hj : ∀ x ∈ X, j < x)
    (hne : X.Nonempty) : Heavy H0 p b W (insert j X) ↔
      (b + H0.qe p.r j < W ∧ Heavy H0 p (b + H0.qe p.r j) W X) := by
  have hjX : j ∉ X := fun h => by have := hj j h; omega
  have hf : ∀ t ∈ X, (insert j X).filter (· < t) = insert j (X.filter (· < t)) := by
    intro t ht
    rw [Finset.filter_insert, if_pos (hj t ht)]
  have hs : ∀ Y : Finset Nat, j ∉ Y → H0.wsum p.r (insert j Y) = H0.qe p.r j + H0.wsum p.r Y := by
    intro Y hY; unfold wsum; rw [Finset.sum_insert hY]
  have hjf : ∀ t, j ∉ X.filter (· < t) := fun t h => hjX (Finset.mem_filter.1 h).1
  unfold Heavy
  rw [hs X hjX]
  constructor
  · rintro ⟨h1, h2⟩
    refine ⟨?_, by linarith, ?_⟩
    · have hm := X.min'_mem hne
      have h3 := h2 _ (Finset.mem_insert_of_mem hm) (by rw [hf _ hm]; simp)
      have h4 : X.filter (· < X.min' hne) = ∅ := by
        rw [Finset.filter_eq_empty_iff]
        intro x hx
        have := X.min'_le x hx
        omega
      rw [hf _ hm, h4] at h3
      simpa [wsum] using h3
    · intro t ht _
      have h3 := h2 t (Finset.mem_insert_of_mem ht) (by rw [hf _ ht]; simp)
      rw [hf _ ht, hs _ (hjf t)] at h3
      linarith
  · rintro ⟨h0, h1, h2⟩
    refine ⟨by linarith, ?_⟩
    intro t ht hn
    rcases Finset.mem_insert.1 ht with ht | ht
    · exfalso
      obtain ⟨x, hx⟩ := hn
      rw [Finset.mem_filter, Finset.mem_insert] at hx
      rcases hx with ⟨hx | hx, hlt⟩
      · omega
      · have := hj x hx; omega
    · rw [hf _ ht, hs _ (hjf t)]
      by_cases hn' : (X.filter (· < t)).Nonempty
      · have := h2 t ht hn'; linarith
      · rw [Finset.not_nonempty_iff_eq_empty.1 hn']
        simpa [wsum] using h0

theorem PendW_congr {m m' : Mem} (W : Rat) (C : Finset Nat) : ∀ {states : List (WState R)},
    (∀ s ∈ states, bset m' s.cand = bset m s.cand) →
    (PendW H0 p m' W C states ↔ PendW H0 p m W C states) := by
  intro states
  induction states with
  | nil => intro _; exact Iff.rfl
  | cons s rest ih =>
    intro h
    unfold PendW
    rw [h s (by simp), ih (fun t ht => h t (by simp [ht]))]

/-- What is pending below a level does not contain the vertex chosen at that level. -/
theorem PendW_notMem {m : Mem} {W : Rat} {C : Finset Nat} {s : WState R} : ∀ {rest : List (WState R)},
    Lv H0 p m (s :: rest) → Ordd m (s :: rest) → PendW H0 p m W C rest →
    ¬ (∀ t ∈ s :: rest, t.id ∈ C) := by
  intro rest
  induction rest generalizing s with
  | nil => intro _ _ h; exact absurd h (by simp [PendW])
  | cons t rest ih =>
    intro hl ho hp hall
    have hl' := hl
    unfold Lv at hl'
    obtain ⟨l1, l2, l3, l4, l5, l6, l7, l8, l9, l10, l11⟩ := hl'
    unfold PendW at hp
    rcases hp with ⟨X, x1, _, x2, x3, x4⟩ | hp
    · have hsC := hall s (by simp)
      rw [x3, Finset.mem_union, List.mem_toFinset] at hsC
      rcases hsC with h | h
      · exact l4 h
      · exact ho.1 (x1 h)
    · exact ih l11 ho.2 hp (fun t' ht' => hall t' (List.mem_cons_of_mem _ ht'))

/-- One iteration of the inner loop. -/
theorem enumFor_spec (Xe : XE H0) (W : WGood H0 p) {H : NWG R} {top : WState R} {rest : List (WState R)}
    {ws : List R} {cw : R} {T : Rat} {j : Nat} {Al : Nat → Finset Nat → Prop}
    (hAl : ∀ C, T ≤ H0.wsum p.r C → Al p.r C) (hws : Wts H0 p ws) (I : EI H0 p Al H (top :: rest))
    (hcw : cw = fin (lw H0 p (top :: rest)))
    (hj0 : j ≤ (H0.g.V p.r).N) (hst : ∀ c ∈ bset H.g.eb top.cand, j ≤ c) :
    (∃ H' top', enumFor (H0.g.V p.r) (p.req H0.g) ws cw (fin T) (H, top, j)
        = .ok (.inl (H', top', j + 1)) ∧ j < (H0.g.V p.r).N ∧ EI H0 p Al H' (top' :: rest) ∧
        top'.id = top.id ∧ (∀ c ∈ bset H'.g.eb top'.cand, j + 1 ≤ c) ∧
        nodes H'.g.eb (top' :: rest) ≤ nodes H.g.eb (top :: rest) ∧
        (∀ C, PendW H0 p H'.g.eb T C (top' :: rest) → PendW H0 p H.g.eb T C (top :: rest)) ∧
        ((∀ v, 0 ≤ val (H0.w v)) → ∀ C, PendW H0 p H.g.eb T C (top :: rest) →
          PendW H0 p H'.g.eb T C (top' :: rest))) ∨
    (∃ H' top', enumFor (H0.g.V p.r) (p.req H0.g) ws cw (fin T) (H, top, j)
        = .ok (.inr (.found H' top')) ∧ EI H0 p Al H' (top' :: rest) ∧ top'.id = top.id ∧
        (nodes H'.g.eb (top' :: rest) ≤ nodes H.g.eb (top :: rest) ∧
          rest.length + 2 ≤ (bset H'.g.eb (H0.g.vb p.r)).card) ∧
        PendW H0 p H.g.eb T (bset H'.g.eb (H0.g.vb p.r)) (top :: rest) ∧
        ∀ C, PendW H0 p H'.g.eb T C (top' :: rest) ↔
          (PendW H0 p H.g.eb T C (top :: rest) ∧ C ≠ bset H'.g.eb (H0.g.vb p.r))) ∨
    (∃ H' top' new cw', enumFor (H0.g.V p.r) (p.req H0.g) ws cw (fin T) (H, top, j)
        = .ok (.inr (.pushed H' top' new cw')) ∧ EI H0 p Al H' (new :: top' :: rest) ∧
        cw' = fin (lw H0 p (new :: top' :: rest)) ∧
        nodes H'.g.eb (new :: top' :: rest) < nodes H.g.eb (top :: rest) ∧
        ∀ C, PendW H0 p H'.g.eb T C (new :: top' :: rest) ↔
          PendW H0 p H.g.eb T C (top :: rest)) ∨
    (enumFor (H0.g.V p.r) (p.req H0.g) ws cw (fin T) (H, top, j)
        = .ok (.inr (.done H top)) ∧ bset H.g.eb top.cand = ∅) := by
  have g := W.g
  have w := g.wf
  have wH := I.upd.frame.wf w
  have hrH : p.r < H.g.nVert := by rw [I.upd.frame.nVert]; exact g.hr
  have hlv := I.lv
  have hlenL := Lv_len W I.lv
  simp only [List.length_cons] at hlenL
  unfold Lv at hlv
  obtain ⟨l1, l2, l3, l4, l5, l6, l7, l8, l9, l10, l11⟩ := hlv
  have hreqd : p.req H0.g = dlen (H0.g.V p.r).N := rfl
  have hdl := @dlen_le (H0.g.V p.r).N
  have hebl := I.upd.frame.ebl
  have hroom := g.room
  have hce := candOff_end g rest.length
  have hcge := candOff_ge g rest.length
  have hlen1 : (rest.length + 2) * p.req H0.g ≤ (p.L + 2) * p.req H0.g :=
    Nat.mul_le_mul_right _ (by omega)
  have hebo := w.eboEnd p.r g.hr
  have hBB := g.hB
  have hreq : 0 < p.req H0.g := dlen_pos (N_pos w g.hr)
  have hNlt := N_lt w g.hr
  have hNpos := N_pos w g.hr
  have hoff : top.cand.off = candOff H0.g p rest.length := by rw [l2]
  have hclen : top.cand.len = (H0.g.V p.r).N := by rw [l2]
  have hroff : top.res.off = p.ro := by rw [l1]
  have hrlen : top.res.len = (H0.g.V p.r).N := by rw [l1]
  unfold enumFor
  simp only
  by_cases hj : j < (H0.g.V p.r).N
  swap
  · right; right; right
    rw [if_neg hj]
    refine ⟨rfl, ?_⟩
    rw [Finset.eq_empty_iff_forall_notMem]
    intro c hc
    have h1 := hst c hc
    have h2 := (mem_bset.1 hc).1
    rw [hclen] at h2
    omega
  rw [if_pos hj, top.cand.test_spec H.g.eb j (by rw [hoff]; have := div_lt_dlen hj; omega), ok_bind]
  by_cases hjC : j ∈ bset H.g.eb top.cand
  swap
  · have hnb : ¬ bitAt H.g.eb (64 * top.cand.off + j) = true := fun h =>
      hjC (mem_bset.2 ⟨by rw [hclen]; exact hj, h⟩)
    rw [if_neg hnb]
    left
    refine ⟨H, top, rfl, hj, I, rfl, ?_, Nat.le_refl _, fun _ h => h, fun _ _ h => h⟩
    intro c hc
    have := hst c hc
    have : c ≠ j := fun h => hjC (h ▸ hc)
    omega
  rw [if_pos (mem_bset.1 hjC).2]
  obtain ⟨m1, r1, r2, r3⟩ := top.cand.reset_spec H.g.eb j
    (by rw [hoff]; have := div_lt_dlen hj; omega)
  rw [r1, ok_bind]
  have hpad1 : PadZero m1 top.cand := by
    intro i h1 h2; rw [r3, l8 i h1 h2]; simp
  have hC1 : bset m1 top.cand = (bset H.g.eb top.cand).erase j := by
    ext x
    simp only [Finset.mem_erase, mem_bset, r3]
    simp only [Bool.and_eq_true, Bool.not_eq_true', decide_eq_false_iff_not]
    constructor
    · rintro ⟨h1, h2, h3⟩; exact ⟨by omega, h1, h3⟩
    · rintro ⟨h1, h2, h3⟩; exact ⟨h2, by omega, h3⟩
  have hin1 : top.cand.off + dlen top.cand.len ≤ m1.length := by
    rw [hoff, hclen, r2]; omega
  rw [top.cand.count_pad m1 (by omega) hin1 hpad1, ok_bind]
  simp only
  have hjw := (l9 j hjC).2.1
  have hwl := hws.len
  rw [rd_getD (0 : R) (show j < ws.length by omega), ok_bind, hws.val j hjw]
  have U1 : EUpdS Al p.r p.B H0.g ({ H.g with eb := m1 } : Graph) :=
    I.upd.scratch (by omega) m1 H.g.searchCur r2 (fun a ha => by
      rw [r3, hoff]
      have : ¬ (a = 64 * candOff H0.g p rest.length + j) := by omega
      simp [this])
  have hsame1 : ({ H with g := { H.g with eb := m1 } } : NWG R) =
      { H0 with g := ({ H with g := { H.g with eb := m1 } } : NWG R).g } := by
    conv_lhs => rw [I.same]
  have F1 : WFrame H0 ({ H with g := { H.g with eb := m1 } } : NWG R) := WFrame.ofSame hsame1 U1.toEUpd
  have w1 : WF ({ H with g := { H.g with eb := m1 } } : NWG R).g := F1.frame.wf w
  have hnbr : ({ H.g with eb := m1 } : Graph).nbr (H0.g.V p.r) j = .ok (H0.g.e p.r j) := by
    unfold nbr e
    rw [show ({ H.g with eb := m1 } : Graph).el = H0.g.el from I.upd.frame.el]
    exact rd_getD _ (by have := w.inEl p.r g.hr; omega)
  rw [hnbr, ok_bind]
  have hvert := e_lt w g.hr hj
  rw [show ({ H.g with eb := m1 } : Graph).vtx (H0.g.e p.r j) =
    .ok (({ H with g := { H.g with eb := m1 } } : NWG R).g.V (H0.g.e p.r j)) from
    vtx_ok w1 (by rw [F1.frame.nVert]; exact hvert), ok_bind]
  have hgt1 : ∀ k ∈ bset m1 top.cand, j < k := by
    intro k hk
    rw [hC1, Finset.mem_erase] at hk
    have := hst k hk.2
    omega
  have X1 : XE ({ H with g := { H.g with eb := m1 } } : NWG R) := by
    refine Xe.of_frame F1 ?_ ?_ ?_
    · intro v hv
      have : ({ H with g := { H.g with eb := m1 } } : NWG R).mc v = H0.mc v := by
        unfold mc; rw [hsame1]
      rw [this]; exact Xe.mc v hv
    · rw [hsame1]; exact Xe.cm
    · rw [hsame1]; exact Xe.lim
  obtain ⟨P, hP, hPs, hPp⟩ := I.pot top (by simp)
  have hPs1 : bset m1 top.cand ⊆ P := by
    rw [hC1]; exact (Finset.erase_subset _ _).trans hPs
  obtain ⟨rm, cp, s1, s3, s4, s6⟩ := enumScan_spec
    (H := { H with g := { H.g with eb := m1 } }) X1.toXN w1 (P := P) (cp0 := top.pot)
    (r := p.r) (j := j) (by rw [F1.frame.nVert]; exact g.hr) (by rw [F1.V]; exact hj)
    (cand := top.cand) (eb := m1) (ws := ws) (cw := cw) (wj := H0.we p.r j) (required := fin T)
    (by rw [F1.V]; exact hP) hPs1 (by rw [F1.wsum]; exact hPp)
    (by rw [F1.V]; exact hclen) hin1 hgt1
    (by rw [F1.V]; exact hwl)
    (by
      intro k hk
      rw [hC1] at hk
      rw [F1.we]
      exact hws.val k (l9 k (Finset.mem_of_mem_erase hk)).2.1)
  rw [F1.frame.e, F1.V p.r] at s1
  rw [s1, ok_bind]
  have hAeq : ∀ x, ({ H with g := { H.g with eb := m1 } } : NWG R).g.A p.r j x ↔
      H0.g.A p.r j x := by
    intro x; unfold A; rw [F1.frame.nadj, F1.frame.e, F1.frame.e]
  simp only [hAeq] at s3 s6
  rw [F1.wsum] at s4
  simp only
  -- the lower levels are untouched by the reset
  have hlow : ∀ l, l < rest.length → ∀ i, i < 64 * p.req H0.g →
      bitAt m1 (64 * candOff H0.g p l + i) = bitAt H.g.eb (64 * candOff H0.g p l + i) := by
    intro l hl i hi
    have := candOff_lt g hl
    rw [r3, hoff]
    have : ¬ (64 * candOff H0.g p l + i = 64 * candOff H0.g p rest.length + j) := by omega
    simp [this]
  obtain ⟨c1, c2, c3⟩ := Lv_congr H.g.eb m1 rest hlow l11
  have hbl := bset_low hlow l11
  -- cliques containing j
  have hXj : ∀ X : Finset Nat, X ⊆ bset H.g.eb top.cand → (∀ a ∈ X, ∀ b ∈ X, H0.g.A p.r a b) →
      j ∈ X → X.erase j ⊆ H0.adjC p.r j (bset m1 top.cand) := by
    intro X h1 h2 h3
    rw [hC1]; exact erase_subset_adjC h1 h2 h3
  have hXn : ∀ X : Finset Nat, X ⊆ bset H.g.eb top.cand → j ∉ X → X ⊆ bset m1 top.cand := by
    intro X h1 h2 x hx
    rw [hC1, Finset.mem_erase]
    exact ⟨fun h => h2 (h ▸ hx), h1 hx⟩
  have hXs : ∀ X : Finset Nat, X ⊆ bset m1 top.cand → X ⊆ bset H.g.eb top.cand ∧ j ∉ X := by
    intro X h
    rw [hC1] at h
    exact ⟨fun x hx => Finset.mem_of_mem_erase (h hx), fun hjx => by simpa using h hjx⟩
  have hXgt : ∀ X : Finset Nat, X ⊆ bset H.g.eb top.cand → ∀ x ∈ X.erase j, j < x := by
    intro X h x hx
    rw [Finset.mem_erase] at hx
    have := hst x (h hx.2); omega
  have hXsplit : ∀ X : Finset Nat, X ⊆ bset H.g.eb top.cand → j ∈ X →
      Heavy H0 p (lw H0 p (top :: rest)) T X →
      (X = {j} ∧ T ≤ lw H0 p (top :: rest) + H0.qe p.r j) ∨ ((X.erase j).Nonempty ∧ lw H0 p (top :: rest) + H0.qe p.r j < T ∧
        Heavy H0 p (lw H0 p (top :: rest) + H0.qe p.r j) T (X.erase j)) := by
    intro X h1 h2 h3
    by_cases hne : (X.erase j).Nonempty
    · right
      refine ⟨hne, ?_⟩
      rw [← heavy_insert (hXgt X h1) hne, Finset.insert_erase h2]; exact h3
    · left
      have : X = {j} := by
        rw [Finset.not_nonempty_iff_eq_empty] at hne
        rw [← Finset.insert_erase h2, hne]; rfl
      rw [this, heavy_single] at h3
      exact ⟨this, h3⟩
  have hcard : (bset m1 top.cand).card < (bset H.g.eb top.cand).card := by
    rw [hC1]; exact Finset.card_erase_lt_of_mem hjC
  have hlv1 : ∀ x ∈ bset m1 top.cand, j + 1 ≤ x ∧ x ∈ H0.wCand p.r ∧
      x ∉ (({ top with startAt := j + 1 } : WState R) :: rest).map WState.id ∧
      ∀ t ∈ ({ top with startAt := j + 1 } : WState R) :: rest, H0.g.A p.r t.id x := by
    intro x hx
    have hx' : x ∈ bset H.g.eb top.cand := by
      rw [hC1] at hx; exact Finset.mem_of_mem_erase hx
    refine ⟨hgt1 x hx, (l9 x hx').2.1, (l9 x hx').2.2.1, ?_⟩
    intro t ht
    rcases List.mem_cons.1 ht with ht | ht
    · rw [ht]; exact (l9 x hx').2.2.2 top (by simp)
    · exact (l9 x hx').2.2.2 t (by simp [ht])
  have hroco := ro_candOff g rest.length
  have hlwt : ∀ t : WState R, t.id = top.id → lw H0 p (t :: rest) = lw H0 p (top :: rest) := by
    intro t ht; rw [lw_cons, lw_cons, ht]
  have hrmP : bset m1 top.cand \ rm.toFinset ⊆ P \ rm.toFinset :=
    Finset.sdiff_subset_sdiff hPs1 (Finset.Subset.refl _)
  have hPr : ∀ i ∈ P \ rm.toFinset, i < (H0.g.V p.r).N :=
    fun i hi => hP i (Finset.mem_sdiff.1 hi).1
  have hsubrm : H0.adjC p.r j (bset m1 top.cand) ⊆ bset m1 top.cand \ rm.toFinset := by
    intro x hx
    obtain ⟨h1, h2⟩ := Finset.mem_filter.1 hx
    rw [Finset.mem_sdiff, List.mem_toFinset]
    exact ⟨h1, fun h => (s3 x h).2 h2⟩
  have hnodes1 : ∀ m', bset m' top.cand = bset m1 top.cand →
      nodes m' rest = nodes H.g.eb rest →
      nodes m' ({ top with startAt := j + 1 } :: rest) ≤ nodes H.g.eb (top :: rest) := by
    intro m' h1 h2
    simp only [nodes]
    rw [h1, h2]
    have : 2 ^ ((bset m1 top.cand).card + 1) ≤ 2 ^ ((bset H.g.eb top.cand).card + 1) :=
      Nat.pow_le_pow_right (by decide) (by omega)
    omega
  obtain ⟨hf1, hf2, _, _⟩ := Lv_facts g H.g.eb (top :: rest) I.lv
  have hids : ∀ i ∈ ((top :: rest).map WState.id).toFinset, i < (H0.g.V p.r).N := by
    intro i hi
    rw [List.mem_toFinset] at hi
    obtain ⟨t, ht, rfl⟩ := List.mem_map.1 hi
    exact hf2 t ht
  have hjids : j ∉ ((top :: rest).map WState.id).toFinset := by
    rw [List.mem_toFinset]; exact (l9 j hjC).2.2.1
  have hlwi := wsum_ids (H0 := H0) (p := p) hf1
  have hcwj : cw + H0.we p.r j = fin (lw H0 p (top :: rest) + H0.qe p.r j) := by
    rw [hcw, ← hlwi, Xe.add w g.hr hids hj hjids]
    congr 1
    unfold wsum
    rw [Finset.sum_insert hjids, add_comm]
  have hpv : cp + cw + H0.we p.r j =
      fin (H0.wsum p.r (P \ rm.toFinset) + lw H0 p (top :: rest) + H0.qe p.r j) := by
    rw [s4, hcw, ← hlwi, Xe.add2 w g.hr hPr hids, Xe.add3 w g.hr hPr hids hj hjids]
  have hgev : cp + cw + H0.we p.r j ≥ fin T ↔
      T ≤ H0.wsum p.r (P \ rm.toFinset) + lw H0 p (top :: rest) + H0.qe p.r j := by
    rw [hpv, ge_iff_le, ExactNum.le]
  have hgef : cw + H0.we p.r j ≥ fin T ↔ T ≤ lw H0 p (top :: rest) + H0.qe p.r j := by
    rw [hcwj, ge_iff_le, ExactNum.le]
  by_cases hpot : cp + cw + H0.we p.r j ≥ fin T
  swap
  · -- pruned
    left
    rw [if_neg hpot]
    refine ⟨_, _, rfl, hj, ⟨hsame1, U1, I.sc, ?_, ?_, ?_, ?_, ?_⟩, rfl, hgt1,
      hnodes1 m1 rfl c3, ?_, ?_⟩
    · unfold Lv
      exact ⟨l1, l2, l3, l4, l5, l6, by simp only; omega, hpad1, hlv1, l10, c1⟩
    · exact Ordd_low (s := top) rfl hbl I.ord
    · intro s hs
      rcases List.mem_cons.1 hs with hs | hs
      · rw [hs]; exact ⟨P, hP, hPs1, hPp⟩
      · show ∃ P : Finset Nat, _ ∧ bset m1 s.cand ⊆ P ∧ _
        rw [hbl s hs]; exact I.pot s (by simp [hs])
    · intro i hi
      show bitAt m1 _ = _
      have h1 := I.res i hi
      rw [r3, hoff]
      have : ¬ (64 * p.ro + i = 64 * candOff H0.g p rest.length + j) := by omega
      simp only [this, decide_false, Bool.not_false, Bool.true_and]
      exact h1
    · intro a ha
      show bitAt m1 a = false
      rw [r3, I.zero a ha]; simp
    · intro C
      show PendW H0 p m1 T C ({ top with startAt := j + 1 } :: rest) → _
      unfold PendW
      rw [PendW_congr T C hbl, hlwt _ rfl]
      rintro (⟨X, x1, x2, x3, x4, x5⟩ | h)
      · exact Or.inl ⟨X, (hXs X x1).1, x2, x3, x4, x5⟩
      · exact Or.inr h
    · intro hnn C
      show _ → PendW H0 p m1 T C ({ top with startAt := j + 1 } :: rest)
      unfold PendW
      rw [PendW_congr T C hbl, hlwt _ rfl]
      rintro (⟨X, x1, x2, x3, x4, x5⟩ | h)
      · by_cases hjX : j ∈ X
        · exfalso
          have h1 := wsum_mono hnn p.r (((hXj X x1 x3 hjX).trans hsubrm).trans hrmP)
          have h2 := x5.1
          rw [wsum_erase hjX] at h2
          rw [hgev, not_le] at hpot
          linarith
        · exact Or.inl ⟨X, hXn X x1 hjX, x2, x3, x4, x5⟩
      · exact Or.inr h
  rw [if_pos hpot]
  have hjid : j ∉ (top :: rest).map WState.id := (l9 j hjC).2.2.1
  have hjt := (l9 j hjC).2.2.2
  have hcl := Lv_insert g I.lv hj hjt
  obtain ⟨f1, f2, f3, f4⟩ := Lv_facts g H.g.eb (top :: rest) I.lv
  by_cases hfull : cw + H0.we p.r j ≥ fin T
  · -- found
    right; left
    rw [if_pos hfull]
    obtain ⟨m2, t1, t2, t3⟩ := GBits.set_spec top.res m1 j (by
      rw [hroff]
      have := div_lt_dlen hj
      have := g.hrc
      have h3 : 2 * p.req H0.g ≤ (p.L + 2) * p.req H0.g := Nat.mul_le_mul_right _ (by omega)
      simp only [SPar.req] at *
      omega)
    rw [t1, ok_bind]
    rw [hroff] at t3
    have hres2 : ∀ i, i < 64 * p.req H0.g → bitAt m2 (64 * p.ro + i)
        = decide (i = j ∨ i ∈ (top :: rest).map WState.id) := by
      intro i hi
      rw [t3, r3, hoff, I.res i hi]
      have : ¬ (64 * p.ro + i = 64 * candOff H0.g p rest.length + j) := by omega
      simp only [this, decide_false, Bool.not_false, Bool.true_and]
      rw [← Bool.decide_or]
      apply decide_eq_decide.2
      constructor
      · rintro (h | h)
        · left; omega
        · right; exact h
      · rintro (h | h)
        · left; omega
        · right; exact h
    have hbs : bset m2 top.res = insert j ((top :: rest).map WState.id).toFinset := by
      ext x
      rw [mem_bset, Finset.mem_insert, List.mem_toFinset, hroff, hrlen]
      constructor
      · rintro ⟨h1, h2⟩
        rw [hres2 x (by omega)] at h2
        simpa using h2
      · intro h
        have hx : x < (H0.g.V p.r).N := by
          rcases h with h | h
          · omega
          · obtain ⟨t, ht, rfl⟩ := List.mem_map.1 h
            exact f2 t ht
        refine ⟨hx, ?_⟩
        rw [hres2 x (by omega)]
        simpa using h
    have U2 : EUpdS Al p.r p.B H0.g { ({ H.g with eb := m1 } : Graph) with eb := m2 } :=
      I.upd.scratch (by omega) m2 H.g.searchCur (t2.trans r2) (fun a ha => by
        rw [t3, r3, hoff]
        have h1 : ¬ (a = 64 * candOff H0.g p rest.length + j) := by omega
        have h2 : ¬ (a = 64 * p.ro + j) := by have := g.hrc; omega
        simp [h1, h2])
    obtain ⟨m3, u1, u2, u3, u5, u6⟩ := Graph.store_spec (res := top.res)
      w g.hr U2.toEUpd g.hB hrlen (by have := g.hrc; rw [hroff]; omega)
      (by
        rw [hroff]
        show _ ≤ List.length m2
        have := g.hrc
        have h3 : 2 * p.req H0.g ≤ (p.L + 2) * p.req H0.g := Nat.mul_le_mul_right _ (by omega)
        simp only [SPar.req] at *
        omega)
      (by
        intro i h1 h2
        show bitAt m2 _ = false
        rw [hrlen] at h1 h2
        rw [hroff, hres2 i h2]
        simp only [decide_eq_false_iff_not, not_or]
        refine ⟨by omega, fun h => ?_⟩
        obtain ⟨t, ht, rfl⟩ := List.mem_map.1 h
        have := f2 t ht; omega)
      (by
        show IsCl H0.g p.r (bset m2 _)
        rw [hbs]; exact hcl)
    have hvb2 : ({ H.g with eb := m1 } : Graph).vbits (H0.g.V p.r) =
        ({ ({ H.g with eb := m1 } : Graph) with eb := m2 } : Graph).vbits (H0.g.V p.r) := rfl
    rw [hvb2]
    rw [bind_eq_ok] at u1
    obtain ⟨vbv, ub1, ub2⟩ := u1
    rw [ub1, ok_bind]
    change vbv.copyData top.res.off m2 = _ at ub2
    rw [ub2, ok_bind]
    have hm3l : m3.length = H0.g.eb.length := by
      rw [u3]; show m2.length = _; rw [t2, r2, hebl]
    obtain ⟨m4, v1, v2, v3⟩ := GBits.reset_spec top.res m3 j (by
      rw [hroff]
      have := div_lt_dlen hj
      have := g.hrc
      have h3 : 2 * p.req H0.g ≤ (p.L + 2) * p.req H0.g := Nat.mul_le_mul_right _ (by omega)
      simp only [SPar.req] at *
      omega)
    rw [v1, ok_bind]
    rw [hroff] at v3
    have hm4 : ∀ a, 64 * p.B ≤ a → bitAt m4 a =
        (!decide (a = 64 * candOff H0.g p rest.length + j) && bitAt H.g.eb a) := by
      intro a ha
      rw [v3, u5 a ha]
      show (_ && bitAt m2 a) = _
      rw [t3, r3, hoff]
      by_cases h1 : a = 64 * p.ro + j
      · have hne : ¬ (64 * p.ro + j = 64 * candOff H0.g p rest.length + j) := by
          omega
        have hz := I.res j (by omega)
        rw [decide_eq_false hjid] at hz
        rw [h1]
        simp [hz]
      · simp [h1]
    have hC4 : bset m4 top.cand = bset m1 top.cand := by
      apply bset_congr rfl
      intro i hi
      rw [hm4 _ (by rw [hoff]; omega), r3, hoff]
    have hlow4 : ∀ l, l < rest.length → ∀ i, i < 64 * p.req H0.g →
        bitAt m4 (64 * candOff H0.g p l + i) = bitAt H.g.eb (64 * candOff H0.g p l + i) := by
      intro l hl i hi
      have h1 := candOff_lt g hl
      have h2 := candOff_ge g l
      rw [hm4 _ (by omega)]
      have : ¬ (64 * candOff H0.g p l + i = 64 * candOff H0.g p rest.length + j) := by omega
      simp [this]
    have hbl4 := bset_low hlow4 l11
    have hlc := Lv_congr H.g.eb m4 rest hlow4 l11
    have U4 : EUpdS Al p.r p.B H0.g { ({ H.g with eb := m1 } : Graph) with eb := m4 } :=
      EUpdS.scratch (P := Al) ⟨u2, Or.inr (by
        rw [u6]
        show Al p.r (bset m2 _)
        rw [hbs]
        apply hAl
        have h1 := hgef.1 hfull
        rw [← hlwi] at h1
        unfold wsum at h1 ⊢
        rw [Finset.sum_insert hjids]
        linarith)⟩ (by omega) m4 H.g.searchCur v2 (fun a ha => by
        rw [v3]
        have h2 : ¬ (a = 64 * p.ro + j) := by have := g.hrc; omega
        simp [h2])
    have hfin : bset m4 (H0.g.vb p.r) = insert j ((top :: rest).map WState.id).toFinset := by
      rw [← hbs]
      rw [show bset m4 (H0.g.vb p.r) = bset m3 (H0.g.vb p.r) from ?_]
      · exact u6
      · apply bset_congr rfl
        intro i hi
        simp only [vb] at hi ⊢
        rw [v3]
        have h2 : ¬ (64 * (H0.g.V p.r).ebo + i = 64 * p.ro + j) := by have := g.hrc; omega
        simp [h2]
    refine ⟨_, _, rfl, ⟨?_, U4, I.sc, ?_, ?_, ?_, ?_, ?_⟩, rfl,
      ⟨hnodes1 m4 hC4 hlc.2.2, by
        show _ ≤ (bset m4 _).card
        rw [hfin, Finset.card_insert_of_notMem (by rwa [List.mem_toFinset]),
          List.toFinset_card_of_nodup f1, List.length_map, List.length_cons]⟩, ?_, ?_⟩
    · conv_lhs => rw [I.same]
    · show Lv H0 p m4 _
      unfold Lv
      refine ⟨l1, l2, l3, l4, l5, l6, by simp only; omega, ?_, ?_, l10, hlc.1⟩
      · intro i h1 h2
        have := hpad1 i h1 h2
        rw [r3] at this
        rw [hm4 _ (by rw [hoff]; omega), ← hoff]; exact this
      · show ∀ c ∈ bset m4 top.cand, _
        rw [hC4]; exact hlv1
    · exact Ordd_low (s := top) rfl hbl4 I.ord
    · intro s hs
      show ∃ P : Finset Nat, _ ∧ bset m4 s.cand ⊆ P ∧ _
      rcases List.mem_cons.1 hs with hs | hs
      · rw [hs]
        show ∃ P : Finset Nat, _ ∧ bset m4 top.cand ⊆ P ∧ _
        rw [hC4]; exact ⟨P, hP, hPs1, hPp⟩
      · rw [hbl4 s hs]; exact I.pot s (by simp [hs])
    · intro i hi
      show bitAt m4 _ = _
      rw [hm4 _ (by have := g.hrc; omega), I.res i hi]
      have : ¬ (64 * p.ro + i = 64 * candOff H0.g p rest.length + j) := by omega
      simp [this]
    · intro a ha
      show bitAt m4 a = false
      have ha' : 64 * H.g.searchCur ≤ a := ha
      rw [hm4 a (by rw [I.sc] at ha'; omega), I.zero a ha']; simp
    · show PendW H0 p H.g.eb T (bset m4 _) _
      rw [hfin]
      unfold PendW
      left
      refine ⟨{j}, by simpa using hjC, by simp, ?_, ?_, ?_⟩
      · intro a ha b hb
        rw [Finset.mem_singleton] at ha hb
        rw [ha, hb]; exact A_refl w g.hr hj
      · rw [Finset.union_comm]; rfl
      · rw [heavy_single]; exact hgef.1 hfull
    · intro C
      show PendW H0 p m4 T C ({ top with startAt := j + 1 } :: rest) ↔ (_ ∧ C ≠ bset m4 _)
      rw [hfin]
      rw [PendW, PendW]
      rw [PendW_congr T C hbl4, hlwt _ rfl]
      have hnotlow : PendW H0 p H.g.eb T C rest →
          C ≠ insert j ((top :: rest).map WState.id).toFinset := by
        intro hp hC
        refine PendW_notMem I.lv I.ord hp ?_
        intro t ht
        rw [hC, Finset.mem_insert, List.mem_toFinset]
        exact Or.inr (List.mem_map.2 ⟨t, ht, rfl⟩)
      constructor
      · rintro (⟨X, x1, x2, x3, x4, x5⟩ | hp)
        · have x1' : X ⊆ bset m4 top.cand := x1
          rw [hC4] at x1'
          obtain ⟨y1, y2⟩ := hXs X x1'
          refine ⟨Or.inl ⟨X, y1, x2, x3, x4, x5⟩, ?_⟩
          intro hC
          have : j ∈ C := by rw [hC]; simp
          rw [x4, Finset.mem_union, List.mem_toFinset] at this
          rcases this with h | h
          · exact hjid h
          · exact y2 h
        · exact ⟨Or.inr hp, hnotlow hp⟩
      · rintro ⟨⟨X, x1, x2, x3, x4, x5⟩ | hp, hne⟩
        · left
          refine ⟨X, ?_, x2, x3, x4, x5⟩
          show X ⊆ bset m4 top.cand
          rw [hC4]
          apply hXn X x1
          intro hjX
          rcases hXsplit X x1 hjX x5 with ⟨h1, _⟩ | ⟨_, h1, _⟩
          · apply hne
            rw [x4, h1, Finset.union_comm]; rfl
          · exact absurd (hgef.1 hfull) (not_le.2 h1)
        · exact Or.inr hp
  · -- push
    right; right; left
    rw [if_neg hfull]
    rw [hgef, not_le] at hfull
    have hsc := I.sc
    simp only [List.length_cons] at hsc
    have hL : rest.length + 2 ≤ p.L := by
      have := W.hL _ hcl
      rw [Finset.card_insert_of_notMem (by rw [List.mem_toFinset]; exact hjid),
          List.toFinset_card_of_nodup f1] at this
      simp only [List.length_map, List.length_cons] at this
      omega
    have hlen3 : (rest.length + 3) * p.req H0.g ≤ (p.L + 2) * p.req H0.g :=
      Nat.mul_le_mul_right _ (by omega)
    have hx3 : (rest.length + 3) * p.req H0.g = (rest.length + 2) * p.req H0.g + p.req H0.g := by
      rw [show rest.length + 3 = (rest.length + 2) + 1 from rfl, Nat.succ_mul]
    have hebb := w.eblen
    have hsc2 : (rest.length + 1 + 1) * p.req H0.g = (rest.length + 2) * p.req H0.g := rfl
    rw [hsc2] at hsc
    rw [loadMemory_eq (G := { H.g with eb := m1 }) (p.req H0.g)
      (by show H.g.searchCur + _ < _; omega)]
    simp only
    have hnewoff : H.g.searchCur = candOff H0.g p (rest.length + 1) := by
      rw [hsc]; unfold candOff; rw [if_neg (by omega)]
    have hclt := candOff_lt g (Nat.lt_succ_self rest.length)
    simp only [Nat.succ_eq_add_one] at hclt
    have hroN := ro_candOff g (rest.length + 1)
    have hlenm1 : m1.length = H0.g.eb.length := r2.trans hebl
    obtain ⟨m2, t1, t2, t3⟩ := GBits.copyData_spec ⟨H.g.searchCur, top.cand.len⟩ top.cand.off m1
      (by simp only; rw [hclen]; simp only [SPar.req] at *; omega)
      (by simp only; exact hin1)
      (by simp only; rw [hoff, hclen, hnewoff]; simp only [SPar.req] at *; omega)
    have hcf : GBits.copyFrom top.cand H.g.searchCur m1 =
        .ok (⟨candOff H0.g p (rest.length + 1), (H0.g.V p.r).N⟩, m2) := by
      unfold GBits.copyFrom
      simp only
      rw [t1, ok_bind, hclen, hnewoff]
    rw [hcf, ok_bind]
    simp only
    obtain ⟨m3, v1, v2, v3⟩ := GBits.set_spec top.res m2 j (by
      rw [hroff]
      have := div_lt_dlen hj
      have := g.hrc
      have h3 : 2 * p.req H0.g ≤ (p.L + 2) * p.req H0.g := Nat.mul_le_mul_right _ (by omega)
      simp only [SPar.req] at *
      omega)
    rw [v1, ok_bind]
    obtain ⟨m4, y1, y2, y3⟩ := resets_spec ⟨candOff H0.g p (rest.length + 1), (H0.g.V p.r).N⟩ rm m3
      (by
        intro k hk
        have h1 := (mem_bset.1 (s3 k hk).1).1
        rw [hclen] at h1
        have := div_lt_dlen h1
        simp only [SPar.req] at *
        omega)
    rw [y1, ok_bind]
    simp only [hclen, hnewoff, hroff] at t3 v3 y3
    have hronc : p.ro + p.req H0.g ≤ candOff H0.g p (rest.length + 1) := by
      have := g.hrc
      have h3 : 2 * p.req H0.g ≤ (rest.length + 2) * p.req H0.g := Nat.mul_le_mul_right _ (by omega)
      rw [← hnewoff, hsc]; omega
    generalize hnc : candOff H0.g p (rest.length + 1) = nc at *
    generalize htc : candOff H0.g p rest.length = tc at *
    have hl4 : m4.length = H.g.eb.length := by rw [y2, v2, t2, r2]
    -- bits of m4
    have hb4 : ∀ a, a < 64 * nc → bitAt m4 a =
        (decide (a = 64 * p.ro + j) || (!decide (a = 64 * tc + j) && bitAt H.g.eb a)) := by
      intro a ha
      have h1 : ¬ (64 * nc ≤ a ∧ a - 64 * nc ∈ rm) := by omega
      have h2 : ¬ (64 * nc ≤ a ∧ a < 64 * (nc + dlen (H0.g.V p.r).N)) := by omega
      rw [y3, v3, t3, if_neg h2, r3, hoff]
      simp [h1]
    have hb4n : ∀ i, i < 64 * p.req H0.g → bitAt m4 (64 * nc + i) =
        (!decide (i ∈ rm) && bitAt m1 (64 * tc + i)) := by
      intro i hi
      simp only [SPar.req] at *
      have h1 : (64 * nc ≤ 64 * nc + i ∧ 64 * nc + i < 64 * (nc + dlen (H0.g.V p.r).N)) := by
        omega
      have h2 : ¬ (64 * nc + i = 64 * p.ro + j) := by omega
      have h3 : 64 * nc + i - 64 * nc = i := by omega
      rw [y3, v3, t3, if_pos h1, hoff, h3]
      have h4 : (64 * nc ≤ 64 * nc + i) := by omega
      simp only [h2, h4, decide_false, Bool.false_or, true_and]
      rw [Nat.add_comm i]
    have hb4z : ∀ a, 64 * (nc + p.req H0.g) ≤ a → bitAt m4 a = false := by
      intro a ha
      simp only [SPar.req] at *
      have h2 : ¬ (64 * nc ≤ a ∧ a < 64 * (nc + dlen (H0.g.V p.r).N)) := by omega
      have h4 : ¬ (a = 64 * p.ro + j) := by omega
      rw [y3, v3, t3, if_neg h2, r3, I.zero a (by omega)]
      simp [h4]
    have hCn : bset m4 ⟨nc, (H0.g.V p.r).N⟩ = H0.adjC p.r j (bset m1 top.cand) := by
      unfold adjC
      ext x
      rw [mem_bset, Finset.mem_filter, mem_bset, hoff, hclen]
      simp only
      constructor
      · rintro ⟨h1, h2⟩
        rw [hb4n x (by omega)] at h2
        simp only [Bool.and_eq_true, Bool.not_eq_true', decide_eq_false_iff_not] at h2
        refine ⟨⟨h1, h2.2⟩, ?_⟩
        by_contra hA
        refine h2.1 (s6 hpot x ?_ hA)
        rw [mem_bset, hoff, hclen]; exact ⟨h1, h2.2⟩
      · rintro ⟨⟨h1, h2⟩, h3⟩
        refine ⟨h1, ?_⟩
        rw [hb4n x (by omega), h2]
        have : x ∉ rm := fun h => (s3 x h).2 h3
        simp [this]
    have hADsub : ∀ x ∈ H0.adjC p.r j (bset m1 top.cand),
        x ∈ bset m1 top.cand ∧ H0.g.A p.r j x := by
      intro x hx; exact Finset.mem_filter.1 hx
    have hADcard : (H0.adjC p.r j (bset m1 top.cand)).card ≤ (bset m1 top.cand).card :=
      Finset.card_le_card fun x hx => (hADsub x hx).1
    have hC4 : bset m4 top.cand = bset m1 top.cand := by
      apply bset_congr rfl
      intro i hi
      rw [hclen] at hi
      rw [hoff, hb4 _ (by omega), r3, hoff]
      have : ¬ (64 * tc + i = 64 * p.ro + j) := by omega
      simp [this]
    have hlow4 : ∀ l, l < rest.length → ∀ i, i < 64 * p.req H0.g →
        bitAt m4 (64 * candOff H0.g p l + i) = bitAt H.g.eb (64 * candOff H0.g p l + i) := by
      intro l hl i hi
      have h1 := candOff_lt g hl
      have h3 := ro_candOff g l
      rw [hb4 _ (by omega)]
      have h4 : ¬ (64 * candOff H0.g p l + i = 64 * tc + j) := by omega
      have h5 : ¬ (64 * candOff H0.g p l + i = 64 * p.ro + j) := by omega
      simp [h4, h5]
    obtain ⟨d1, d2, d3⟩ := Lv_congr H.g.eb m4 rest hlow4 l11
    have hbl4 := bset_low hlow4 l11
    have hjt' : ∀ t ∈ ({ top with startAt := j + 1 } : WState R) :: rest,
        H0.g.A p.r t.id j := by
      intro t ht
      rcases List.mem_cons.1 ht with ht | ht
      · rw [ht]; exact hjt top (by simp)
      · exact hjt t (by simp [ht])
    have hLvtop : Lv H0 p m4 ({ top with startAt := j + 1 } :: rest) := by
      unfold Lv
      refine ⟨l1, by rw [htc]; exact l2, l3, l4, l5, l6, by simp only; omega, ?_, ?_, l10, d1⟩
      · intro i h1 h2
        have := hpad1 i h1 h2
        simp only at h1 h2 ⊢
        rw [hclen] at h2
        rw [hoff] at this ⊢
        rw [hb4 _ (by omega)]
        rw [r3, hoff] at this
        have h5 : ¬ (64 * tc + i = 64 * p.ro + j) := by omega
        simpa [h5] using this
      · show ∀ c ∈ bset m4 top.cand, _
        rw [hC4]; exact hlv1
    have hlwn : lw H0 p (top :: rest) + H0.qe p.r j = H0.qe p.r j +
        lw H0 p ({ top with startAt := j + 1 } :: rest) := by
      rw [add_comm, lw_cons, lw_cons]
    refine ⟨_, _, _, _, rfl, ⟨?_, ?_, ?_, ?_, ?_, ?_, ?_, ?_⟩, ?_, ?_, ?_⟩
    · conv_lhs => rw [I.same]
    · exact I.upd.scratch (by omega) m4 _ hl4 (fun a ha => by
        rw [hb4 a (by omega)]
        have h4 : ¬ (a = 64 * tc + j) := by omega
        have h5 : ¬ (a = 64 * p.ro + j) := by have := g.hrc; omega
        simp [h4, h5])
    · simp only [List.length_cons]
      rw [show rest.length + 1 + 1 + 1 = rest.length + 3 from rfl]
      omega
    · show Lv H0 p m4 (_ :: { top with startAt := j + 1 } :: rest)
      rw [Lv]
      refine ⟨l1, ?_, hj, hjid, hjt', by simp, by simp only; omega, ?_, ?_, fun _ => hjw, hLvtop⟩
      · simp only [List.length_cons]; rw [hnc]
      · intro i h1 h2
        simp only at h1 h2 ⊢
        rw [hb4n i h2]
        have := hpad1 i (by rw [hclen]; exact h1) (by rw [hclen]; exact h2)
        rw [hoff] at this
        rw [this]; simp
      · show ∀ c ∈ bset m4 ⟨nc, (H0.g.V p.r).N⟩, _
        rw [hCn]
        intro c hc
        obtain ⟨hc1, hc2⟩ := hADsub c hc
        have h1 := hgt1 c hc1
        have h2 := hlv1 c hc1
        refine ⟨by simp only; omega, h2.2.1, ?_, ?_⟩
        · simp only [List.map_cons, List.mem_cons, not_or]
          have h3 := h2.2.2.1
          simp only [List.map_cons, List.mem_cons, not_or] at h3
          exact ⟨by omega, h3⟩
        · intro t ht
          rcases List.mem_cons.1 ht with rfl | ht
          · exact hc2
          · rcases List.mem_cons.1 ht with rfl | ht
            · exact h2.2.2.2 { top with startAt := j + 1 } (by simp)
            · exact h2.2.2.2 t (by simp [ht])
    · show Ordd m4 (_ :: { top with startAt := j + 1 } :: rest)
      refine ⟨?_, Ordd_low (s := top) rfl hbl4 I.ord⟩
      show j ∉ bset m4 top.cand
      rw [hC4, hC1]; simp
    · intro s hs
      show ∃ P : Finset Nat, _ ∧ bset m4 s.cand ⊆ P ∧ _
      rcases List.mem_cons.1 hs with hs | hs
      · rw [hs]
        simp only
        rw [hCn]
        exact ⟨P \ rm.toFinset, hPr, hsubrm.trans hrmP, s4⟩
      · rcases List.mem_cons.1 hs with hs | hs
        · rw [hs]
          show ∃ P : Finset Nat, _ ∧ bset m4 top.cand ⊆ P ∧ _
          rw [hC4]; exact ⟨P, hP, hPs1, hPp⟩
        · rw [hbl4 s hs]; exact I.pot s (by simp [hs])
    · intro i hi
      show bitAt m4 _ = _
      rw [hb4 _ (by have := g.hrc; omega), I.res i hi]
      have h4 : ¬ (64 * p.ro + i = 64 * tc + j) := by omega
      simp only [h4, decide_false, Bool.not_false, Bool.true_and]
      rw [← Bool.decide_or]
      apply decide_eq_decide.2
      simp only [List.map_cons, List.mem_cons]
      constructor
      · rintro (h | h)
        · left; omega
        · right; exact h
      · rintro (h | h)
        · left; omega
        · right; exact h
    · intro a ha
      show bitAt m4 a = false
      exact hb4z a (by simp only at ha; omega)
    · rw [hcwj, hlwn, lw_cons (rest := { top with startAt := j + 1 } :: rest)]
    · show nodes m4 (_ :: { top with startAt := j + 1 } :: rest) < _
      simp only [nodes]
      rw [d3, hC4, hCn]
      generalize (bset m1 top.cand).card = x at *
      generalize (bset H.g.eb top.cand).card = y at *
      generalize (H0.adjC p.r j (bset m1 top.cand)).card = z at *
      have e1 : 2 ^ (z + 1) ≤ 2 ^ (x + 1) :=
        Nat.pow_le_pow_right (by decide) (by omega)
      have e3 : 2 ^ (x + 1) + 2 ^ (x + 1) ≤ 2 ^ (y + 1) := by
        have : 2 ^ (x + 1) + 2 ^ (x + 1) = 2 ^ (x + 2) := by rw [Nat.pow_succ 2 (x + 1)]; omega
        rw [this]
        exact Nat.pow_le_pow_right (by decide) (by omega)
      have e4 : 0 < 2 ^ (x + 1) := Nat.pos_of_ne_zero (by simp)
      have e5 : 0 < 2 ^ (z + 1) := Nat.pos_of_ne_zero (by simp)
      clear * - e1 e3 e4 e5
      omega
    · intro C
      show PendW H0 p m4 T C (_ :: { top with startAt := j + 1 } :: rest) ↔ _
      rw [PendW, PendW, PendW]
      rw [PendW_congr T C hbl4, lw_cons (rest := { top with startAt := j + 1 } :: rest),
        ← hlwn, hlwt _ rfl]
      simp only [List.map_cons]
      rw [hC4, hCn]
      constructor
      · rintro (⟨X, x1, x2, x3, x4, x5⟩ | ⟨X, x1, x2, x3, x4, x5⟩ | hp)
        · left
          have hjX : ∀ x ∈ X, j < x := fun x h => hgt1 x (Finset.mem_filter.1 (x1 h)).1
          refine ⟨insert j X, ?_, by simp, ?_, ?_, ?_⟩
          · intro x hx
            rcases Finset.mem_insert.1 hx with rfl | hx
            · exact hjC
            · have := (Finset.mem_filter.1 (x1 hx)).1
              rw [hC1] at this
              exact Finset.mem_of_mem_erase this
          · intro a ha b hb
            rcases Finset.mem_insert.1 ha with ha | ha <;> rcases Finset.mem_insert.1 hb with hb | hb
            · rw [ha, hb]; exact A_refl w g.hr hj
            · rw [ha]; exact (Finset.mem_filter.1 (x1 hb)).2
            · rw [hb]
              exact A_symm w g.hr hj (Finset.mem_filter.1 (x1 ha)).2
            · exact x3 a ha b hb
          · rw [x4]
            ext x
            simp only [Finset.mem_union, List.mem_toFinset, List.mem_cons, Finset.mem_insert]
            constructor
            · rintro ((h | h) | h)
              · exact Or.inr (Or.inl h)
              · exact Or.inl h
              · exact Or.inr (Or.inr h)
            · rintro (h | h | h)
              · exact Or.inl (Or.inr h)
              · exact Or.inl (Or.inl h)
              · exact Or.inr h
          · rw [heavy_insert hjX x2]
            exact ⟨hfull, x5⟩
        · left
          exact ⟨X, (hXs X x1).1, x2, x3, x4, x5⟩
        · exact Or.inr hp
      · rintro (⟨X, x1, x2, x3, x4, x5⟩ | hp)
        · by_cases hjX : j ∈ X
          · left
            rcases hXsplit X x1 hjX x5 with ⟨_, h1⟩ | ⟨h1, _, h2⟩
            · exact absurd hfull (not_lt.2 h1)
            refine ⟨X.erase j, hXj X x1 x3 hjX, h1, ?_, ?_, h2⟩
            · intro a ha b hb
              exact x3 a (Finset.mem_of_mem_erase ha) b (Finset.mem_of_mem_erase hb)
            · rw [x4]
              ext x
              simp only [Finset.mem_union, List.mem_toFinset, List.mem_cons, Finset.mem_erase]
              constructor
              · rintro (h | h)
                · exact Or.inl (Or.inr h)
                · by_cases hxj : x = j
                  · exact Or.inl (Or.inl hxj)
                  · exact Or.inr ⟨hxj, h⟩
              · rintro ((h | h) | h)
                · rw [h]; exact Or.inr hjX
                · exact Or.inl h
                · exact Or.inr h.2
          · exact Or.inr (Or.inl ⟨X, hXn X x1 hjX, x2, x3, x4, x5⟩)
        · exact Or.inr (Or.inr hp)

end NWG

end CM
