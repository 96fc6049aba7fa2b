import Verif.Lemmas.NWHeapEnum
import Verif.Lemmas.NWHeapEnumAny
import Verif.Lemmas.EXAllCliques
import Verif.SpecHeap

/-!
# What a weighted iterator says after it ran out of memory

In exact arithmetic, for all graphs: a refusal in the middle of a call leaves the state of an iterator
that skipped a candidate.
-/

namespace CM

open Spec Graph

/-- Two loops in step, until the second ends badly. -/
theorem loop_try {σ ρ ρ' κ : Type} {f : σ → M (σ ⊕ ρ)} {g : σ × κ → M ((σ × κ) ⊕ ρ')}
    (I : σ → Prop) (J : κ → Prop) (out : ρ → κ → ρ') (bad : ρ' → Prop)
    (h : ∀ s q y, I s → J q → f s = .ok y →
      (∃ q', J q' ∧ g (s, q) = .ok (y.map (fun s => (s, q')) (fun r => out r q'))) ∨
      ∃ r', bad r' ∧ g (s, q) = .ok (.inr r'))
    (hI : ∀ s s', I s → f s = .ok (.inl s') → I s') :
    ∀ (n : Nat) (s : σ) (q : κ) (r : ρ), I s → J q → loop n f s = .ok r →
      (∃ q', J q' ∧ loop n g (s, q) = .ok (out r q')) ∨ ∃ r', bad r' ∧ loop n g (s, q) = .ok r' := by
  intro n
  induction n with
  | zero => intro s q r _ _ hl; simp [loop] at hl
  | succ n ih =>
    intro s q r hs hq hl
    unfold loop at hl ⊢
    cases e : f s with
    | error x => rw [e] at hl; cases hl
    | ok y =>
      rw [e] at hl
      rcases h s q y hs hq e with ⟨q', k1, k2⟩ | ⟨r', k1, k2⟩
      · rw [k2]
        cases y with
        | inl s' => exact ih s' q' r (hI s s' hs e) k1 hl
        | inr r0 =>
          cases hl
          exact Or.inl ⟨q', k1, rfl⟩
      · rw [k2]
        exact Or.inr ⟨r', k1, rfl⟩

namespace NWG

open ExactNum

set_option linter.unusedSectionVars false

variable {R : Type} [Zero R] [Add R] [Sub R] [NatCast R] [LT R] [LE R] [DecidableLT R]
  [DecidableLE R]

variable {P : Prop} {grow : Nat → Nat} {H0 : NWG R} {p : SPar} {q : Vecs}

/-- The scan does not touch the capacity of `states`. -/
theorem enumScanA_states {H : NWG R} {V U : Vtx} {cand : GBits} {eb : Mem} {ws : List R}
    {cw wj T cp0 : R} {k0 : Nat} {rm : List Nat} {cp : R} {q' : Vecs}
    (h : H.enumScanA grow V U cand eb ws cw wj T k0 cp0 q = .ok (some (rm, cp, q'))) :
    q'.states = q.states := by
  unfold enumScanA at h
  refine loop_inv (fun (s : (Nat × List Nat × R) × Vecs) => s.2.states = q.states)
    (fun (r : Option (List Nat × R × Vecs)) => ∀ x, r = some x → x.2.2.states = q.states)
    ?_ ?_ rfl h _ rfl
  · rintro ⟨⟨k, rm, cp⟩, q1⟩ s' hI hf
    dsimp only at hI hf
    split at hf
    · obtain ⟨t, e0, hf⟩ := bind_eq_ok.1 hf
      cases t with
      | false => cases hf; exact hI
      | true =>
        simp only [if_true] at hf
        obtain ⟨val, e1, hf⟩ := bind_eq_ok.1 hf
        obtain ⟨⟨f, ans⟩, e2, hf⟩ := bind_eq_ok.1 hf
        dsimp only at hf
        cases f with
        | true => simp only [if_true] at hf; cases hf; exact hI
        | false =>
          simp only [Bool.false_eq_true, if_false] at hf
          cases hp : q1.pushRemove grow rm.length with
          | none => rw [hp] at hf; cases hf
          | some q2 =>
            rw [hp] at hf
            dsimp only at hf
            obtain ⟨w, e3, hf⟩ := bind_eq_ok.1 hf
            cases hf
            unfold Vecs.pushRemove at hp
            split at hp
            · cases hp; exact hI
            · obtain ⟨x, _, rfl⟩ := Option.map_eq_some_iff.1 hp
              exact hI
    · cases hf
  · rintro ⟨⟨k, rm, cp⟩, q1⟩ r hI hf x hx
    dsimp only at hI hf
    split at hf
    · obtain ⟨t, e0, hf⟩ := bind_eq_ok.1 hf
      cases t with
      | false => cases hf
      | true =>
        simp only [if_true] at hf
        obtain ⟨val, e1, hf⟩ := bind_eq_ok.1 hf
        obtain ⟨⟨f, ans⟩, e2, hf⟩ := bind_eq_ok.1 hf
        dsimp only at hf
        cases f with
        | true => simp only [if_true] at hf; cases hf
        | false =>
          simp only [Bool.false_eq_true, if_false] at hf
          cases hp : q1.pushRemove grow rm.length with
          | none => rw [hp] at hf; cases hf; cases hx
          | some q2 =>
            rw [hp] at hf
            dsimp only at hf
            obtain ⟨w, e3, hf⟩ := bind_eq_ok.1 hf
            cases hf
    · cases hf
      cases hx
      exact hI

variable [ExactNum R]

/-- What is pending with fewer candidates was pending with more. -/
theorem PendW_mono {m m' : Mem} (W : Rat) (C : Finset Nat) {s s' : WState R}
    {rest : List (WState R)} (hid : s'.id = s.id) (h0 : bset m' s'.cand ⊆ bset m s.cand)
    (h : ∀ t ∈ rest, bset m' t.cand = bset m t.cand) (hp : PendW H0 p m' W C (s' :: rest)) :
    PendW H0 p m W C (s :: rest) := by
  have hlw : lw H0 p (s' :: rest) = lw H0 p (s :: rest) := by rw [lw_cons, lw_cons, hid]
  unfold PendW at hp ⊢
  rw [PendW_congr W C h, hlw] at hp
  rcases hp with ⟨X, x1, x2, x3, x4, x5⟩ | hp
  · refine Or.inl ⟨X, x1.trans h0, x2, x3, ?_, x5⟩
    rw [x4, List.map_cons, List.map_cons, hid]
  · exact Or.inr hp

/-- One round of the inner loop: in step, or refused after the candidate was taken out.  A round in
which too much weight is asked for does just that. -/
theorem enumForA_try (Xe : XE H0) (W : WGood H0 p) {H : NWG R} {top : WState R}
    {rest : List (WState R)} {ws : List R} {cw : R} {T : Rat} {j : Nat}
    {Al : Nat → Finset Nat → Prop}
    (hAl : ∀ C, T ≤ H0.wsum p.r C → Al p.r C) (hws : Wts H0 p ws) (I : EI H0 p Al H (top :: rest))
    (hcw : cw = fin (lw H0 p (top :: rest)))
    (hj0 : j ≤ (H0.g.V p.r).N) (hst : ∀ c ∈ bset H.g.eb top.cand, j ≤ c)
    (hq1 : ∀ v, v < H0.g.nVert → (H0.g.rootCand v).card + 1 ≤ q.states) (hq : P → q.heap = none)
    {y : (NWG R × WState R × Nat) ⊕ EnumExit R}
    (h : enumFor (H0.g.V p.r) (p.req H0.g) ws cw (fin T) (H, top, j) = .ok y) :
    (∃ q', q'.states = q.states ∧ (P → q'.heap = none) ∧
      enumForA grow (H0.g.V p.r) (p.req H0.g) ws cw (fin T) (rest.length + 1) ((H, top, j), q) =
        .ok (y.map (fun s => (s, q')) (EnumExit.lift q'))) ∨
    (¬ P ∧ ∃ H' top', enumForA grow (H0.g.V p.r) (p.req H0.g) ws cw (fin T) (rest.length + 1)
        ((H, top, j), q) = .ok (.inr (.oom H' top' cw)) ∧
      EI H0 p Al H' (top' :: rest) ∧ top'.id = top.id ∧
      nodes H'.g.eb (top' :: rest) ≤ nodes H.g.eb (top :: rest) ∧
      (∀ C, PendW H0 p H'.g.eb T C (top' :: rest) → PendW H0 p H.g.eb T C (top :: rest)) ∧
      j ≠ top.id ∧ ∀ C, PendW H0 p H.g.eb T C (top :: rest) →
        PendW H0 p H'.g.eb T C (top' :: rest) ∨ (top.id ∈ C ∧ j ∈ C)) := by
  have hpush : ∀ H' top' new cw', y = .inr (.pushed H' top' new cw') →
      rest.length + 1 < q.states := by
    rintro H' top' new cw' rfl
    rcases enumFor_spec Xe W hAl hws I hcw hj0 hst with
      ⟨H1, top1, b1, _⟩ | ⟨H1, top1, b1, _⟩ | ⟨H1, top1, new1, cw1, b1, b2, _⟩ | ⟨b1, _⟩
    · rw [h] at b1; cases b1
    · rw [h] at b1; cases b1
    · have hcl := Lv_isCl W.g b2.lv (by simp)
      have h1 := isCl_card_le W.g.wf hq1 W.g.hr hcl
      rw [List.toFinset_card_of_nodup (Lv_facts W.g _ _ b2.lv).1, List.length_map] at h1
      simp only [List.length_cons] at h1
      omega
    · rw [h] at b1; cases b1
  have g := W.g
  have w := g.wf
  have hlv := I.lv
  have hlenL := Lv_len W I.lv
  simp only [List.length_cons] at hlenL
  unfold Lv at hlv
  obtain ⟨l1, l2, l3, l4, l5, l6, l7, l8, l9, l10, l11⟩ := hlv
  have hreqd : p.req H0.g = dlen (H0.g.V p.r).N := rfl
  have hebl := I.upd.frame.ebl
  have hroom := g.room
  have hce := candOff_end g rest.length
  have hlen1 : (rest.length + 2) * p.req H0.g ≤ (p.L + 2) * p.req H0.g :=
    Nat.mul_le_mul_right _ (by omega)
  have hdl := @dlen_le (H0.g.V p.r).N
  have hNlt := N_lt w g.hr
  have hNpos := N_pos w g.hr
  have hoff : top.cand.off = candOff H0.g p rest.length := by rw [l2]
  have hclen : top.cand.len = (H0.g.V p.r).N := by rw [l2]
  obtain ⟨Q, hQ, hQs, hQp⟩ := I.pot top (by simp)
  obtain ⟨hf1, hf2, _, _⟩ := Lv_facts g H.g.eb (top :: rest) I.lv
  have hids : ∀ i ∈ ((top :: rest).map WState.id).toFinset, i < (H0.g.V p.r).N := by
    intro i hi
    rw [List.mem_toFinset] at hi
    obtain ⟨t, ht, rfl⟩ := List.mem_map.1 hi
    exact hf2 t ht
  have hlwi := wsum_ids (H0 := H0) (p := p) hf1
  -- ask for more than there is
  have hT := enumFor_spec Xe W (T := max T (H0.wsum p.r Q + lw H0 p (top :: rest) +
    H0.qe p.r j + 1)) (fun C hC => hAl C (le_trans (le_max_left _ _) hC)) hws I hcw hj0 hst
  have hTr : ∃ z, enumFor (H0.g.V p.r) (p.req H0.g) ws cw (fin (max T (H0.wsum p.r Q +
      lw H0 p (top :: rest) + H0.qe p.r j + 1))) (H, top, j) = .ok z := by
    rcases hT with ⟨H1, top1, b1, _⟩ | ⟨H1, top1, b1, _⟩ | ⟨H1, top1, new1, cw1, b1, b2, _⟩ | ⟨b1, _⟩
    all_goals exact ⟨_, b1⟩
  obtain ⟨z, hz⟩ := hTr
  have hz0 := hz
  unfold enumFor at h hz
  unfold enumForA
  dsimp only at h hz ⊢
  by_cases hj : j < (H0.g.V p.r).N
  swap
  · rw [if_neg hj] at h ⊢
    cases h
    exact Or.inl ⟨q, rfl, hq, rfl⟩
  rw [if_pos hj] at h hz ⊢
  rw [top.cand.test_spec H.g.eb j (by rw [hoff]; have := div_lt_dlen hj; omega), ok_bind] at h hz ⊢
  by_cases hb : bitAt H.g.eb (64 * top.cand.off + j) = true
  swap
  · rw [if_neg hb] at h ⊢
    cases h
    exact Or.inl ⟨q, rfl, hq, rfl⟩
  rw [if_pos hb] at h hz ⊢
  have hjC : j ∈ bset H.g.eb top.cand := mem_bset.2 ⟨by rw [hclen]; exact hj, hb⟩
  have hjw := (l9 j hjC).2.1
  have hjids : j ∉ ((top :: rest).map WState.id).toFinset := by
    rw [List.mem_toFinset]; exact (l9 j hjC).2.2.1
  obtain ⟨m1, r1, r2, r3⟩ := top.cand.reset_spec H.g.eb j
    (by rw [hoff]; have := div_lt_dlen hj; omega)
  rw [r1, ok_bind] at h hz ⊢
  have hpad1 : PadZero m1 top.cand := by
    intro i h1 h2; rw [r3, l8 i h1 h2]; simp
  have hin1 : top.cand.off + dlen top.cand.len ≤ m1.length := by
    rw [hoff, hclen, r2]; omega
  rw [top.cand.count_pad m1 (by omega) hin1 hpad1, ok_bind] at h hz ⊢
  dsimp only at h hz ⊢
  have hwl := hws.len
  have a3 : rd ws j = .ok (H0.we p.r j) := by
    rw [rd_getD (0 : R) (show j < ws.length by omega), hws.val j hjw]
  rw [a3, ok_bind] at h hz ⊢
  obtain ⟨vert, a5, h⟩ := bind_eq_ok.1 h
  rw [a5, ok_bind] at hz ⊢
  obtain ⟨U, a6, h⟩ := bind_eq_ok.1 h
  rw [a6, ok_bind] at hz ⊢
  obtain ⟨⟨rm, cp⟩, a7, h⟩ := bind_eq_ok.1 h
  rcases enumScanA_either (grow := grow) hq a7 with ⟨q', k1, k2⟩ | ⟨k0, k2⟩
  · left
    have ks := enumScanA_states k2
    rw [k2, ok_bind]
    dsimp only at h ⊢
    refine ⟨q', ks, k1, ?_⟩
    split at h
    · rename_i hp
      rw [if_pos hp]
      split at h
      · rename_i hz
        rw [if_pos hz]
        obtain ⟨b1, c1, h⟩ := bind_eq_ok.1 h
        rw [c1, ok_bind]
        obtain ⟨b2, c2, h⟩ := bind_eq_ok.1 h
        rw [c2, ok_bind]
        obtain ⟨b3, c3, h⟩ := bind_eq_ok.1 h
        rw [c3, ok_bind]
        obtain ⟨b4, c4, h⟩ := bind_eq_ok.1 h
        rw [c4, ok_bind]
        cases h
        rfl
      · rename_i hz
        rw [if_neg hz]
        obtain ⟨b1, c1, h⟩ := bind_eq_ok.1 h
        rw [c1, ok_bind]
        obtain ⟨b2, c2, h⟩ := bind_eq_ok.1 h
        rw [c2, ok_bind]
        obtain ⟨b3, c3, h⟩ := bind_eq_ok.1 h
        rw [c3, ok_bind]
        cases h
        unfold Vecs.pushState
        rw [if_pos (by rw [ks]; exact hpush _ _ _ _ rfl)]
        rfl
    · rename_i hp
      rw [if_neg hp]
      cases h
      rfl
  · right
    rw [k2, ok_bind]
    dsimp only
    have hpv : ¬ top.pot + cw + H0.we p.r j ≥ fin (max T (H0.wsum p.r Q +
        lw H0 p (top :: rest) + H0.qe p.r j + 1)) := by
      rw [hQp, hcw, ← hlwi, Xe.add2 w g.hr hQ hids, Xe.add3 w g.hr hQ hids hj hjids, ge_iff_le,
        ExactNum.le, hlwi, not_le]
      exact lt_of_lt_of_le (lt_add_one _) (le_max_right _ _)
    have hscan : enumScan ({ H with g := { H.g with eb := m1 } } : NWG R) (H0.g.V p.r) U top.cand m1
        ws cw (H0.we p.r j) (fin (max T (H0.wsum p.r Q + lw H0 p (top :: rest) + H0.qe p.r j + 1)))
        (j + 1) top.pot = .ok ([], top.pot) := by
      unfold enumScan loop
      dsimp only
      rw [if_neg (fun h => hpv h.2)]
    rw [hscan, ok_bind] at hz
    dsimp only at hz
    rw [if_neg hpv] at hz
    cases hz
    refine ⟨k0, _, _, rfl, ?_⟩
    rcases hT with ⟨H', top', c1, c2, c3, c4, c5, c6, c7, c8⟩ |
          ⟨H', top', c1, c2⟩ | ⟨H', top', new, cw', c1, c2⟩ | ⟨c1, c2⟩
    · rw [hz0] at c1
      cases c1
      have hlow : ∀ l, l < rest.length → ∀ i, i < 64 * p.req H0.g →
          bitAt m1 (64 * candOff H0.g p l + i) = bitAt H.g.eb (64 * candOff H0.g p l + i) := by
        intro l hl i hi
        have := candOff_lt g hl
        rw [r3, hoff]
        have : ¬ (64 * candOff H0.g p l + i = 64 * candOff H0.g p rest.length + j) := by omega
        simp [this]
      have hbl := bset_low hlow l11
      refine ⟨c3, rfl, c6, ?_, ?_, ?_⟩
      · intro C hp
        refine PendW_mono (s' := { top with startAt := j + 1 }) T C rfl ?_ hbl hp
        intro x hx
        show x ∈ bset H.g.eb top.cand
        have hx' : x ∈ bset m1 top.cand := hx
        rw [mem_bset, r3] at hx'
        rw [mem_bset]
        exact ⟨hx'.1, (Bool.and_eq_true_iff.1 hx'.2).2⟩
      · intro he
        apply hjids
        rw [he]
        simp
      · intro C hp
        have hlw : lw H0 p (({ top with startAt := j + 1 } : WState R) :: rest) =
            lw H0 p (top :: rest) := by rw [lw_cons, lw_cons]
        show PendW H0 p m1 T C ({ top with startAt := j + 1 } :: rest) ∨ _
        unfold PendW at hp ⊢
        rw [PendW_congr T C hbl, hlw]
        rcases hp with ⟨X, x1, x2, x3, x4, x5⟩ | hp
        · by_cases hjX : j ∈ X
          · right
            rw [x4]
            exact ⟨Finset.mem_union_left _ (by simp), Finset.mem_union_right _ hjX⟩
          · left
            left
            refine ⟨X, ?_, x2, x3, x4, x5⟩
            intro x hx
            have hxe : ¬ x = j := fun he => hjX (he ▸ hx)
            have hx' := mem_bset.1 (x1 hx)
            rw [mem_bset, r3]
            exact ⟨hx'.1, by simp [hxe, hx'.2]⟩
        · exact Or.inl (Or.inr hp)
    · rw [hz0] at c1; cases c1
    · rw [hz0] at c1; cases c1
    · rw [hz0] at c1; cases c1

variable {Al : Nat → Finset Nat → Prop} {b : Nat}

/-- `P'` is part of `P`; if no weight is negative, what is missing has two positions in common. -/
def Lost (Hs : NWG R) (P' P : Nat → Finset Nat → Prop) : Prop :=
  (∀ r C, P' r C → P r C) ∧ ((∀ v, 0 ≤ val (Hs.w v)) → ∃ r0 i j, i ≠ j ∧ ∀ r C, P r C →
    P' r C ∨ (r = r0 ∧ i ∈ C ∧ j ∈ C))

theorem Lost.of_shr {Hs : NWG R} {P1 P2 P3 : Nat → Finset Nat → Prop} (h : Lost Hs P1 P2)
    (h' : Shr Hs P2 P3) : Lost Hs P1 P3 := by
  refine ⟨fun r C hC => h'.1 r C (h.1 r C hC), fun hn => ?_⟩
  obtain ⟨r0, i, j, h1, h2⟩ := h.2 hn
  exact ⟨r0, i, j, h1, fun r C hC => h2 r C (h'.2 hn r C hC)⟩

theorem Lost.refl {Hs : NWG R} (P : Nat → Finset Nat → Prop) : Lost Hs P P :=
  ⟨fun _ _ h => h, fun _ => ⟨0, 0, 1, by decide, fun _ _ h => Or.inl h⟩⟩

theorem enumBodyA_try {Hs H : NWG R} {E : WEnum R} {W : Rat} (Xe : XE Hs)
    (hAl : ∀ v C, W ≤ Hs.wsum v C → Al v C) (hI : WEInv Al b Hs W H E) (hL : Lim Hs.g)
    (hq1 : Hs.g.limit ≤ q.states) (hq : P → q.heap = none)
    {y : (NWG R × WEnum R) ⊕ (NWG R × WEnum R × Nat)} (h : enumBody (H, E) = .ok y) :
    (∃ q', q'.states = q.states ∧ (P → q'.heap = none) ∧ enumBodyA grow ((H, E), q) =
      .ok (y.map (fun s => (s, q')) (fun r => (r.1, r.2.1, q', some r.2.2)))) ∨
    (¬ P ∧ ∃ H' E' q', enumBodyA grow ((H, E), q) = .ok (.inr (H', E', q', none)) ∧
      WEInv Al b Hs W H' E' ∧ Lost Hs (WPnd Hs W H' E') (WPnd Hs W H E)) := by
  obtain ⟨hk, hc, hl, hwl, hI⟩ := hI
  unfold enumBody at h
  unfold enumBodyA
  dsimp only at h ⊢
  split at h
  swap
  · rename_i hn
    rw [if_neg hn]
    cases h
    exact Or.inl ⟨q, rfl, hq, rfl⟩
  rename_i hn
  rw [if_pos hn]
  have hns : E.cur < Hs.g.nVert := by rw [← hc.core.frame.nVert]; exact hn
  have hL0 := hL E.cur hns
  rcases hI with ⟨a1, a2, g', a3, a4, a5⟩ | ⟨a1, a2, a3⟩ |
    ⟨a1, a4, H0, p, ok, hc0, p1, p2, Wg, I, p3, hws, hcw⟩
  · rw [a1] at h ⊢
    dsimp only at h ⊢
    obtain ⟨X, c1, h⟩ := bind_eq_ok.1 h
    rw [c1, ok_bind]
    obtain ⟨⟨Y, D⟩, c2, h⟩ := bind_eq_ok.1 h
    rw [enumVertexA_eq a1 (by omega) c2, ok_bind]
    cases h
    exact Or.inl ⟨q, rfl, hq, rfl⟩
  · omega
  · cases hst : E.states with
    | nil => exact absurd hst a1
    | cons top rest =>
    rw [hst] at h a4 I hcw
    dsimp only at h ⊢
    have g := Wg.g
    have w := g.wf
    have F0 := hc0.frame
    have X0 := hc0.xe Xe
    have hL1 := AW.lim_wframe hL F0
    have hlim : H0.g.limit = Hs.g.limit := F0.depth
    have hNpos := N_pos w g.hr
    have hlv := I.lv
    have hlenL := Lv_len Wg I.lv
    simp only [List.length_cons] at hlenL
    unfold Lv at hlv
    obtain ⟨l1, l2, l3, l4, l5, l6, l7, l8, l9, l10, l11⟩ := hlv
    have hreqd : p.req H0.g = dlen (H0.g.V p.r).N := rfl
    have hoff : top.cand.off = candOff H0.g p rest.length := by rw [l2]
    have hclen : top.cand.len = (H0.g.V p.r).N := by rw [l2]
    have hce := candOff_end g rest.length
    have hlen1 : (rest.length + 2) * p.req H0.g ≤ (p.L + 2) * p.req H0.g :=
      Nat.mul_le_mul_right _ (by omega)
    have hroom := g.room
    have hebl := I.upd.frame.ebl
    have hin : top.cand.off + dlen top.cand.len ≤ H.g.eb.length := by
      rw [hoff, hclen]; omega
    have wG := I.upd.frame.wf w
    rw [vtx_ok wG hn, ok_bind] at h ⊢
    rw [top.cand.count_pad H.g.eb (by omega) hin l8, ok_bind] at h ⊢
    dsimp only at h ⊢
    have hVG : H.g.V E.cur = H0.g.V p.r := by rw [I.upd.toEUpd.core.V, p1]
    rw [hVG, p3, hk] at h ⊢
    have hr1 : ∀ q' : Vecs, q'.states = q.states →
        ∀ v, v < H0.g.nVert → (H0.g.rootCand v).card + 1 ≤ q'.states := by
      intro q' hq' v hv
      have := hL1 v hv
      omega
    have hpc : ∀ (m : Mem) C st, PendW Hs (par E.cur) m W C st ↔ PendW H0 p m W C st := by
      intro m C st
      exact (PendW_iff F0 (p := par E.cur) (p' := p) p1.symm m W C st).symm
    have hcwt : ∀ t : WState R, t.id = top.id →
        E.cliqueWeight = fin (lw H0 p (t :: rest)) := by
      intro t ht
      rw [hcw, lw_cons, lw_cons, ht]
    have hAl0 : ∀ C, W ≤ H0.wsum p.r C → Al p.r C := fun C hC => hAl _ C (by rwa [F0.wsum] at hC)
    obtain ⟨e, h1, h⟩ := bind_eq_ok.1 h
    rcases loop_try
      (f := enumFor (H0.g.V p.r) (p.req H0.g) E.ws E.cliqueWeight (fin W))
      (g := enumForA grow (H0.g.V p.r) (p.req H0.g) E.ws E.cliqueWeight (fin W) (rest.length + 1))
      (fun (s : NWG R × WState R × Nat) => EI H0 p Al s.1 (s.2.1 :: rest) ∧
        s.2.1.id = top.id ∧ s.2.2 ≤ (H0.g.V p.r).N ∧
        (∀ c ∈ bset s.1.g.eb s.2.1.cand, s.2.2 ≤ c) ∧
        nodes s.1.g.eb (s.2.1 :: rest) ≤ nodes H.g.eb (top :: rest) ∧
        (∀ C, PendW H0 p s.1.g.eb W C (s.2.1 :: rest) → PendW H0 p H.g.eb W C (top :: rest)) ∧
        ((∀ v, 0 ≤ val (H0.w v)) → ∀ C, PendW H0 p H.g.eb W C (top :: rest) →
          PendW H0 p s.1.g.eb W C (s.2.1 :: rest)))
      (fun q' : Vecs => q'.states = q.states ∧ (P → q'.heap = none))
      (fun x q' => EnumExit.lift q' x)
      (fun x => ¬ P ∧ ∃ H' top', x = .oom H' top' E.cliqueWeight ∧
        EI H0 p Al H' (top' :: rest) ∧ top'.id = top.id ∧
        nodes H'.g.eb (top' :: rest) ≤ nodes H.g.eb (top :: rest) ∧
        (∀ C, PendW H0 p H'.g.eb W C (top' :: rest) → PendW H0 p H.g.eb W C (top :: rest)) ∧
        ((∀ v, 0 ≤ val (H0.w v)) → ∃ j, j ≠ top.id ∧ ∀ C, PendW H0 p H.g.eb W C (top :: rest) →
          PendW H0 p H'.g.eb W C (top' :: rest) ∨ (top.id ∈ C ∧ j ∈ C)))
      (by
        rintro ⟨H1, top1, j1⟩ q1 y ⟨b1, b2, b3, b4, b5, b6, b7⟩ ⟨k1, k2⟩ hf
        dsimp only at b1 b2 b3 b4 b5 b6 b7
        rcases enumForA_try (grow := grow) X0 Wg hAl0 hws b1 (hcwt _ b2) b3 b4 (hr1 q1 k1) k2 hf with
          ⟨q', c1, c2, c3⟩ | ⟨c0, H', top', c1, c2, c3, c4, c5, c6, c7⟩
        · exact Or.inl ⟨q', ⟨c1.trans k1, c2⟩, c3⟩
        · exact Or.inr ⟨_, ⟨c0, H', top', rfl, c2, c3.trans b2, Nat.le_trans c4 b5,
            fun C hC => b6 C (c5 C hC), fun hn => ⟨j1, by rw [← b2]; exact c6, fun C hC => by
              rw [← b2]; exact c7 C (b7 hn C hC)⟩⟩, c1⟩)
      (by
        rintro ⟨H1, top1, j1⟩ s' ⟨b1, b2, b3, b4, b5, b6, b7⟩ hf
        dsimp only at b1 b2 b3 b4 b5 b6 b7
        rcases enumFor_spec X0 Wg hAl0 hws b1 (hcwt _ b2) b3 b4 with
          ⟨H', top', c1, c2, c3, c4, c5, c6, c7, c8⟩ |
          ⟨H', top', c1, c2⟩ | ⟨H', top', new, cw', c1, c2⟩ | ⟨c1, c2⟩
        · rw [c1] at hf
          cases hf
          exact ⟨c3, c4.trans b2, by dsimp only; omega, c5, Nat.le_trans c6 b5,
            fun C hC => b6 C (c7 C hC), fun hn C hC => c8 hn C (b7 hn C hC)⟩
        · rw [c1] at hf; cases hf
        · rw [c1] at hf; cases hf
        · rw [c1] at hf; cases hf)
      ((H0.g.V p.r).N + 2) (H, top, top.startAt) q e
      ⟨I, rfl, l7, fun c hc => (l9 c hc).1, Nat.le_refl _, fun _ h => h, fun _ _ h => h⟩ ⟨rfl, hq⟩ h1 with
      ⟨q', ⟨k1, k2⟩, k3⟩ | ⟨x, ⟨k0, H', top', rfl, c1, c2, c3, c4, c5⟩, k3⟩
    · left
      refine ⟨q', k1, k2, ?_⟩
      rw [k3, ok_bind]
      cases e with
      | found H' top' => cases h; rfl
      | pushed H' top' new cw' => cases h; rfl
      | done H' top' =>
        dsimp only [EnumExit.lift] at h ⊢
        obtain ⟨X, c1, h⟩ := bind_eq_ok.1 h
        rw [c1, ok_bind]
        obtain ⟨Y, c2, h⟩ := bind_eq_ok.1 h
        rw [c2, ok_bind]
        obtain ⟨Z, c3, h⟩ := bind_eq_ok.1 h
        rw [c3, ok_bind]
        cases h
        rfl
    · right
      refine ⟨k0, H', { E with states := top' :: rest, cliqueWeight := E.cliqueWeight }, q, ?_, ?_, ?_⟩
      · rw [k3, ok_bind]
        dsimp only
        rw [p3, hk]
      · refine ⟨hk, hc0.trans (c1.core p2 ok g.hr), hl, hwl, Or.inr (Or.inr ?_)⟩
        exact ⟨by simp, Nat.lt_of_le_of_lt c3 a4, H0, p, ok, hc0, p1, p2, Wg, c1, p3, hws, hcwt _ c2⟩
      · refine ⟨fun r C => ?_, fun hn => ?_⟩
        · unfold WPnd
          dsimp only
          rw [hpc, hpc, hst]
          rintro (⟨d1, d2⟩ | d)
          · exact Or.inl ⟨d1, c4 C d2⟩
          · exact Or.inr d
        · obtain ⟨j, e1, e2⟩ := c5 (fun v => by rw [F0.w]; exact hn v)
          refine ⟨E.cur, top.id, j, fun h => e1 h.symm, fun r C => ?_⟩
          unfold WPnd
          dsimp only
          rw [hpc, hpc, hst]
          rintro (⟨d1, d2⟩ | d)
          · rcases e2 C d2 with d3 | d3
            · exact Or.inl (Or.inl ⟨d1, d3⟩)
            · exact Or.inr ⟨d1, d3⟩
          · exact Or.inl (Or.inr d)

/-- nw_enumerate.cpp:75-210: as ever, or refused, and then what is pending was pending before. -/
theorem enumGraphA_try {Hs H H' : NWG R} {E E' : WEnum R} {W : Rat} {v : Nat} (Xe : XE Hs)
    (hAl : ∀ v C, W ≤ Hs.wsum v C → Al v C) (hI : WEInv Al b Hs W H E) (hL : Lim Hs.g)
    (q : Vecs) (wcap : Nat) (h : H.enumGraph E = .ok (H', E', v)) :
    (∃ q' wcap', (q.heap = none → q'.heap = none) ∧
      H.enumGraphA grow E q wcap = .ok ((H', E', q', some v), wcap')) ∨
    (q.heap ≠ none ∧ ∃ H1 E1 q' wcap', H.enumGraphA grow E q wcap = .ok ((H1, E1, q', none), wcap') ∧
      WEInv Al b Hs W H1 E1 ∧ Lost Hs (WPnd Hs W H1 E1) (WPnd Hs W H E)) := by
  unfold enumGraph at h
  unfold enumGraphA
  have hlim : H.g.limit = Hs.g.limit := hI.2.1.frame.depth
  cases hc : H.enumReserve q wcap with
  | mk q1 rest =>
    obtain ⟨wcap1, ok⟩ := rest
    have hnone : q.heap = none → ok = true ∧ q1.heap = none := by
      intro h0
      obtain ⟨q', wcap', e1, e2⟩ := AW.enumReserve_none H h0 wcap
      rw [hc] at e1
      cases e1
      exact ⟨rfl, e2⟩
    cases ok with
    | false =>
      exact Or.inr ⟨fun h0 => by simpa using (hnone h0).1, H, E, q1, wcap1, rfl, hI, Lost.refl _⟩
    | true =>
      obtain ⟨k1, _⟩ := AW.enumReserve_true hc
      rw [hlim] at k1
      dsimp only
      rcases loop_try (f := enumBody) (g := enumBodyA grow)
        (fun s => WEInv Al b Hs W s.1 s.2 ∧ Shr Hs (WPnd Hs W s.1 s.2) (WPnd Hs W H E))
        (fun q' : Vecs => q'.states = q1.states ∧ (q.heap = none → q'.heap = none))
        (fun (r : NWG R × WEnum R × Nat) q' => (r.1, r.2.1, q', some r.2.2))
        (fun r => q.heap ≠ none ∧ ∃ H1 E1 q', r = (H1, E1, q', none) ∧ WEInv Al b Hs W H1 E1 ∧
          Lost Hs (WPnd Hs W H1 E1) (WPnd Hs W H E))
        (by
          rintro ⟨X, F⟩ q2 y ⟨a1, a2⟩ ⟨a3, a4⟩ hf
          dsimp only at a1 a2
          rcases enumBodyA_try (grow := grow) Xe hAl a1 hL (by omega) a4 hf with
            ⟨q', c1, c2, c3⟩ | ⟨c0, H1, E1, q', c1, c2, c3⟩
          · exact Or.inl ⟨q', ⟨c1.trans a3, c2⟩, c3⟩
          · exact Or.inr ⟨_, ⟨c0, H1, E1, q', rfl, c2, c3.of_shr a2⟩, c1⟩)
        (by
          rintro ⟨X, F⟩ ⟨X', F'⟩ ⟨a1, a2⟩ hf
          obtain ⟨z, b1, b2⟩ := enumBody_spec Xe hAl a1
          rw [hf] at b1
          cases b1
          exact ⟨b2.1, b2.2.2.trans a2⟩)
        ((H.g.nVert + 2) * 2 ^ (H.g.maxDeg + 2)) (H, E) q1 (H', E', v) ⟨hI, Shr.refl _⟩
        ⟨rfl, fun h0 => (hnone h0).2⟩ h with
        ⟨q', ⟨_, c2⟩, c3⟩ | ⟨r, ⟨c0, H1, E1, q', rfl, c2, c4⟩, c3⟩
      · rw [c3]
        exact Or.inl ⟨q', wcap1, c2, rfl⟩
      · rw [c3]
        exact Or.inr ⟨c0, H1, E1, q', wcap1, rfl, c2, c4⟩

variable {pg : PyNW R}

/-- One `__next__`. -/
theorem nextCliqueA_try {Hs H : NWG R} {E : WEnum R} {W : Rat} (Xe : XE Hs)
    (hAl : ∀ v C, W ≤ Hs.wsum v C → Al v C) (hg : pg.G = some H)
    (hnv : Hs.g.nVert = pg.nvert + 1) (h : WEInv Al b Hs W H E) (hL : Lim Hs.g) (q : Vecs)
    (wcap : Nat) :
    ∃ pg' E' H' q' a, pg.nextCliqueA grow E q wcap = .ok (pg', E', q', a) ∧ pg'.G = some H' ∧
      pg'.nvert = pg.nvert ∧ WEInv Al b Hs W H' E' ∧
      ((∃ v C, a = .ret (some (Hs.g.listAt v C)) ∧ WPnd Hs W H E v C ∧
          Shr Hs (WPnd Hs W H' E') (fun r D => WPnd Hs W H E r D ∧ ¬ (r = v ∧ D = C))) ∨
       (a = .ret none ∧ (∀ r D, ¬ WPnd Hs W H' E' r D) ∧
          ((∀ x, 0 ≤ val (Hs.w x)) → ∀ r D, ¬ WPnd Hs W H E r D)) ∨
       (a = .noMemory ∧ q.heap ≠ none ∧ Lost Hs (WPnd Hs W H' E') (WPnd Hs W H E))) := by
  obtain ⟨H', E', v, a1, a2, a3⟩ := enumGraph_spec Xe hAl h
  unfold PyNW.nextCliqueA
  rw [hg]
  dsimp only
  rcases enumGraphA_try (grow := grow) Xe hAl h hL q wcap a1 with
    ⟨q', wcap', e0, e1⟩ | ⟨e0, H1, E1, q', wcap', e1, e2, e3⟩
  · rw [e1, ok_bind]
    dsimp only
    rcases a3 with ⟨b1, b2, b3, b4, b5⟩ | ⟨b1, b2, b3, b4, b5⟩
    · rw [if_neg (by omega)]
      obtain ⟨w, hp⟩ := EX.einv_pad a2 b3.1
      have F := a2.2.1.core.frame
      unfold NWG.getClique
      rw [Graph.getClique_ok w hp (by rw [F.nVert]; exact b1), ok_bind, ok_bind]
      dsimp only
      have hlost : Lost Hs (WPnd Hs W H' E') (WPnd Hs W H E) := by
        refine ⟨fun r D hD => (b5.1 r D hD).1, fun hn => ?_⟩
        have hcard : 1 < (bset H'.g.eb (Hs.g.vb v)).card := by
          have := b3.2
          have : E'.states.length ≠ 0 := fun h0 => b3.1 (List.length_eq_zero_iff.1 h0)
          omega
        obtain ⟨i, hi, j, hj, hij⟩ := Finset.one_lt_card.1 hcard
        refine ⟨v, i, j, hij, fun r D hD => ?_⟩
        by_cases hD' : r = v ∧ D = bset H'.g.eb (Hs.g.vb v)
        · right
          rw [hD'.2]
          exact ⟨hD'.1, hi, hj⟩
        · exact Or.inl (b5.2 hn r D ⟨hD, hD'⟩)
      cases hr : q'.heap.request with
      | none =>
        refine ⟨_, _, H', _, _, rfl, rfl, rfl, a2, Or.inr (Or.inr ⟨rfl, fun h0 => ?_, hlost⟩)⟩
        rw [e0 h0] at hr
        cases hr
      | some h1 =>
        dsimp only
        cases hr2 : h1.request with
        | none =>
          refine ⟨_, _, H', _, _, rfl, rfl, rfl, a2, Or.inr (Or.inr ⟨rfl, fun h0 => ?_, hlost⟩)⟩
          rw [e0 h0] at hr
          cases hr
          cases hr2
        | some h3 =>
          refine ⟨_, _, H', _, _, rfl, rfl, rfl, a2, Or.inl ⟨v, _, ?_, b4, b5⟩⟩
          rw [cliqueAt_listAt F]
    · rw [if_pos (by omega)]
      refine ⟨_, _, H', _, _, rfl, rfl, rfl, a2, Or.inr (Or.inl ⟨rfl, ?_, b5⟩)⟩
      intro r D hD
      unfold WPnd at hD
      rw [b3, b2] at hD
      simp only [PendW, and_false, false_or] at hD
      omega
  · rw [e1, ok_bind]
    exact ⟨_, _, H1, _, _, rfl, rfl, rfl, e2, Or.inr (Or.inr ⟨rfl, e0, e3⟩)⟩

/-- Any number of them: different cliques among those pending. -/
theorem nextsA_try {Hs : NWG R} {W : Rat} (Xe : XE Hs) (hAl : ∀ v C, W ≤ Hs.wsum v C → Al v C)
    (hL : Lim Hs.g) : ∀ (hs : List Heap) {pg : PyNW R} {H : NWG R} {E : WEnum R} (q : Vecs × Nat),
    pg.G = some H → Hs.g.nVert = pg.nvert + 1 → WEInv Al b Hs W H E →
    ∃ pg' E' q' as, ∃ ps : List (Nat × Finset Nat), pg.nextsA grow hs E q = .ok (pg', E', q', as) ∧
      given as = ps.map (fun x => Hs.g.listAt x.1 x.2) ∧ ps.Nodup ∧
      (∀ x ∈ ps, WPnd Hs W H E x.1 x.2) ∧
      List.Forall₂ (fun h a => a = .noMemory → h ≠ none) hs as ∧
      ((∀ v, 0 ≤ val (Hs.w v)) → .ret none ∈ as → ∃ es : List (Nat × Nat × Nat),
        es.length ≤ as.count .noMemory ∧ (∀ e ∈ es, e.2.1 ≠ e.2.2) ∧
        ∀ r C, WPnd Hs W H E r C → (r, C) ∈ ps ∨ ∃ e ∈ es, r = e.1 ∧ e.2.1 ∈ C ∧ e.2.2 ∈ C) := by
  intro hs
  induction hs with
  | nil =>
    intro pg H E q _ _ _
    exact ⟨pg, E, q, [], [], rfl, rfl, List.nodup_nil, by simp, .nil, by simp⟩
  | cons hp hs ih =>
    intro pg H E q hg hnv h
    obtain ⟨pg1, E1, H1, q1, a, e1, e2, e3, e4, e5⟩ :=
      nextCliqueA_try (grow := grow) Xe hAl hg hnv h hL { q.1 with heap := hp } q.2
    obtain ⟨pg', E', q', as, ps, f1, f2, f3, f4, f5, f6⟩ := ih q1 e2 (by rw [e3]; exact hnv) e4
    have hrun : pg.nextsA grow (hp :: hs) E q = .ok (pg', E', q', a :: as) := by
      unfold PyNW.nextsA
      rw [e1, ok_bind]
      dsimp only
      rw [f1, ok_bind]
    rcases e5 with ⟨v, C, rfl, k1, k2⟩ | ⟨rfl, k1, k2⟩ | ⟨rfl, k1, k2⟩
    · refine ⟨pg', E', q', _, (v, C) :: ps, hrun, ?_, ?_, ?_, .cons (by simp) f5, ?_⟩
      · unfold given at f2 ⊢
        rw [List.filterMap_cons, f2]
        rfl
      · rw [List.nodup_cons]
        exact ⟨fun hm => (k2.1 _ _ (f4 _ hm)).2 ⟨rfl, rfl⟩, f3⟩
      · intro x hx
        rcases List.mem_cons.1 hx with rfl | hx
        · exact k1
        · exact (k2.1 _ _ (f4 x hx)).1
      · intro hn hm
        obtain ⟨es, g1, g2, g3⟩ := f6 hn (by simpa using hm)
        refine ⟨es, by simpa using g1, g2, ?_⟩
        intro r D hD
        by_cases hD' : r = v ∧ D = C
        · left
          rw [hD'.1, hD'.2]
          simp
        · rcases g3 r D (k2.2 hn r D ⟨hD, hD'⟩) with g4 | g4
          · exact Or.inl (List.mem_cons_of_mem _ g4)
          · exact Or.inr g4
    · refine ⟨pg', E', q', _, ps, hrun, ?_, f3, fun x hx => absurd (f4 x hx) (k1 _ _),
        .cons (by simp) f5, ?_⟩
      · unfold given at f2 ⊢
        rw [List.filterMap_cons, f2]
      · intro hn _
        exact ⟨[], by simp, by simp, fun r D hD => absurd hD (k2 hn r D)⟩
    · refine ⟨pg', E', q', _, ps, hrun, ?_, f3, fun x hx => k2.1 _ _ (f4 x hx),
        .cons (fun _ => k1) f5, ?_⟩
      · unfold given at f2 ⊢
        rw [List.filterMap_cons, f2]
      · intro hn hm
        obtain ⟨es, g1, g2, g3⟩ := f6 hn (by simpa using hm)
        obtain ⟨r0, i, j, g4, g5⟩ := k2.2 hn
        refine ⟨(r0, i, j) :: es, by simpa using g1, ?_, ?_⟩
        · intro e he
          rcases List.mem_cons.1 he with rfl | he
          · exact g4
          · exact g2 e he
        · intro r D hD
          rcases g5 r D hD with g6 | g6
          · rcases g3 r D g6 with g7 | ⟨e, g7, g8⟩
            · exact Or.inl g7
            · exact Or.inr ⟨e, List.mem_cons_of_mem _ g7, g8⟩
          · exact Or.inr ⟨_, List.mem_cons_self, g6⟩

/-- The answers of an iterator, whatever the heap grants. -/
theorem nextsA_sound {H : NWG R} {n : Nat} {S : SimpleGraph Nat} {ω : Nat → R} (Xe : XE H)
    (h : WPyOk pg n S ω H) (hL : Lim H.g) (junk : Nat → R) (W : Rat) (heaps : List Heap)
    (q : Vecs × Nat) :
    ∃ pg2 E E' q' as, pg.allCliques junk (fin W) = .ok E ∧
      pg.nextsA grow heaps E q = .ok (pg2, E', q', as) ∧ (given as).Nodup ∧
      (∀ l ∈ given as, IsCliqueList S n l ∧ 2 ≤ l.length ∧ W ≤ weight (fun v => val (ω v)) l) ∧
      List.Forall₂ (fun h a => a = .noMemory → h ≠ none) heaps as ∧
      ((∀ v, 0 ≤ val (H.w v)) → ∃ pg3 cs, pg.listCliques junk (fin W) = .ok (pg3, cs) ∧
        (∀ l ∈ given as, l ∈ cs) ∧
        (.ret none ∈ as → ∃ es : List (Nat × Nat), es.length ≤ as.count .noMemory ∧
          (∀ e ∈ es, e.1 ≠ e.2) ∧
          ∀ l ∈ cs, l ∈ given as ∨ ∃ e ∈ es, e.1 ∈ l ∧ e.2 ∈ l)) := by
  have wf := h.ok.ok.wf
  have w := wf.str
  have hO := h.of
  have hnv := hO.nv
  have hpos := h.pos
  have hnv' : H.g.nVert = pg.nvert + 1 := by rw [hnv, h.nv]
  have hI : WEInv anyCl H.g.searchStart H W H
      (WEnum.new ((List.range H.g.maxDeg).map junk) (fin W)) :=
    EX.einv_new h.ok.at (by omega) _ (by simp) W
  have hAl : ∀ v C, W ≤ H.wsum v C → anyCl v C := fun _ _ _ => trivial
  obtain ⟨pg2, E', q', as, ps, a1, a2, a3, a4, a5, a6⟩ :=
    nextsA_try (grow := grow) Xe hAl hL heaps q h.g hnv' hI
  have hps : ∀ x ∈ ps, 1 < x.1 ∧ x.1 < H.g.nVert ∧ WRooted H x.1 x.2 ∧ RootW H W x.1 x.2 := by
    intro x hx
    obtain ⟨b1, b2, _, b4⟩ := (EX.new_wpend _ W x.1 x.2).1 (a4 x hx)
    exact ⟨b1, b2, b4.1, b4⟩
  refine ⟨pg2, _, E', q', as, ?_, a1, ?_, ?_, a5, ?_⟩
  · unfold PyNW.allCliques
    rw [h.loaded]
  · rw [a2, List.nodup_map_iff_inj_on a3]
    rintro ⟨r, C⟩ hq1 ⟨r', C'⟩ hq2 he
    obtain ⟨b1, b2, b3, _⟩ := hps _ hq1
    obtain ⟨c1, c2, c3, _⟩ := hps _ hq2
    obtain ⟨d1, d2⟩ := EX.wlistAt_inj Xe.toXN wf w b2 c2 b3 c3 he
    simp only at d1 d2
    rw [d1, d2]
  · intro l hl
    rw [a2] at hl
    obtain ⟨⟨r, C⟩, hm, rfl⟩ := List.mem_map.1 hl
    obtain ⟨b1, b2, b3, b4⟩ := hps _ hm
    dsimp only at b1 b2 b3 b4 ⊢
    have hcl := listAt_clique hO w b2 (by omega) b3.1
    obtain ⟨c1, c2⟩ := (EX.rootW_list w b2 b3).1 b4
    refine ⟨hcl, c1, ?_⟩
    have := c2.1
    rwa [CM.weight_congr (fun v hv => by rw [h.w v (hcl.range v hv).1 (hcl.range v hv).2])] at this
  · intro hnn
    obtain ⟨P, h3, h4⟩ := EX.wpend_finite wf ((List.range H.g.maxDeg).map junk) W
    obtain ⟨H', E'', cs, c1, _, _, _, c5, c6, _⟩ := EX.wconsume_spec Xe hAl (pg := pg)
      (H.g.nVert * 2 ^ H.g.maxDeg + 1) P h.g hnv' hI h3 (by omega)
    refine ⟨{ pg with G := some H' }, cs.map fun x => H.g.listAt x.1 x.2, ?_, ?_, ?_⟩
    · unfold PyNW.listCliques PyNW.allCliques
      rw [h.loaded]
      simp only
      rw [ok_bind, h.g]
      simp only
      rw [c1, ok_bind]
    · intro l hl
      rw [a2] at hl
      obtain ⟨⟨r, C⟩, hm, rfl⟩ := List.mem_map.1 hl
      exact List.mem_map.2 ⟨(r, C), c6 hnn r C (a4 _ hm), rfl⟩
    · intro hm
      obtain ⟨es, g1, g2, g3⟩ := a6 hnn hm
      refine ⟨(es.filter fun e => decide (e.1 < H.g.nVert ∧ e.2.1 < (H.g.V e.1).N ∧
          e.2.2 < (H.g.V e.1).N)).map fun e => (H.g.e e.1 e.2.1, H.g.e e.1 e.2.2), ?_, ?_, ?_⟩
      · rw [List.length_map]
        exact Nat.le_trans (List.length_filter_le _ _) g1
      · intro e he
        obtain ⟨⟨r, i, j⟩, hm, rfl⟩ := List.mem_map.1 he
        obtain ⟨hm1, hm2⟩ := List.mem_filter.1 hm
        rw [decide_eq_true_eq] at hm2
        have hij := g2 _ hm1
        dsimp only at hm2 hij ⊢
        rcases Nat.lt_or_gt_of_ne hij with hlt | hlt
        · exact Nat.ne_of_lt (w.sorted r hm2.1 i j hlt hm2.2.2)
        · exact Nat.ne_of_gt (w.sorted r hm2.1 j i hlt hm2.2.1)
      · intro l hl
        obtain ⟨⟨r, C⟩, hm, rfl⟩ := List.mem_map.1 hl
        have hp := c5 _ hm
        obtain ⟨_, b2, _, b4⟩ := (EX.new_wpend _ W r C).1 hp
        have hN := b4.1.1.2.1
        rcases g3 r C hp with g4 | ⟨e, g4, rfl, g5, g6⟩
        · left
          rw [a2]
          exact List.mem_map.2 ⟨(r, C), g4, rfl⟩
        · right
          refine ⟨_, List.mem_map.2 ⟨e, List.mem_filter.2 ⟨g4, ?_⟩, rfl⟩, ?_, ?_⟩
          · rw [decide_eq_true_eq]
            exact ⟨b2, hN _ g5, hN _ g6⟩
          · exact mem_listAt.2 ⟨_, g5, hN _ g5, rfl⟩
          · exact mem_listAt.2 ⟨_, g6, hN _ g6, rfl⟩

end NWG

end CM
