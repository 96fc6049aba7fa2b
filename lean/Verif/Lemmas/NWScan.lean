import Verif.Lemmas.NWUpd

/-! # The candidate scan of the weighted search (nw_dfs.cpp:99-114) -/

namespace CM

open Graph

namespace NWG

open ExactNum

set_option linter.unusedSectionVars false

variable {R : Type} [Zero R] [Add R] [Sub R] [NatCast R] [LT R] [LE R] [DecidableLT R]
  [DecidableLE R] [ExactNum R] {H : NWG R}

/-- The candidates that stay candidates once `j` has joined the clique. -/
def adjC {R : Type} (H : NWG R) (r j : Nat) (C : Finset Nat) : Finset Nat := C.filter fun k => H.g.A r j k

theorem stackScan_spec (X : XN H) (wf : WF H.g) {r j : Nat} (hr : r < H.g.nVert) (hj : j < (H.g.V r).N)
    {cand : GBits} {eb : Mem} {ws : List R} {k0 : Nat} (hlen : cand.len = (H.g.V r).N)
    (hin : cand.off + dlen cand.len ≤ eb.length) (hpad : PadZero eb cand)
    (hgt : ∀ k ∈ bset eb cand, j < k)
    (hk0 : k0 ≤ (H.g.V r).N) (hk0m : k0 < (H.g.V r).N → k0 ∈ bset eb cand)
    (hk0min : ∀ k ∈ bset eb cand, k0 ≤ k)
    (hwl : (H.g.V r).N ≤ ws.length) (hws : ∀ k ∈ bset eb cand, ws.getD k 0 = H.we r k) :
    ∃ rm, H.stackScan (H.g.V r) (H.g.V (H.g.e r j)) cand eb ws (bset eb cand).card k0
        = .ok (rm, (H.adjC r j (bset eb cand)).card, fin (H.wsum r (H.adjC r j (bset eb cand)))) ∧
      ∀ x, x ∈ rm ↔ x ∈ bset eb cand ∧ ¬ H.g.A r j x := by
  unfold stackScan
  have hvert := e_lt wf hr hj
  have hNb := N_lt wf hr
  have hself := wf.self _ hvert
  have hmemN : ∀ x ∈ bset eb cand, x < (H.g.V r).N := by
    intro x hx; rw [← hlen]; exact (mem_bset.1 hx).1
  have hcardN : (bset eb cand).card ≤ (H.g.V r).N := by
    have : bset eb cand ⊆ Finset.range (H.g.V r).N := by
      intro x hx; rw [Finset.mem_range]; exact hmemN x hx
    simpa using Finset.card_le_card this
  have hrmle : ∀ rm : List Nat, rm.Nodup → (∀ x ∈ rm, x ∈ bset eb cand) →
      rm.length ≤ (bset eb cand).card := by
    intro rm hnd hsub
    rw [← List.toFinset_card_of_nodup hnd]
    exact Finset.card_le_card (fun x hx => hsub x (List.mem_toFinset.1 hx))
  obtain ⟨⟨rm, left, pot⟩, hl, hq⟩ := loop_rule
    (body := fun (s : Nat × List Nat × Nat × R) =>
      let (k, rm, left, pot) := s
      if k < (H.g.V r).N ∧ left ≠ 0 then do
        let val ← H.g.nbr (H.g.V r) k
        let (f, _) ← binaryFind H.g.el (uadd (H.g.V (H.g.e r j)).elo (H.g.V (H.g.e r j)).spos)
          (usub (H.g.V (H.g.e r j)).N (H.g.V (H.g.e r j)).spos) val
        if f then do
          let w ← rd ws k
          let k' ← cand.next eb (k + 1)
          .ok (.inl (k', rm, left, pot + w))
        else do
          let k' ← cand.next eb (k + 1)
          .ok (.inl (k', rm ++ [k], usub left 1, pot))
      else .ok (.inr (rm, left, pot)))
    (fun (s : Nat × List Nat × Nat × R) =>
      s.1 ≤ (H.g.V r).N ∧ (s.1 < (H.g.V r).N → s.1 ∈ bset eb cand) ∧
      s.2.1.Nodup ∧
      (∀ x, x ∈ s.2.1 ↔ x ∈ bset eb cand ∧ x < s.1 ∧ ¬ H.g.A r j x) ∧
      s.2.2.1 = (bset eb cand).card - s.2.1.length ∧
      s.2.2.2 = fin (H.wsum r ((H.adjC r j (bset eb cand)).filter (· < s.1))))
    (fun (q : List Nat × Nat × R) => (∀ x, x ∈ q.1 ↔ x ∈ bset eb cand ∧ ¬ H.g.A r j x) ∧
      q.2.1 = (H.adjC r j (bset eb cand)).card ∧ q.2.2 = fin (H.wsum r (H.adjC r j (bset eb cand))))
    (fun s => (H.g.V r).N - s.1)
    (by
      rintro ⟨k, rm, left, pot⟩ ⟨a1, a2, a5, a6, a7, a8⟩
      simp only at a1 a2 a5 a6 a7 a8 ⊢
      by_cases hc : k < (H.g.V r).N ∧ left ≠ 0
      · left
        have hkm := a2 hc.1
        rw [if_pos hc, nbr_ok wf hr hc.1, ok_bind]
        have hsp := wf.spos _ hvert
        obtain ⟨f, ans, p1, p2, p3, _, p5⟩ := probe wf (u := H.g.e r j)
          (start := (H.g.V (H.g.e r j)).spos) (val := H.g.e r k) hvert (by omega)
          (by
            intro i hi
            have h1 := wf.sorted _ hvert i _ hi hsp
            rw [hself] at h1
            have h2 := wf.sorted r hr j k (hgt k hkm) hc.1
            omega)
        rw [p1, ok_bind]
        simp only
        obtain ⟨k', n1, n2, n3, n4, n5⟩ := cand.next_spec eb (k + 1) hin hpad
          (by rw [hlen]; omega)
        rw [n1]
        simp only [ok_bind]
        have hstep : ∀ x ∈ bset eb cand, x < k' ↔ x < k ∨ x = k := by
          intro x hx
          constructor
          · intro hlt
            rcases Nat.lt_trichotomy x k with h | h | h
            · exact Or.inl h
            · exact Or.inr h
            · have := n5 x hx (by omega); omega
          · rintro (h | h) <;> omega
        cases f with
        | true =>
          have hA : H.g.A r j k := p2.1 rfl
          rw [if_pos rfl, rd_getD 0 (by omega), ok_bind]
          refine ⟨_, rfl, ⟨?_, ?_, a5, ?_, a7, ?_⟩, ?_⟩
          · simp only; rw [hlen] at n3; exact n3
          · simp only; rw [← hlen]; exact n4
          · intro x
            simp only
            rw [a6]
            constructor
            · rintro ⟨h1, h2, h3⟩; exact ⟨h1, (hstep x h1).2 (Or.inl h2), h3⟩
            · rintro ⟨h1, h2, h3⟩
              rcases (hstep x h1).1 h2 with h | h
              · exact ⟨h1, h, h3⟩
              · exact absurd (h ▸ hA) h3
          · simp only
            have : (H.adjC r j (bset eb cand)).filter (· < k')
                = insert k ((H.adjC r j (bset eb cand)).filter (· < k)) := by
              ext x
              simp only [adjC, Finset.mem_filter, Finset.mem_insert]
              constructor
              · rintro ⟨⟨h1, h2⟩, h3⟩
                rcases (hstep x h1).1 h3 with h | h
                · exact Or.inr ⟨⟨h1, h2⟩, h⟩
                · exact Or.inl h
              · rintro (rfl | ⟨⟨h1, h2⟩, h3⟩)
                · exact ⟨⟨hkm, hA⟩, by omega⟩
                · exact ⟨⟨h1, h2⟩, by omega⟩
            rw [this, ← X.add wf hr
              (S := (H.adjC r j (bset eb cand)).filter (· < k))
              (fun i hi => hmemN i (Finset.mem_filter.1 (Finset.mem_filter.1 hi).1).1) hc.1 (by simp),
              a8, hws k hkm]
          · simp only; omega
        | false =>
          have hA : ¬ H.g.A r j k := fun h => by have := p2.2 h; simp at this
          rw [if_neg (by simp)]
          have hnd : (rm ++ [k]).Nodup := by
            rw [List.nodup_append]
            refine ⟨a5, by simp, ?_⟩
            intro x hx y hy
            simp only [List.mem_singleton] at hy
            have := (a6 x).1 hx; omega
          have hmem : ∀ x, x ∈ rm ++ [k] ↔ x ∈ bset eb cand ∧ x < k' ∧ ¬ H.g.A r j x := by
            intro x
            rw [List.mem_append, a6, List.mem_singleton]
            constructor
            · rintro (⟨h1, h2, h3⟩ | rfl)
              · exact ⟨h1, (hstep x h1).2 (Or.inl h2), h3⟩
              · exact ⟨hkm, (hstep x hkm).2 (Or.inr rfl), hA⟩
            · rintro ⟨h1, h2, h3⟩
              rcases (hstep x h1).1 h2 with h | h
              · exact Or.inl ⟨h1, h, h3⟩
              · exact Or.inr h
          have hle := hrmle _ hnd (fun x hx => ((hmem x).1 hx).1)
          refine ⟨_, rfl, ⟨?_, ?_, hnd, hmem, ?_, ?_⟩, ?_⟩
          · simp only; rw [hlen] at n3; exact n3
          · simp only; rw [← hlen]; exact n4
          · simp only [List.length_append, List.length_singleton] at hle ⊢
            rw [usub_eq (by omega) (by omega)]; omega
          · simp only
            have : (H.adjC r j (bset eb cand)).filter (· < k')
                = (H.adjC r j (bset eb cand)).filter (· < k) := by
              ext x
              simp only [adjC, Finset.mem_filter]
              constructor
              · rintro ⟨⟨h1, h2⟩, h3⟩
                rcases (hstep x h1).1 h3 with h | h
                · exact ⟨⟨h1, h2⟩, h⟩
                · exact absurd (h ▸ h2) hA
              · rintro ⟨⟨h1, h2⟩, h3⟩
                exact ⟨⟨h1, h2⟩, by omega⟩
            rw [this]; exact a8
          · simp only; omega
      · right
        rw [if_neg hc]
        have hle := hrmle _ a5 (fun x hx => ((a6 x).1 hx).1)
        -- every candidate has been classified
        have hall : ∀ x ∈ bset eb cand, ¬ H.g.A r j x → x ∈ rm := by
          intro x hx hA
          by_cases hk : k < (H.g.V r).N
          · have h0 : left = 0 := by
              by_contra h; exact hc ⟨hk, h⟩
            have hcard : rm.toFinset.card = rm.length := List.toFinset_card_of_nodup a5
            have : rm.toFinset = bset eb cand := by
              apply Finset.eq_of_subset_of_card_le
              · intro y hy; exact ((a6 y).1 (List.mem_toFinset.1 hy)).1
              · omega
            rw [← List.mem_toFinset, this]; exact hx
          · exact (a6 x).2 ⟨hx, by have := hmemN x hx; omega, hA⟩
        have hiff : ∀ x, x ∈ rm ↔ x ∈ bset eb cand ∧ ¬ H.g.A r j x :=
          fun x => ⟨fun h => ⟨((a6 x).1 h).1, ((a6 x).1 h).2.2⟩, fun h => hall x h.1 h.2⟩
        have hrf : rm.toFinset = (bset eb cand).filter (fun k => ¬ H.g.A r j k) := by
          ext x; rw [List.mem_toFinset, hiff, Finset.mem_filter]
        refine ⟨_, rfl, hiff, ?_, ?_⟩
        · simp only
          have h1 := Finset.card_filter_add_card_filter_not (s := bset eb cand)
            (fun k => H.g.A r j k)
          rw [← hrf, List.toFinset_card_of_nodup a5] at h1
          unfold adjC; omega
        · simp only
          rw [a8]
          congr 2
          apply Finset.filter_true_of_mem
          intro x hx
          have hx' := Finset.mem_filter.1 hx
          by_cases hk : k < (H.g.V r).N
          · exfalso
            have h0 : left = 0 := by
              by_contra h; exact hc ⟨hk, h⟩
            have hcard : rm.toFinset.card = rm.length := List.toFinset_card_of_nodup a5
            have : rm.toFinset = bset eb cand := by
              apply Finset.eq_of_subset_of_card_le
              · intro y hy; exact ((a6 y).1 (List.mem_toFinset.1 hy)).1
              · omega
            have hx2 : x ∈ rm := by rw [← List.mem_toFinset, this]; exact hx'.1
            exact ((hiff x).1 hx2).2 hx'.2
          · have := hmemN x hx'.1; omega)
    (s := (k0, [], (bset eb cand).card, 0)) (fuel := (H.g.V r).N + 2)
    (by
      refine ⟨hk0, hk0m, by simp, ?_, by simp, ?_⟩
      · simp only [List.not_mem_nil, false_iff, not_and]
        intro x hx h
        have := hk0min x hx; omega
      · simp only
        have : (H.adjC r j (bset eb cand)).filter (· < k0) = ∅ := by
          rw [Finset.filter_eq_empty_iff]
          intro x hx
          have := hk0min x (Finset.mem_filter.1 hx).1
          omega
        rw [this]; simp [wsum, fin_zero])
    (by simp only; omega)
  obtain ⟨q1, q2, q3⟩ := hq
  simp only at q1 q2 q3
  rw [q2, q3] at hl
  exact ⟨rm, hl, q1⟩

end NWG

end CM
