import Verif.Lemmas.Search
import Verif.Model.Enum

/-! # The candidate scan of `CliqueEnumerator` (enumerate.cpp:146-159) -/

namespace CM

namespace Graph

variable {G : Graph}

theorem enumScan_spec (w : WF G) {r j : Nat} (hr : r < G.nVert) (hj : j < (G.V r).N)
    {cand : GBits} {eb : Mem} {left cs required : Nat} (hlen : cand.len = (G.V r).N)
    (hin : cand.off + dlen cand.len ≤ eb.length)
    (hgt : ∀ k ∈ bset eb cand, j < k) (hleft : left = (bset eb cand).card) :
    ∃ rm pot, G.enumScan (G.V r) (G.V (G.e r j)) cand eb left cs required (j + 1) (left + 1 + cs)
        = .ok (rm, pot) ∧
      rm.Nodup ∧ (∀ x ∈ rm, x ∈ bset eb cand ∧ ¬ G.A r j x) ∧
      pot = left - rm.length + cs + 1 ∧ rm.length ≤ left ∧
      (pot ≥ required → ∀ x ∈ bset eb cand, ¬ G.A r j x → x ∈ rm) := by
  unfold enumScan
  have hvert := e_lt w hr hj
  have hNb := N_lt w hr
  have hself := w.self _ hvert
  have hcardN : (bset eb cand).card ≤ (G.V r).N := by
    have : bset eb cand ⊆ Finset.range (G.V r).N := by
      intro x hx; rw [Finset.mem_range, ← hlen]; exact (mem_bset.1 hx).1
    simpa using Finset.card_le_card this
  have hrmle : ∀ rm : List Nat, rm.Nodup → (∀ x ∈ rm, x ∈ bset eb cand) → rm.length ≤ left := by
    intro rm hnd hsub
    rw [hleft, ← List.toFinset_card_of_nodup hnd]
    exact Finset.card_le_card (fun x hx => hsub x (List.mem_toFinset.1 hx))
  obtain ⟨⟨rm, pot⟩, hl, hq⟩ := loop_rule
    (body := fun (s : Nat × Nat × List Nat × Nat) => do
      let (k, start, rm, pot) := s
      if k < (G.V r).N ∧ pot ≥ required then
        if ← cand.test eb k then do
          let val ← G.nbr (G.V r) k
          let (f, ans) ← binaryFind G.el (uadd (G.V (G.e r j)).elo start)
            (usub (G.V (G.e r j)).N start) val
          let rm := if f then rm else rm ++ [k]
          let pot := usub left rm.length + cs + 1
          .ok (.inl (k + 1, uadd start ans, rm, pot))
        else .ok (.inl (k + 1, start, rm, pot))
      else .ok (.inr (rm, pot)))
    (fun (s : Nat × Nat × List Nat × Nat) =>
      s.1 ≤ (G.V r).N ∧
      s.2.1 ≤ (G.V (G.e r j)).N ∧
      (∀ k ∈ bset eb cand, s.1 ≤ k → ∀ i, i < s.2.1 → G.e (G.e r j) i < G.e r k) ∧
      s.2.2.1.Nodup ∧
      (∀ x, x ∈ s.2.2.1 ↔ x ∈ bset eb cand ∧ x < s.1 ∧ ¬ G.A r j x) ∧
      s.2.2.2 = left - s.2.2.1.length + cs + 1)
    (fun (q : List Nat × Nat) => q.1.Nodup ∧ (∀ x ∈ q.1, x ∈ bset eb cand ∧ ¬ G.A r j x) ∧
      q.2 = left - q.1.length + cs + 1 ∧ q.1.length ≤ left ∧
      (q.2 ≥ required → ∀ x ∈ bset eb cand, ¬ G.A r j x → x ∈ q.1))
    (fun s => (G.V r).N - s.1)
    (by
      rintro ⟨k, start, rm, pot⟩ ⟨a1, a3, a4, a5, a6, a7⟩
      simp only at a1 a3 a4 a5 a6 a7 ⊢
      by_cases hc : k < (G.V r).N ∧ pot ≥ required
      · left
        rw [if_pos hc, cand.test_spec eb k (by
          have := div_lt_dlen hc.1; rw [hlen] at hin; omega), ok_bind]
        by_cases hkm : k ∈ bset eb cand
        · rw [if_pos (mem_bset.1 hkm).2]
          rw [nbr_ok w hr hc.1, ok_bind]
          obtain ⟨f, ans, p1, p2, p3, _, p5⟩ := probe w (u := G.e r j) (start := start)
            (val := G.e r k) hvert a3 (a4 k hkm (Nat.le_refl _))
          rw [p1, ok_bind]
          simp only
          have hrm' : (if f = true then rm else rm ++ [k]).Nodup ∧
              ∀ x, x ∈ (if f = true then rm else rm ++ [k]) ↔
                x ∈ bset eb cand ∧ x < k + 1 ∧ ¬ G.A r j x := by
            cases f with
            | true =>
              have hA : G.A r j k := p2.1 rfl
              simp only [if_true]
              refine ⟨a5, fun x => ?_⟩
              rw [a6]
              constructor
              · rintro ⟨h1, h2, h3⟩; exact ⟨h1, by omega, h3⟩
              · rintro ⟨h1, h2, h3⟩
                by_cases h : x = k
                · exact absurd (h ▸ hA) h3
                · exact ⟨h1, by omega, h3⟩
            | false =>
              have hA : ¬ G.A r j k := fun h => by have := p2.2 h; simp at this
              simp only [Bool.false_eq_true, if_false]
              refine ⟨?_, fun x => ?_⟩
              · rw [List.nodup_append]
                refine ⟨a5, by simp, ?_⟩
                intro x hx y hy
                simp only [List.mem_singleton] at hy
                have := (a6 x).1 hx; omega
              · rw [List.mem_append, a6, List.mem_singleton]
                constructor
                · rintro (⟨h1, h2, h3⟩ | rfl)
                  · exact ⟨h1, by omega, h3⟩
                  · exact ⟨hkm, by omega, hA⟩
                · rintro ⟨h1, h2, h3⟩
                  by_cases h : x = k
                  · exact Or.inr h
                  · exact Or.inl ⟨h1, by omega, h3⟩
          have hle := hrmle _ hrm'.1 (fun x hx => ((hrm'.2 x).1 hx).1)
          refine ⟨_, rfl, ⟨?_, p3, ?_, hrm'.1, hrm'.2, ?_⟩, ?_⟩
          · simp only; omega
          · simp only
            intro k2 hk2 hk2' i hi
            have h1 := p5 i hi
            have h2 := w.sorted r hr k k2 (by omega) (by rw [← hlen]; exact (mem_bset.1 hk2).1)
            omega
          · simp only
            rw [usub_eq hle (by omega)]
          · simp only; omega
        · have hnb : ¬ bitAt eb (64 * cand.off + k) = true := fun h =>
            hkm (mem_bset.2 ⟨by rw [hlen]; exact hc.1, h⟩)
          rw [if_neg hnb]
          refine ⟨_, rfl, ⟨by simp only; omega, a3, ?_, a5, ?_, a7⟩, by simp only; omega⟩
          · simp only
            intro k2 hk2 hk2'
            exact a4 k2 hk2 (by omega)
          · simp only
            intro x
            rw [a6]
            constructor
            · rintro ⟨h1, h2, h3⟩; exact ⟨h1, by omega, h3⟩
            · rintro ⟨h1, h2, h3⟩
              by_cases h : x = k
              · exact absurd (h ▸ h1) hkm
              · exact ⟨h1, by omega, h3⟩
      · right
        rw [if_neg hc]
        refine ⟨_, rfl, a5, fun x hx => ⟨((a6 x).1 hx).1, ((a6 x).1 hx).2.2⟩, a7,
          hrmle _ a5 (fun x hx => ((a6 x).1 hx).1), ?_⟩
        intro hp x hx hA
        simp only at hp
        refine (a6 x).2 ⟨hx, ?_, hA⟩
        have := (mem_bset.1 hx).1
        omega)
    (s := (j + 1, (G.V (G.e r j)).spos + 1, [], left + 1 + cs)) (fuel := (G.V r).N + 2)
    (by
      have hsp := w.spos _ hvert
      refine ⟨by simp only; omega, by simp only; omega, ?_, by simp, ?_,
        by simp only [List.length_nil]; omega⟩
      · simp only
        intro k hk _ i hi
        have h2 := w.sorted r hr j k (hgt k hk) (by rw [← hlen]; exact (mem_bset.1 hk).1)
        by_cases his : i = (G.V (G.e r j)).spos
        · rw [his, hself]; exact h2
        · have h1 := w.sorted _ hvert i _ (show i < (G.V (G.e r j)).spos by omega) hsp
          rw [hself] at h1
          omega
      · simp only [List.not_mem_nil, false_iff, not_and]
        intro x hx h
        have := hgt x hx; omega)
    (by simp only; omega)
  exact ⟨rm, pot, hl, hq⟩

end Graph

end CM
