import Verif.Lemmas.AWStack
import Verif.Lemmas.NWEnumScan

/-! # Arbitrary arithmetic: the candidate scan of `NWCliqueEnumerator` (nw_enumerate.cpp:121-138) -/

namespace CM

open Graph

namespace NWG

namespace AW

set_option linter.unusedSectionVars false

variable {R : Type} [Zero R] [Add R] [Sub R] [NatCast R] [LT R] [LE R] [DecidableLT R]
  [DecidableLE R]

variable {H : NWG R}

theorem enumScan_spec (w : WF H.g) {r j : Nat} (hr : r < H.g.nVert) (hj : j < (H.g.V r).N)
    {cand : GBits} {eb : Mem} {ws : List R} {cw wj required cp0 : R}
    (hlen : cand.len = (H.g.V r).N)
    (hin : cand.off + dlen cand.len ≤ eb.length)
    (hgt : ∀ k ∈ bset eb cand, j < k)
    (hwl : (H.g.V r).N ≤ ws.length) :
    ∃ rm cp, H.enumScan (H.g.V r) (H.g.V (H.g.e r j)) cand eb ws cw wj required (j + 1) cp0
        = .ok (rm, cp) ∧
      (∀ x ∈ rm, x ∈ bset eb cand ∧ ¬ H.g.A r j x) ∧
      (cp + cw + wj ≥ required → ∀ x ∈ bset eb cand, ¬ H.g.A r j x → x ∈ rm) := by
  unfold enumScan
  have hvert := e_lt w hr hj
  have hNb := N_lt w hr
  have hself := w.self _ hvert
  obtain ⟨⟨rm, cp⟩, hl, hq⟩ := loop_rule
    (body := fun (s : Nat × List Nat × R) => do
      let (k, rm, cp) := s
      if k < (H.g.V r).N ∧ cp + cw + wj ≥ required then
        if ← cand.test eb k then do
          let val ← H.g.nbr (H.g.V r) k
          let (f, _) ← binaryFind H.g.el (uadd (H.g.V (H.g.e r j)).elo (H.g.V (H.g.e r j)).spos)
            (usub (H.g.V (H.g.e r j)).N (H.g.V (H.g.e r j)).spos) val
          if f then .ok (.inl (k + 1, rm, cp))
          else do
            let w ← rd ws k
            .ok (.inl (k + 1, rm ++ [k], cp - w))
        else .ok (.inl (k + 1, rm, cp))
      else .ok (.inr (rm, cp)))
    (fun (s : Nat × List Nat × R) =>
      s.1 ≤ (H.g.V r).N ∧
      (∀ x, x ∈ s.2.1 ↔ x ∈ bset eb cand ∧ x < s.1 ∧ ¬ H.g.A r j x))
    (fun (q : List Nat × R) => (∀ x ∈ q.1, x ∈ bset eb cand ∧ ¬ H.g.A r j x) ∧
      (q.2 + cw + wj ≥ required → ∀ x ∈ bset eb cand, ¬ H.g.A r j x → x ∈ q.1))
    (fun s => (H.g.V r).N - s.1)
    (by
      rintro ⟨k, rm, cp⟩ ⟨a1, a6⟩
      simp only at a1 a6 ⊢
      by_cases hc : k < (H.g.V r).N ∧ cp + cw + wj ≥ required
      · left
        rw [if_pos hc, cand.test_spec eb k (by
          have := div_lt_dlen hc.1; rw [hlen] at hin; omega), ok_bind]
        by_cases hkm : k ∈ bset eb cand
        · rw [if_pos (mem_bset.1 hkm).2]
          rw [nbr_ok w hr hc.1, ok_bind]
          have hsp := w.spos _ hvert
          obtain ⟨f, ans, p1, p2, _⟩ := probe w (u := H.g.e r j)
            (start := (H.g.V (H.g.e r j)).spos) (val := H.g.e r k) hvert (by omega)
            (by
              intro i hi
              have h1 := w.sorted _ hvert i _ hi hsp
              rw [hself] at h1
              have h2 := w.sorted r hr j k (hgt k hkm) hc.1
              omega)
          rw [p1, ok_bind]
          simp only
          cases f with
          | true =>
            have hA : H.g.A r j k := p2.1 rfl
            rw [if_pos rfl]
            refine ⟨_, rfl, ⟨by simp only; omega, fun x => ?_⟩, by simp only; omega⟩
            simp only
            rw [a6]
            constructor
            · rintro ⟨h1, h2, h3⟩; exact ⟨h1, by omega, h3⟩
            · rintro ⟨h1, h2, h3⟩
              by_cases h : x = k
              · exact absurd (h ▸ hA) h3
              · exact ⟨h1, by omega, h3⟩
          | false =>
            have hA : ¬ H.g.A r j k := fun h => by have := p2.2 h; simp at this
            rw [if_neg (by simp), rd_getD (0 : R) (by omega), ok_bind]
            refine ⟨_, rfl, ⟨by simp only; omega, fun x => ?_⟩, by simp only; omega⟩
            · simp only
              rw [List.mem_append, a6, List.mem_singleton]
              constructor
              · rintro (⟨h1, h2, h3⟩ | rfl)
                · exact ⟨h1, by omega, h3⟩
                · exact ⟨hkm, by omega, hA⟩
              · rintro ⟨h1, h2, h3⟩
                by_cases h : x = k
                · exact Or.inr h
                · exact Or.inl ⟨h1, by omega, h3⟩
        · have hnb : ¬ bitAt eb (64 * cand.off + k) = true := fun h =>
            hkm (mem_bset.2 ⟨by rw [hlen]; exact hc.1, h⟩)
          rw [if_neg hnb]
          refine ⟨_, rfl, ⟨by simp only; omega, ?_⟩, by simp only; omega⟩
          simp only
          intro x
          rw [a6]
          constructor
          · rintro ⟨h1, h2, h3⟩; exact ⟨h1, by omega, h3⟩
          · rintro ⟨h1, h2, h3⟩
            by_cases h : x = k
            · exact absurd (h ▸ h1) hkm
            · exact ⟨h1, by omega, h3⟩
      · right
        rw [if_neg hc]
        refine ⟨_, rfl, fun x hx => ⟨((a6 x).1 hx).1, ((a6 x).1 hx).2.2⟩, ?_⟩
        intro hp x hx hA
        simp only at hp
        refine (a6 x).2 ⟨hx, ?_, hA⟩
        have h1 := (mem_bset.1 hx).1
        have h2 : ¬ k < (H.g.V r).N := fun h => hc ⟨h, hp⟩
        omega)
    (s := (j + 1, [], cp0)) (fuel := (H.g.V r).N + 2)
    (by
      refine ⟨by simp only; omega, ?_⟩
      simp only [List.not_mem_nil, false_iff, not_and]
      intro x hx h
      have := hgt x hx; omega)
    (by simp only; omega)
  exact ⟨rm, cp, hl, hq⟩

end AW

end NWG

end CM
