import Verif.Lemmas.NWStack
import Verif.Lemmas.EnumFor
import Verif.Model.NWEnum

/-! # The candidate scan of `NWCliqueEnumerator` (nw_enumerate.cpp:121-138) -/

namespace CM

open Graph

namespace NWG

open ExactNum

set_option linter.unusedSectionVars false

variable {R : Type} [Zero R] [Add R] [Sub R] [NatCast R] [LT R] [LE R] [DecidableLT R]
  [DecidableLE R] [ExactNum R] {H : NWG R}

/-- The enumeration adds the weights of its potential, which contains vertices of the clique,
to the weight of the clique: the sums of two sets have to be exact. -/
structure XE (H : NWG R) : Prop extends XN H where
  sums2 : ∀ S T : Finset Nat, (∀ v ∈ S, v < H.g.nVert) → (∀ v ∈ T, v < H.g.nVert) →
    Rep R (∑ v ∈ S, val (H.w v) + ∑ v ∈ T, val (H.w v))

theorem XE.add2 (X : XE H) (wf : WF H.g) {r : Nat} (hr : r < H.g.nVert) {S T : Finset Nat}
    (hS : ∀ i ∈ S, i < (H.g.V r).N) (hT : ∀ i ∈ T, i < (H.g.V r).N) :
    (fin (H.wsum r S) + fin (H.wsum r T) : R) = fin (H.wsum r S + H.wsum r T) := by
  apply ExactNum.add
  have h := X.sums2 (S.image (H.g.e r)) (T.image (H.g.e r))
    (by
      intro v hv
      obtain ⟨i, hi, rfl⟩ := Finset.mem_image.1 hv
      exact e_lt wf hr (hS i hi))
    (by
      intro v hv
      obtain ⟨i, hi, rfl⟩ := Finset.mem_image.1 hv
      exact e_lt wf hr (hT i hi))
  rw [Finset.sum_image (fun i hi j hj he => e_inj wf hr (hS i hi) (hS j hj) he),
    Finset.sum_image (fun i hi j hj he => e_inj wf hr (hT i hi) (hT j hj) he)] at h
  exact h

/-- Adding one more position to one of two sets. -/
theorem XE.add3 (X : XE H) (wf : WF H.g) {r : Nat} (hr : r < H.g.nVert) {S T : Finset Nat} {k : Nat}
    (hS : ∀ i ∈ S, i < (H.g.V r).N) (hT : ∀ i ∈ T, i < (H.g.V r).N) (hk : k < (H.g.V r).N)
    (hkT : k ∉ T) :
    (fin (H.wsum r S + H.wsum r T) + H.we r k : R) =
      fin (H.wsum r S + H.wsum r T + H.qe r k) := by
  have e : H.wsum r (insert k T) = H.wsum r T + H.qe r k := by
    unfold wsum; rw [Finset.sum_insert hkT, add_comm]
  rw [X.we wf hr hk]
  apply ExactNum.add
  have hT' : ∀ i ∈ insert k T, i < (H.g.V r).N := by
    intro i hi
    rcases Finset.mem_insert.1 hi with h | h
    · rw [h]; exact hk
    · exact hT i h
  have h := X.sums2 (S.image (H.g.e r)) ((insert k T).image (H.g.e r))
    (by
      intro v hv
      obtain ⟨i, hi, rfl⟩ := Finset.mem_image.1 hv
      exact e_lt wf hr (hS i hi))
    (by
      intro v hv
      obtain ⟨i, hi, rfl⟩ := Finset.mem_image.1 hv
      exact e_lt wf hr (hT' i hi))
  rw [Finset.sum_image (fun i hi j hj he => e_inj wf hr (hS i hi) (hS j hj) he),
    Finset.sum_image (fun i hi j hj he => e_inj wf hr (hT' i hi) (hT' j hj) he)] at h
  change Rep R (H.wsum r S + H.wsum r (insert k T)) at h
  rw [e, ← add_assoc] at h
  exact h

theorem XE.of_frame {H' : NWG R} (X : XE H) (h : WFrame H H')
    (hm : ∀ v, v < H.g.nVert → Num (H'.mc v))
    (hc : Num H'.curMax) (hl : Num H'.limit) : XE H' := by
  refine ⟨X.toXN.of_frame h hm hc hl, ?_⟩
  intro S T hS hT
  simp only [h.w]
  exact X.sums2 S T (fun v hv => by have := hS v hv; rwa [h.frame.nVert] at this)
    (fun v hv => by have := hT v hv; rwa [h.frame.nVert] at this)

theorem enumScan_spec (X : XN H) (w : WF H.g) {r j : Nat} (hr : r < H.g.nVert) (hj : j < (H.g.V r).N)
    {cand : GBits} {eb : Mem} {ws : List R} {cw wj required cp0 : R} {P : Finset Nat}
    (hP : ∀ i ∈ P, i < (H.g.V r).N) (hsub : bset eb cand ⊆ P) (hcp : cp0 = fin (H.wsum r P))
    (hlen : cand.len = (H.g.V r).N)
    (hin : cand.off + dlen cand.len ≤ eb.length)
    (hgt : ∀ k ∈ bset eb cand, j < k)
    (hwl : (H.g.V r).N ≤ ws.length) (hws : ∀ k ∈ bset eb cand, ws.getD k 0 = H.we r k) :
    ∃ rm cp, H.enumScan (H.g.V r) (H.g.V (H.g.e r j)) cand eb ws cw wj required (j + 1) cp0
        = .ok (rm, cp) ∧
      (∀ x ∈ rm, x ∈ bset eb cand ∧ ¬ H.g.A r j x) ∧
      cp = fin (H.wsum r (P \ rm.toFinset)) ∧
      (cp + cw + wj ≥ required → ∀ x ∈ bset eb cand, ¬ H.g.A r j x → x ∈ rm) := by
  unfold enumScan
  have hvert := e_lt w hr hj
  have hNb := N_lt w hr
  have hself := w.self _ hvert
  obtain ⟨⟨rm, cp⟩, hl, hq⟩ := loop_rule
    (body := fun (s : Nat × List Nat × R) => do
      let (k, rm, cp) := s
      if k < (H.g.V r).N ∧ cp + cw + wj ≥ required then
        if ← cand.test eb k then do
          let val ← H.g.nbr (H.g.V r) k
          let (f, _) ← binaryFind H.g.el (uadd (H.g.V (H.g.e r j)).elo (H.g.V (H.g.e r j)).spos)
            (usub (H.g.V (H.g.e r j)).N (H.g.V (H.g.e r j)).spos) val
          if f then .ok (.inl (k + 1, rm, cp))
          else do
            let w ← rd ws k
            .ok (.inl (k + 1, rm ++ [k], cp - w))
        else .ok (.inl (k + 1, rm, cp))
      else .ok (.inr (rm, cp)))
    (fun (s : Nat × List Nat × R) =>
      s.1 ≤ (H.g.V r).N ∧
      (∀ x, x ∈ s.2.1 ↔ x ∈ bset eb cand ∧ x < s.1 ∧ ¬ H.g.A r j x) ∧
      s.2.2 = fin (H.wsum r (P \ s.2.1.toFinset)))
    (fun (q : List Nat × R) => (∀ x ∈ q.1, x ∈ bset eb cand ∧ ¬ H.g.A r j x) ∧
      q.2 = fin (H.wsum r (P \ q.1.toFinset)) ∧
      (q.2 + cw + wj ≥ required → ∀ x ∈ bset eb cand, ¬ H.g.A r j x → x ∈ q.1))
    (fun s => (H.g.V r).N - s.1)
    (by
      rintro ⟨k, rm, cp⟩ ⟨a1, a6, a7⟩
      simp only at a1 a6 a7 ⊢
      by_cases hc : k < (H.g.V r).N ∧ cp + cw + wj ≥ required
      · left
        rw [if_pos hc, cand.test_spec eb k (by
          have := div_lt_dlen hc.1; rw [hlen] at hin; omega), ok_bind]
        by_cases hkm : k ∈ bset eb cand
        · rw [if_pos (mem_bset.1 hkm).2]
          rw [nbr_ok w hr hc.1, ok_bind]
          have hsp := w.spos _ hvert
          obtain ⟨f, ans, p1, p2, _⟩ := probe w (u := H.g.e r j)
            (start := (H.g.V (H.g.e r j)).spos) (val := H.g.e r k) hvert (by omega)
            (by
              intro i hi
              have h1 := w.sorted _ hvert i _ hi hsp
              rw [hself] at h1
              have h2 := w.sorted r hr j k (hgt k hkm) hc.1
              omega)
          rw [p1, ok_bind]
          simp only
          cases f with
          | true =>
            have hA : H.g.A r j k := p2.1 rfl
            rw [if_pos rfl]
            refine ⟨_, rfl, ⟨by simp only; omega, fun x => ?_, a7⟩, by simp only; omega⟩
            simp only
            rw [a6]
            constructor
            · rintro ⟨h1, h2, h3⟩; exact ⟨h1, by omega, h3⟩
            · rintro ⟨h1, h2, h3⟩
              by_cases h : x = k
              · exact absurd (h ▸ hA) h3
              · exact ⟨h1, by omega, h3⟩
          | false =>
            have hA : ¬ H.g.A r j k := fun h => by have := p2.2 h; simp at this
            rw [if_neg (by simp), rd_getD 0 (by omega), ok_bind]
            refine ⟨_, rfl, ⟨by simp only; omega, fun x => ?_, ?_⟩, by simp only; omega⟩
            · simp only
              rw [List.mem_append, a6, List.mem_singleton]
              constructor
              · rintro (⟨h1, h2, h3⟩ | rfl)
                · exact ⟨h1, by omega, h3⟩
                · exact ⟨hkm, by omega, hA⟩
              · rintro ⟨h1, h2, h3⟩
                by_cases h : x = k
                · exact Or.inr h
                · exact Or.inl ⟨h1, by omega, h3⟩
            · simp only
              have hkP : k ∈ P \ rm.toFinset := by
                rw [Finset.mem_sdiff, List.mem_toFinset]
                exact ⟨hsub hkm, fun h => by have := (a6 k).1 h; omega⟩
              have e1 : P \ (rm ++ [k]).toFinset = (P \ rm.toFinset).erase k := by
                ext x; simp; tauto
              have e2 : H.wsum r (P \ rm.toFinset) =
                  H.qe r k + H.wsum r ((P \ rm.toFinset).erase k) := by
                unfold wsum; rw [Finset.add_sum_erase _ _ hkP]
              rw [e1, a7, hws k hkm, e2]
              exact X.sub w hr (fun i hi => hP i
                (Finset.mem_sdiff.1 (Finset.mem_of_mem_erase hi)).1) hc.1
        · have hnb : ¬ bitAt eb (64 * cand.off + k) = true := fun h =>
            hkm (mem_bset.2 ⟨by rw [hlen]; exact hc.1, h⟩)
          rw [if_neg hnb]
          refine ⟨_, rfl, ⟨by simp only; omega, ?_, a7⟩, by simp only; omega⟩
          simp only
          intro x
          rw [a6]
          constructor
          · rintro ⟨h1, h2, h3⟩; exact ⟨h1, by omega, h3⟩
          · rintro ⟨h1, h2, h3⟩
            by_cases h : x = k
            · exact absurd (h ▸ h1) hkm
            · exact ⟨h1, by omega, h3⟩
      · right
        rw [if_neg hc]
        refine ⟨_, rfl, fun x hx => ⟨((a6 x).1 hx).1, ((a6 x).1 hx).2.2⟩, a7, ?_⟩
        intro hp x hx hA
        simp only at hp
        refine (a6 x).2 ⟨hx, ?_, hA⟩
        have h1 := (mem_bset.1 hx).1
        have h2 : ¬ k < (H.g.V r).N := fun h => hc ⟨h, hp⟩
        omega)
    (s := (j + 1, [], cp0)) (fuel := (H.g.V r).N + 2)
    (by
      refine ⟨by simp only; omega, ?_, by simp [hcp]⟩
      simp only [List.not_mem_nil, false_iff, not_and]
      intro x hx h
      have := hgt x hx; omega)
    (by simp only; omega)
  exact ⟨rm, cp, hl, hq⟩

end NWG

end CM
