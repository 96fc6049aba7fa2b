import Verif.Lemmas.Mono

/-! # Searches that cannot find anything any more -/

namespace CM

open Spec Graph

variable {n : Nat} {S : SimpleGraph Nat}

/-- An edge is a clique. -/
theorem edge_clique {u v : Nat} (hu : 1 ≤ u ∧ u ≤ n) (hv : 1 ≤ v ∧ v ≤ n) (huv : S.Adj u v) :
    ∃ l, IsCliqueList S n l ∧ l.length = 2 := by
  have key : ∀ u v, S.Adj u v → u < v → (1 ≤ u ∧ u ≤ n) → (1 ≤ v ∧ v ≤ n) →
      IsCliqueList S n [u, v] := by
    intro u v hA hlt hu hv
    refine ⟨by simpa using hlt, ?_, ?_⟩
    · intro x hx
      simp only [List.mem_cons, List.not_mem_nil, or_false] at hx
      rcases hx with rfl | rfl <;> assumption
    · intro x hx y hy hxy
      simp only [Set.mem_ofPred_eq, List.mem_cons, List.not_mem_nil, or_false] at hx hy
      rcases hx with rfl | rfl <;> rcases hy with rfl | rfl
      · exact absurd rfl hxy
      · exact hA
      · exact hA.symm
      · exact absurd rfl hxy
  rcases Nat.lt_or_gt_of_ne huv.ne with h1 | h1
  · exact ⟨_, key u v huv h1 hu hv, rfl⟩
  · exact ⟨_, key v u huv.symm h1 hv hu, rfl⟩

/-- Searches in a state whose record is not below the size of any clique store nothing. -/
theorem searches_stuck : ∀ (ops : List Op) {pg : PyGraph} {G : Graph}, PyOk pg n S G →
    (∀ l, IsCliqueList S n l → l.length ≤ G.curMax) → G.curLoc ≠ 0 →
    (∀ op ∈ ops, op.Legal) → (∀ op ∈ ops, op.IsSearch) → (∀ op ∈ ops, op.Positive) →
    ∃ pg' G', runs ops pg = .ok pg' ∧ PyOk pg' n S G' ∧
      (∀ l, IsCliqueList S n l → l.length ≤ G'.curMax) ∧ G'.curLoc ≠ 0 ∧ stored G' = stored G := by
  intro ops
  induction ops with
  | nil => intro pg G h hm h0 _ _ _; exact ⟨pg, G, rfl, h, hm, h0, rfl⟩
  | cons op ops ih =>
    intro pg G h hm h0 hl hs hp
    cases op with
    | search srt a =>
      have hpa : 1 ≤ a.lowerBound := hp _ (List.mem_cons_self ..)
      obtain ⟨pg1, G1, a1, a2, _, _, a5, a6⟩ := search_any h (hl _ (List.mem_cons_self ..)) a
      have h1 := a5 hpa h0
      have key : G1.curMax = max a.lowerBound G.curMax ∧ stored G1 = stored G := by
        rcases a6 with c | ⟨c1, c2⟩
        · exact c
        · have := hm _ (stored_clique a2 h1)
          omega
      obtain ⟨pg2, G2, b1, b2, b3, b4, b5⟩ := ih a2
        (fun l hl => by have := hm l hl; rw [key.1]; omega) h1 (fun o ho => hl o (by simp [ho]))
        (fun o ho => hs o (by simp [ho])) (fun o ho => hp o (by simp [ho]))
      refine ⟨pg2, G2, ?_, b2, b3, b4, by rw [b5, key.2]⟩
      show (Op.run pg (.search srt a) >>= _) = _
      show ((pg.getMaxClique srt a >>= _) >>= _) = _
      rw [a1]
      exact b1
    | reset => exact absurd (hs _ (List.mem_cons_self ..)) (by simp [Op.IsSearch])
    | list k => exact absurd (hs _ (List.mem_cons_self ..)) (by simp [Op.IsSearch])

end CM
