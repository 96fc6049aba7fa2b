import Verif.Lemmas.Results

/-! # Sequences of searches -/

namespace CM

open Spec Graph

variable {pg : PyGraph} {n : Nat} {S : SimpleGraph Nat} {G : Graph}

/-- A clique has at most `n` members. -/
theorem Spec.IsCliqueList.length_le {l : List Nat} (h : IsCliqueList S n l) : l.length ≤ n := by
  have hnd : l.Nodup := h.increasing.imp (fun h => Nat.ne_of_lt h)
  rw [← List.toFinset_card_of_nodup hnd]
  calc l.toFinset.card ≤ (Finset.Icc 1 n).card := by
        apply Finset.card_le_card
        intro x hx
        rw [List.mem_toFinset] at hx
        rw [Finset.mem_Icc]; exact h.range x hx
    _ = n := by simp

/-- No search improves on the stored clique without beating it. -/
def Kept (G : Graph) : Prop := (stored G).length ≤ max 1 G.curMax

theorem Fresh.kept (h : Fresh pg n S G) : Kept G := by
  unfold Kept; rw [h.stored]; omega

theorem searches_mono : ∀ (ops : List Op) {pg : PyGraph} {G : Graph}, PyOk pg n S G → Kept G →
    (∀ op ∈ ops, op.Legal) → (∀ op ∈ ops, op.IsSearch) → (∀ op ∈ ops, op.Positive) →
    G.curLoc ≠ 0 →
    ∃ pg' G', runs ops pg = .ok pg' ∧ PyOk pg' n S G' ∧ Kept G' ∧ G'.curLoc ≠ 0 ∧
      (stored G' = stored G ∨ (stored G).length < (stored G').length) := by
  intro ops
  induction ops with
  | nil => intro pg G h hk _ _ _ h0; exact ⟨pg, G, rfl, h, hk, h0, Or.inl rfl⟩
  | cons op ops ih =>
    intro pg G h hk hl hs hp h0
    cases op with
    | search srt a =>
      have hpa : 1 ≤ a.lowerBound := hp _ (List.mem_cons_self ..)
      obtain ⟨pg1, G1, a1, a2, _, _, a5, a6⟩ := search_any h (hl _ (List.mem_cons_self ..)) a
      have hk1 : Kept G1 ∧ (stored G1 = stored G ∨ (stored G).length < (stored G1).length) := by
        unfold Kept at hk ⊢
        rcases a6 with ⟨c1, c2⟩ | ⟨c1, c2⟩
        · refine ⟨?_, Or.inl c2⟩
          rw [c1, c2]; omega
        · refine ⟨by omega, Or.inr ?_⟩
          omega
      obtain ⟨pg2, G2, b1, b2, b3, b4, b5⟩ := ih a2 hk1.1 (fun o ho => hl o (by simp [ho]))
        (fun o ho => hs o (by simp [ho])) (fun o ho => hp o (by simp [ho])) (a5 hpa h0)
      refine ⟨pg2, G2, ?_, b2, b3, b4, ?_⟩
      · rw [runs_cons]
        show ((pg.getMaxClique srt a >>= _) >>= _) = _
        rw [a1, ok_bind, ok_bind, b1]
      · have := hk1.2
        rcases this with e | e <;> rcases b5 with f | f
        · left; rw [f, e]
        · right; rw [← e]; exact f
        · right; rw [f]; exact e
        · right; omega
    | reset => exact (hs _ (List.mem_cons_self ..)).elim
    | list k => exact (hs _ (List.mem_cons_self ..)).elim

/-- The record is not larger than the stored clique. -/
def Honest (G : Graph) : Prop := G.curMax ≤ (stored G).length

/-- An exact search in an honest state with intact bounds. -/
theorem search_honest (h : PyOk pg n S G) (hh : Honest G) {srt : List VData → List VData}
    (hsrt : ∀ l, (srt l).Perm l) (a : PyGraph.Args) (hm : McsOk G)
    (hlim : ∀ l, IsCliqueList S n l → l.length ≤ G.limit) (h0 : G.curLoc ≠ 0)
    (hlb : 1 ≤ a.lowerBound) (hd : a.useDfs = true)
    (ht : a.timeLimit = none ∨ a.timeLimit = some none)
    (hc : a.timeLimit = none ∨ a.continueSearch = false ∨ pg.currentVertex = 0)
    (hu : ∀ l, IsCliqueList S n l → l.length ≤ a.upperBound)
    (hx : a.lowerBound = 1 ∨ ∃ l, IsCliqueList S n l ∧ a.lowerBound < l.length) :
    ∃ pg' l, pg.getMaxClique srt a = .ok (pg', .ret l) ∧ IsMaxCliqueList S n l ∧
      pg'.finishedAll = true := by
  obtain ⟨pg', G', h1, h2, _, h3, _, h5, h4⟩ := search_exact h hsrt a hm hlim h0 hlb hd ht hc
  have hpos := stored_pos h2
  have hp := stored_pos h
  unfold Honest at hh
  have hmax : ∀ l, IsCliqueList S n l → l.length ≤ (stored G').length := by
    rcases h4 with ⟨c1, c2⟩ | ⟨c1, c2⟩
    · intro l hl
      have e1 := hu l hl
      rcases c2 l hl with e2 | e2
      · exact e2
      · omega
    · intro l hl
      rw [c1]
      have e1 := hu l hl
      have e2 := c2 l hl
      rcases hx with hx | ⟨lx, hx1, hx2⟩
      · omega
      · have e3 := c2 lx hx1
        have e4 := hu lx hx1
        omega
  refine ⟨pg', stored G', ?_, ⟨h3, hmax⟩, h5⟩
  rw [h1, if_neg]
  rcases hx with hx | ⟨lx, hx1, hx2⟩
  · omega
  · have := hmax lx hx1; omega

end CM
