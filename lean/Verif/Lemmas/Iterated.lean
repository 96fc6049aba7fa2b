import Verif.Lemmas.Mono
import Verif.Model.Calls

/-! # The stored clique after searches and iterations -/

namespace CM

open Spec Graph

variable {pg : PyGraph} {n : Nat} {S : SimpleGraph Nat} {G : Graph}

/-- The record is not larger than the stored clique, or an iteration stored a clique of one of
the sizes `Q`. -/
def HonestBut (Q : Nat → Prop) (G : Graph) : Prop :=
  G.curMax ≤ (stored G).length ∨ Q (stored G).length

theorem Graph.CoreAt.stored_length {Q : Nat → Prop} {b : Nat} {G G' : Graph} (h : CoreAt Q b G G')
    (hl : G.curLoc < G.nVert) :
    (stored G').length = (stored G).length ∨ Q (stored G').length := by
  unfold stored
  rw [cliqueAt_length, cliqueAt_length, h.loc, h.frame.vb]
  rcases h.keep G.curLoc hl with e | e
  · left; rw [e]
  · right; exact e

theorem runs_honestBut {Q : Nat → Prop} : ∀ (ops : List Op) {pg : PyGraph} {G : Graph},
    PyOk pg n S G → HonestBut Q G → G.curLoc ≠ 0 → (∀ op ∈ ops, op.Legal) →
    (∀ op ∈ ops, op.Unbounded) → (∀ k, Op.list k ∈ ops → Q k) →
    ∃ pg' G', runs ops pg = .ok pg' ∧ PyOk pg' n S G' ∧ HonestBut Q G' ∧ G'.curLoc ≠ 0 := by
  intro ops
  induction ops with
  | nil => intro pg G h hh h0 _ _ _; exact ⟨pg, G, rfl, h, hh, h0⟩
  | cons op ops ih =>
    intro pg G h hh h0 hl hb hQ
    have step : ∃ pg1 G1, op.run pg = .ok pg1 ∧ PyOk pg1 n S G1 ∧ HonestBut Q G1 ∧
        G1.curLoc ≠ 0 := by
      cases op with
      | search srt a =>
        have hlb : a.lowerBound = 1 := hb _ (List.mem_cons_self ..)
        obtain ⟨pg1, G1, a1, a2, _, _, a5, a6⟩ := search_any h (hl _ (List.mem_cons_self ..)) a
        refine ⟨pg1, G1, ?_, a2, ?_, a5 (by omega) h0⟩
        · show (pg.getMaxClique srt a >>= _) = _
          rw [a1, ok_bind]
        · unfold HonestBut at hh ⊢
          have := stored_pos h
          rcases a6 with ⟨c1, c2⟩ | ⟨c1, c2⟩
          · rw [c1, c2]
            rcases hh with hh | hh
            · left; omega
            · exact Or.inr hh
          · left; omega
      | reset =>
        refine ⟨{ pg with
            G := some { G with curMax := 1 }
            finishedAll := false
            currentVertex := 0 }, { G with curMax := 1 }, ?_,
          ⟨rfl, h.nv, h.pos, reset_ok h.ok 1, h.of.frame (reset_frame G 1)⟩, Or.inl ?_, h0⟩
        · show pg.resetSearch = _
          unfold PyGraph.resetSearch; rw [h.g]
        · show 1 ≤ (stored G).length
          exact stored_pos h
      | list k =>
        obtain ⟨G1, cs, a1, a2, a3, _⟩ := listCliques_spec h k
        refine ⟨{ pg with G := some G1 }, G1, ?_, ⟨rfl, h.nv, h.pos, a2, h.of.frame a3.frame⟩, ?_,
          by rw [a3.loc]; exact h0⟩
        · show (pg.listCliques k >>= _) = _
          rw [a1, ok_bind]
        · unfold HonestBut at hh ⊢
          rcases a3.stored_length h.ok.loc with e | e
          · rw [e, a3.cm]; exact hh
          · right; rw [e]; exact hQ k (List.mem_cons_self ..)
    obtain ⟨pg1, G1, a1, a2, a3, a4⟩ := step
    obtain ⟨pg2, G2, b1, b2, b3, b4⟩ := ih a2 a3 a4 (fun o ho => hl o (by simp [ho]))
      (fun o ho => hb o (by simp [ho])) (fun k hk => hQ k (by simp [hk]))
    exact ⟨pg2, G2, by rw [runs_cons, a1, ok_bind, b1], b2, b3, b4⟩

/-- An exact search with default `lower_bound`, intact bounds and a possibly overwritten record. -/
theorem search_honestBut {Q : Nat → Prop} (h : PyOk pg n S G) (hh : HonestBut Q G)
    {srt : List VData → List VData} (hsrt : ∀ l, (srt l).Perm l) (a : PyGraph.Args) (hm : McsOk G)
    (hlim : ∀ l, IsCliqueList S n l → l.length ≤ G.limit) (h0 : G.curLoc ≠ 0)
    (hlb : a.lowerBound = 1) (hd : a.useDfs = true) (ht : a.timeLimit = none)
    (hu : ∀ l, IsCliqueList S n l → l.length ≤ a.upperBound) :
    ∃ pg' l, pg.getMaxClique srt a = .ok (pg', .ret l) ∧ IsCliqueList S n l ∧
      (IsMaxCliqueList S n l ∨ Q l.length) := by
  obtain ⟨pg', G', h1, h2, _, h3, _, h5, h4⟩ := search_exact h hsrt a hm hlim h0 (by omega) hd
    (Or.inl ht) (Or.inl ht)
  have hpos := stored_pos h2
  have hp := stored_pos h
  refine ⟨pg', stored G', by rw [h1, if_neg (by omega)], h3, ?_⟩
  rcases h4 with ⟨c1, c2⟩ | ⟨c1, c2⟩
  · left
    refine ⟨h3, fun l hl => ?_⟩
    have e1 := hu l hl
    rcases c2 l hl with e2 | e2
    · exact e2
    · omega
  · rcases hh with hh | hh
    · left
      refine ⟨h3, fun l hl => ?_⟩
      rw [c1]
      have e1 := hu l hl
      have e2 := c2 l hl
      omega
    · right; rw [c1]; exact hh

end CM
