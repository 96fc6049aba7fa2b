import Verif.Model.MemTest
import Verif.Lemmas.EnumKeeps
import Verif.Lemmas.Timed
import Verif.Lemmas.Budget

/-! # The steps of the command-line program -/

namespace CM

open Spec

namespace Graph

/-- The record is the old one, or has two or more members. -/
def Rec2 (G G' : Graph) : Prop := G'.curLoc = G.curLoc ∨ 2 ≤ G'.curMax

theorem heurGrow_rec {G : Graph} {cur : Nat} {V : Vtx} {nb : List VData} {res cand : GBits}
    {s : Graph × Nat × Nat × Nat} {r : (Graph × Nat × Nat × Nat) ⊕ Graph}
    (h : heurGrow cur V nb res cand s = .ok r) (hs : Rec2 G s.1) (hc : 1 ≤ s.2.2.1) :
    (∀ s', r = .inl s' → Rec2 G s'.1 ∧ 1 ≤ s'.2.2.1) ∧ ∀ x, r = .inr x → Rec2 G x := by
  obtain ⟨Ga, i, cs, left⟩ := s
  unfold heurGrow at h
  simp only at h hs hc
  split at h
  · obtain ⟨x, _, h⟩ := bind_eq_ok.1 h
    obtain ⟨b, _, h⟩ := bind_eq_ok.1 h
    split at h
    · obtain ⟨_, _, h⟩ := bind_eq_ok.1 h
      obtain ⟨_, _, h⟩ := bind_eq_ok.1 h
      obtain ⟨_, _, h⟩ := bind_eq_ok.1 h
      split at h
      · cases h
        exact ⟨fun s' e => (by cases e), fun x e => by cases e; exact hs⟩
      · split at h
        · obtain ⟨_, _, h⟩ := bind_eq_ok.1 h
          obtain ⟨_, _, h⟩ := bind_eq_ok.1 h
          cases h
          exact ⟨fun s' e => (by cases e), fun x e => by cases e; right; simp only; omega⟩
        · cases h
          exact ⟨fun s' e => (by cases e; exact ⟨hs, by simp only; omega⟩), fun x e => by cases e⟩
    · cases h
      exact ⟨fun s' e => (by cases e; exact ⟨hs, hc⟩), fun x e => by cases e⟩
  · cases h
    exact ⟨fun s' e => (by cases e), fun x e => by cases e; exact hs⟩

theorem heurVertex_rec {srt : List VData → List VData} {G Ga G' : Graph} {cur : Nat}
    {res cand : GBits} (h : Ga.heurVertex srt cur res cand = .ok G') (hs : Rec2 G Ga) :
    Rec2 G G' := by
  unfold heurVertex at h
  obtain ⟨_, _, h⟩ := bind_eq_ok.1 h
  obtain ⟨_, _, h⟩ := bind_eq_ok.1 h
  obtain ⟨_, _, h⟩ := bind_eq_ok.1 h
  obtain ⟨_, _, h⟩ := bind_eq_ok.1 h
  obtain ⟨_, _, h⟩ := bind_eq_ok.1 h
  simp only at h
  split at h
  · cases h; exact hs
  · exact loop_inv (fun s : Graph × Nat × Nat × Nat => Rec2 G s.1 ∧ 1 ≤ s.2.2.1) (fun G' => Rec2 G G')
      (fun s s' hs hb => (heurGrow_rec hb hs.1 hs.2).1 s' rfl)
      (fun s r hs hb => (heurGrow_rec hb hs.1 hs.2).2 r rfl) ⟨hs, Nat.le_refl 1⟩ h

theorem heurGraph_rec {srt : List VData → List VData} {G G' : Graph}
    (h : G.heurGraph srt = .ok G') : Rec2 G G' := by
  unfold heurGraph at h
  simp only [loadMemory] at h
  obtain ⟨G1, h1, h⟩ := bind_eq_ok.1 h
  have e1 : Rec2 G G1 := heurVertex_rec h1 (Or.inl rfl)
  obtain ⟨G2, h2, h⟩ := bind_eq_ok.1 h
  have e2 : Rec2 G G2 := by
    refine loop_inv (fun s : Graph × Nat => Rec2 G s.1) (fun G' => Rec2 G G') ?_ ?_ e1 h2
    · rintro ⟨Ga, i⟩ s' hs hb
      simp only at hb hs
      split at hb
      · obtain ⟨_, _, hb⟩ := bind_eq_ok.1 hb
        split at hb
        · cases hb; exact hs
        · obtain ⟨_, h3, hb⟩ := bind_eq_ok.1 hb
          cases hb
          exact heurVertex_rec h3 hs
      · cases hb
    · rintro ⟨Ga, i⟩ s' hs hb
      simp only at hb hs
      split at hb
      · obtain ⟨_, _, hb⟩ := bind_eq_ok.1 hb
        split at hb
        · cases hb
        · obtain ⟨_, h3, hb⟩ := bind_eq_ok.1 hb
          cases hb
      · cases hb; exact hs
  unfold clearMemory at h
  obtain ⟨_, _, h⟩ := bind_eq_ok.1 h
  cases h
  exact e2

theorem findMax_heur_rec {srt : List VData → List VData} {G : Graph} {sv : Nat} {tl : TimeLimit}
    {r : Graph × Nat} (h : G.findMaxCliques srt sv true false tl = .ok r) : Rec2 G r.1 := by
  unfold findMaxCliques at h
  simp only [if_true] at h
  obtain ⟨G1, h1, h⟩ := bind_eq_ok.1 h
  cases h
  exact heurGraph_rec h1

variable {n : Nat} {S : SimpleGraph Nat} {G G' : Graph}

/-- The clique stored for the vertex 0, which has no neighbours. -/
theorem cliqueAt_zero (hO : Of G n S) (h : Ok G) : G.cliqueAt 0 = [0] := by
  have w := h.wf
  have hn0 : 0 < G.nVert := w.npos
  have hcl := h.cliq 0 hn0
  have hz : ∀ u ∈ G.cliqueAt 0, u = 0 := by
    intro u hu
    obtain ⟨i, hi, rfl⟩ := mem_cliqueAt.1 hu
    exact hO.zero ⟨i, hcl.2.1 i hi, rfl⟩
  have hs := cliqueAt_sorted w.str hn0
  have hpos : 1 ≤ (G.cliqueAt 0).length := by
    rw [cliqueAt_length]
    exact Finset.card_pos.2 ⟨_, hcl.1⟩
  match he : G.cliqueAt 0 with
  | [] => rw [he] at hpos; simp at hpos
  | [u] => rw [hz u (by rw [he]; simp)]
  | u :: v :: l =>
    exfalso
    rw [he] at hs
    have h1 := hz u (by rw [he]; simp)
    have h2 := hz v (by rw [he]; simp)
    have := (List.pairwise_cons.1 hs).1 v (by simp)
    omega

theorem again_frame (G : Graph) : Frame G { G with curMax := 1, curLoc := 0 } :=
  ⟨rfl, rfl, fun _ => ⟨rfl, rfl, rfl, rfl⟩, rfl, rfl, rfl, rfl, rfl, rfl, rfl⟩

theorem again_ok (h : Ok G) : Ok { G with curMax := 1, curLoc := 0 } :=
  ⟨(again_frame G).wf h.wf, h.cur, h.zero, h.pad,
    fun v hv => ((again_frame G).isCl v _).2 (h.cliq v hv), h.wf.npos⟩

/-- What is stored after a search that began without a record. -/
theorem again_stored (hO : Of G n S) (h' : Ok G')
    (hi : Imp { G with curMax := 1, curLoc := 0 } G') :
    (G'.cliqueAt G'.curLoc).length = G'.curMax ∧
      ((IsCliqueList S n (G'.cliqueAt G'.curLoc) ∧ 2 ≤ G'.curMax) ∨
        (G'.cliqueAt G'.curLoc = [0] ∧ G'.curMax = 1)) := by
  have F := (again_frame G).trans hi.frame
  have hO' := hO.frame F
  rcases hi.best with ⟨b1, b2, _⟩ | ⟨b1, b2, b3⟩
  · have e1 : G'.curMax = 1 := b1
    have e2 : G'.curLoc = 0 := b2
    rw [e2, cliqueAt_zero hO' h', e1]
    exact ⟨rfl, Or.inr ⟨rfl, rfl⟩⟩
  · have e1 : 1 < G'.curMax := b1
    have e2 : (G'.cliqueAt G'.curLoc).length = G'.curMax := by
      rw [cliqueAt_length, ← b3, hi.frame.vb]
    refine ⟨e2, Or.inl ⟨?_, e1⟩⟩
    apply cliqueAt_clique hO' h'.wf.str h'.loc (h'.cliq _ h'.loc)
    intro h0
    rw [h0, cliqueAt_zero hO' h'] at e2
    simp at e2
    omega

/-- The count is that of the list of all cliques that the iterator gives. -/
theorem memCount_consume (size : Nat) : ∀ (fuel : Nat) {pg : PyGraph} {G : Graph} {E : Enum}
    {pg' : PyGraph} {E' : Enum} {cs : List (List Nat)}, pg.G = some G → G.nVert = pg.nvert + 1 →
    pg.consume fuel E = .ok (pg', E', cs) →
    memCount size fuel G E = .ok (cs.countP fun l => l.length = size) := by
  intro fuel
  induction fuel with
  | zero => intro pg G E pg' E' cs _ _ h; cases h
  | succ fuel ih =>
    intro pg G E pg' E' cs hg hn h
    unfold PyGraph.consume PyGraph.nextClique at h
    rw [hg] at h
    simp only at h
    obtain ⟨⟨pg1, E1, c⟩, h1, h⟩ := bind_eq_ok.1 h
    obtain ⟨⟨G1, E2, v⟩, h2, h1⟩ := bind_eq_ok.1 h1
    have e1 := (enumGraph_keeps h2).1
    unfold memCount
    rw [h2, ok_bind]
    simp only at h h1 e1 ⊢
    split at h1
    · cases h1
      cases h
      rw [if_pos (by omega)]
      rfl
    · obtain ⟨⟨G3, ans⟩, h3, h1⟩ := bind_eq_ok.1 h1
      have e3 := getClique_nVert h3
      cases h1
      simp only at h e3
      obtain ⟨⟨pg4, E4, cs'⟩, h4, h⟩ := bind_eq_ok.1 h
      cases h
      rw [if_neg (by omega), h3, ok_bind]
      simp only
      rw [ih (pg := { pg with G := some G3 }) rfl (by simp only; omega) h4, ok_bind,
        List.countP_cons]
      simp

end Graph

end CM
