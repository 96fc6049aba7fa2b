import Verif.Model.NWMemTest
import Verif.Lemmas.EnumKeeps
import Verif.Lemmas.EXMain

/-! # The steps of the command-line program for weighted graphs -/

namespace CM

open Spec

variable {R : Type} [Zero R] [Add R] [Sub R] [NatCast R] [LT R] [LE R] [DecidableLT R]
  [DecidableLE R]

namespace NWG

/-! ## The iterator -/

/-- The weights are the same. -/
def Same (H H' : NWG R) : Prop := H'.g.nVert = H.g.nVert ∧ H'.wt = H.wt

theorem Same.trans {H1 H2 H3 : NWG R} (h : Same H1 H2) (h' : Same H2 H3) : Same H1 H3 :=
  ⟨h'.1.trans h.1, h'.2.trans h.2⟩

theorem enumLoad_same {H : NWG R} {E : WEnum R} {r : NWG R × WEnum R × Bool}
    (h : H.enumLoad E = .ok r) : Same H r.1 := by
  unfold enumLoad at h
  obtain ⟨V, _, h⟩ := bind_eq_ok.1 h
  obtain ⟨x, h1, h⟩ := bind_eq_ok.1 h
  obtain ⟨y, _, h⟩ := bind_eq_ok.1 h
  obtain ⟨w, _, h⟩ := bind_eq_ok.1 h
  have e1 := Graph.rootState_nVert h1
  simp only at h
  split at h
  · obtain ⟨z, h2, h⟩ := bind_eq_ok.1 h
    have e2 := Graph.clearMemory_nVert h2
    cases h
    exact ⟨e2.trans e1, rfl⟩
  · cases h
    exact ⟨e1, rfl⟩

theorem enumVertex_same {H : NWG R} {E : WEnum R} {r : NWG R × WEnum R}
    (h : H.enumVertex E = .ok r) : Same H r.1 := by
  unfold enumVertex at h
  refine loop_inv (fun s : NWG R × WEnum R => Same H s.1)
    (fun r : NWG R × WEnum R => Same H r.1) ?_ ?_ ⟨rfl, rfl⟩ h
  · rintro ⟨Ga, Ea⟩ s' hP hb
    simp only at hb hP
    split at hb
    · obtain ⟨V, _, hb⟩ := bind_eq_ok.1 hb
      split at hb
      · cases hb; exact hP
      · obtain ⟨⟨Gb, Eb, b⟩, h1, hb⟩ := bind_eq_ok.1 hb
        have e := enumLoad_same h1
        simp only at hb e
        split at hb
        · cases hb
        · cases hb; exact hP.trans e
    · cases hb
  · rintro ⟨Ga, Ea⟩ s' hP hb
    simp only at hb hP
    split at hb
    · obtain ⟨V, _, hb⟩ := bind_eq_ok.1 hb
      split at hb
      · cases hb
      · obtain ⟨⟨Gb, Eb, b⟩, h1, hb⟩ := bind_eq_ok.1 hb
        have e := enumLoad_same h1
        simp only at hb e
        split at hb
        · cases hb; exact hP.trans e
        · cases hb
    · cases hb; exact hP

/-- The graph in the exit of the inner loop. -/
def EnumExit.graph : EnumExit R → NWG R
  | .found H _ => H
  | .pushed H _ _ _ => H
  | .done H _ => H

theorem enumFor_same {V : Vtx} {req : Nat} {ws : List R} {cw required : R}
    {s : NWG R × WState R × Nat} {r : (NWG R × WState R × Nat) ⊕ EnumExit R}
    (h : enumFor V req ws cw required s = .ok r) :
    (∀ s', r = .inl s' → Same s.1 s'.1) ∧ ∀ x, r = .inr x → Same s.1 x.graph := by
  obtain ⟨H, top, j⟩ := s
  unfold enumFor at h
  simp only at h
  split at h
  · obtain ⟨b, _, h⟩ := bind_eq_ok.1 h
    split at h
    · obtain ⟨eb, _, h⟩ := bind_eq_ok.1 h
      obtain ⟨eb', _, h⟩ := bind_eq_ok.1 h
      obtain ⟨wj, _, h⟩ := bind_eq_ok.1 h
      obtain ⟨v, _, h⟩ := bind_eq_ok.1 h
      obtain ⟨U, _, h⟩ := bind_eq_ok.1 h
      obtain ⟨rm, _, h⟩ := bind_eq_ok.1 h
      split at h
      · split at h
        · obtain ⟨_, _, h⟩ := bind_eq_ok.1 h
          obtain ⟨_, _, h⟩ := bind_eq_ok.1 h
          obtain ⟨_, _, h⟩ := bind_eq_ok.1 h
          obtain ⟨_, _, h⟩ := bind_eq_ok.1 h
          cases h
          exact ⟨fun s' e => (by cases e), fun x e => by cases e; exact ⟨rfl, rfl⟩⟩
        · simp only [Graph.loadMemory] at h
          obtain ⟨_, _, h⟩ := bind_eq_ok.1 h
          obtain ⟨_, _, h⟩ := bind_eq_ok.1 h
          obtain ⟨_, _, h⟩ := bind_eq_ok.1 h
          cases h
          exact ⟨fun s' e => (by cases e), fun x e => by cases e; exact ⟨rfl, rfl⟩⟩
      · cases h
        exact ⟨fun s' e => (by cases e; exact ⟨rfl, rfl⟩), fun x e => by cases e⟩
    · cases h
      exact ⟨fun s' e => (by cases e; exact ⟨rfl, rfl⟩), fun x e => by cases e⟩
  · cases h
    exact ⟨fun s' e => (by cases e), fun x e => by cases e; exact ⟨rfl, rfl⟩⟩

theorem enumBody_same {s : NWG R × WEnum R} {r : (NWG R × WEnum R) ⊕ (NWG R × WEnum R × Nat)}
    (h : enumBody s = .ok r) :
    (∀ s', r = .inl s' → Same s.1 s'.1) ∧ ∀ x, r = .inr x → Same s.1 x.1 := by
  obtain ⟨H, E⟩ := s
  unfold enumBody at h
  simp only at h
  split at h
  · split at h
    · obtain ⟨G1, h1, h⟩ := bind_eq_ok.1 h
      obtain ⟨⟨G2, E2⟩, h2, h⟩ := bind_eq_ok.1 h
      have e1 := Graph.clearMemory_nVert h1
      have e2 := enumVertex_same h2
      cases h
      exact ⟨fun s' e => (by cases e; exact ⟨e2.1.trans e1, e2.2⟩), fun x e => by cases e⟩
    · obtain ⟨V, _, h⟩ := bind_eq_ok.1 h
      obtain ⟨⟨eb, left⟩, _, h⟩ := bind_eq_ok.1 h
      obtain ⟨x, h1, h⟩ := bind_eq_ok.1 h
      have e1 : Same H x.graph :=
        loop_inv (fun s : NWG R × WState R × Nat => Same H s.1)
          (fun x : EnumExit R => Same H x.graph)
          (fun s s' hs hb => hs.trans ((enumFor_same hb).1 s' rfl))
          (fun s r hs hb => hs.trans ((enumFor_same hb).2 r rfl)) ⟨rfl, rfl⟩ h1
      cases x with
      | found G1 top =>
        cases h
        exact ⟨fun s' e => (by cases e), fun x e => by cases e; exact e1⟩
      | pushed G1 top new cw =>
        cases h
        exact ⟨fun s' e => (by cases e; exact e1), fun x e => by cases e⟩
      | done G1 top =>
        simp only at h
        obtain ⟨G2, h2, h⟩ := bind_eq_ok.1 h
        obtain ⟨_, _, h⟩ := bind_eq_ok.1 h
        obtain ⟨_, _, h⟩ := bind_eq_ok.1 h
        have e2 := Graph.clearMemory_nVert h2
        cases h
        exact ⟨fun s' e => (by cases e; exact ⟨e2.trans e1.1, e1.2⟩), fun x e => by cases e⟩
  · cases h
    exact ⟨fun s' e => (by cases e), fun x e => by cases e; exact ⟨rfl, rfl⟩⟩

theorem enumGraph_same {H : NWG R} {E : WEnum R} {r : NWG R × WEnum R × Nat}
    (h : H.enumGraph E = .ok r) : Same H r.1 :=
  loop_inv (fun s : NWG R × WEnum R => Same H s.1) (fun x : NWG R × WEnum R × Nat => Same H x.1)
    (fun s s' hs hb => hs.trans ((enumBody_same hb).1 s' rfl))
    (fun s r hs hb => hs.trans ((enumBody_same hb).2 r rfl)) ⟨rfl, rfl⟩ h

theorem getClique_same {H : NWG R} {v : Nat} {r : NWG R × List Nat} (h : H.getClique v = .ok r) :
    Same H r.1 := by
  unfold getClique at h
  obtain ⟨x, h1, h⟩ := bind_eq_ok.1 h
  have := Graph.getClique_nVert h1
  cases h
  exact ⟨this, rfl⟩

theorem cliqueWeight_same {H H' : NWG R} (h : Same H H') (l : List Nat) :
    H'.cliqueWeight l = H.cliqueWeight l := by
  unfold cliqueWeight
  rw [h.1, h.2]

/-- The count is that of the list of all cliques that the iterator gives. -/
theorem memCount_consume {W : R} {H0 : NWG R} : ∀ (fuel : Nat) {pg : PyNW R} {H : NWG R}
    {E : WEnum R} {pg' : PyNW R} {E' : WEnum R} {cs : List (List Nat)}, pg.G = some H →
    H.g.nVert = pg.nvert + 1 → Same H0 H → pg.consume fuel E = .ok (pg', E', cs) →
    (∀ l ∈ cs, ∃ w, H0.cliqueWeight l = .ok w ∧ W ≤ w) →
    memCount W fuel H E = .ok cs.length := by
  intro fuel
  induction fuel with
  | zero => intro pg H E pg' E' cs _ _ _ h; cases h
  | succ fuel ih =>
    intro pg H E pg' E' cs hg hn hS h hW
    unfold PyNW.consume PyNW.nextClique at h
    rw [hg] at h
    simp only at h
    obtain ⟨⟨pg1, E1, c⟩, h1, h⟩ := bind_eq_ok.1 h
    obtain ⟨⟨G1, E2, v⟩, h2, h1⟩ := bind_eq_ok.1 h1
    have e1 := enumGraph_same h2
    unfold memCount
    rw [h2, ok_bind]
    simp only at h h1 e1 ⊢
    have e0 := e1.1
    split at h1
    · cases h1
      cases h
      rw [if_pos (by omega)]
      rfl
    · obtain ⟨⟨G3, ans⟩, h3, h1⟩ := bind_eq_ok.1 h1
      have e3 := getClique_same h3
      have e4 := e3.1
      cases h1
      simp only at h e3 e4
      obtain ⟨⟨pg4, E4, cs'⟩, h4, h⟩ := bind_eq_ok.1 h
      cases h
      rw [if_neg (by omega), h3, ok_bind]
      simp only
      obtain ⟨w, hw1, hw2⟩ := hW ans (by simp)
      rw [cliqueWeight_same ((hS.trans e1).trans e3), hw1, ok_bind,
        ih (pg := { pg with G := some G3 }) rfl (by simp only; omega) ((hS.trans e1).trans e3) h4
          (fun l hl => hW l (by simp [hl])), ok_bind, if_pos hw2]
      simp

/-! ## The heuristic does not choose the vertex 0 -/

/-- Vertex 0 has no neighbours. -/
def Bare (H : NWG R) : Prop := ∃ V, H.g.vtx 0 = .ok V ∧ V.spos = 0 ∧ V.N = 1

/-- Nothing stored is changed but the record, and that not to the vertex 0. -/
def Off (H H' : NWG R) : Prop := H'.g.vs = H.g.vs ∧ (H.curLoc ≠ 0 → H'.curLoc ≠ 0)

theorem heurGrow_off {H : NWG R} {cur : Nat} {V : Vtx} {nb : List (WData R)} {cm : Nat}
    {res cand : GBits} (hc : cm ≠ 0 → cur ≠ 0)
    {s : NWG R × Nat × R × Nat × R} {r : (NWG R × Nat × R × Nat × R) ⊕ NWG R}
    (h : heurGrow cur V nb cm res cand s = .ok r) (hs : Off H s.1) :
    (∀ s', r = .inl s' → Off H s'.1) ∧ ∀ x, r = .inr x → Off H x := by
  obtain ⟨Ga, i, cs, left, cp⟩ := s
  unfold heurGrow at h
  simp only at h hs
  split at h
  · rename_i hi
    obtain ⟨x, _, h⟩ := bind_eq_ok.1 h
    obtain ⟨b, _, h⟩ := bind_eq_ok.1 h
    split at h
    · obtain ⟨_, _, h⟩ := bind_eq_ok.1 h
      obtain ⟨_, _, h⟩ := bind_eq_ok.1 h
      obtain ⟨_, _, h⟩ := bind_eq_ok.1 h
      obtain ⟨⟨_, _, _⟩, _, h⟩ := bind_eq_ok.1 h
      simp only at h
      split at h
      · cases h
        exact ⟨fun s' e => (by cases e), fun x e => by cases e; exact hs⟩
      · split at h
        · obtain ⟨_, _, h⟩ := bind_eq_ok.1 h
          obtain ⟨_, _, h⟩ := bind_eq_ok.1 h
          cases h
          exact ⟨fun s' e => (by cases e), fun x e => by
            cases e; exact ⟨hs.1, fun _ => hc (by omega)⟩⟩
        · cases h
          exact ⟨fun s' e => (by cases e; exact hs), fun x e => by cases e⟩
    · cases h
      exact ⟨fun s' e => (by cases e; exact hs), fun x e => by cases e⟩
  · cases h
    exact ⟨fun s' e => (by cases e), fun x e => by cases e; exact hs⟩

theorem heurVertex_off {srt : List (WData R) → List (WData R)} {H : NWG R} (hB : Bare H)
    {s r : NWG R × List (WData R)} {cur : Nat} {res cand : GBits}
    (h : heurVertex srt s cur res cand = .ok r) (hs : Off H s.1) : Off H r.1 := by
  obtain ⟨Ha, nb⟩ := s
  unfold heurVertex at h
  simp only at h hs
  obtain ⟨V, hV, h⟩ := bind_eq_ok.1 h
  obtain ⟨_, _, h⟩ := bind_eq_ok.1 h
  obtain ⟨_, _, h⟩ := bind_eq_ok.1 h
  obtain ⟨_, _, h⟩ := bind_eq_ok.1 h
  obtain ⟨_, _, h⟩ := bind_eq_ok.1 h
  obtain ⟨⟨eb, nb', j, left, cp⟩, h1, h⟩ := bind_eq_ok.1 h
  simp only at h
  have hc : left ≠ 0 → cur ≠ 0 := by
    rintro hl rfl
    obtain ⟨V', b1, b2, b3⟩ := hB
    have e : Ha.g.vtx 0 = H.g.vtx 0 := by unfold Graph.vtx; rw [hs.1]
    rw [e, b1] at hV
    cases hV
    unfold heurCollect at h1
    obtain ⟨_, _, h1⟩ := bind_eq_ok.1 h1
    rw [b2, b3] at h1
    simp only [forRange, Nat.sub_self, Nat.zero_add, ok_bind] at h1
    cases h1
    exact hl rfl
  split at h
  · cases h; exact hs
  · obtain ⟨H', h2, h⟩ := bind_eq_ok.1 h
    cases h
    exact loop_inv (fun s : NWG R × Nat × R × Nat × R => Off H s.1) (fun G' => Off H G')
      (fun s s' hs hb => (heurGrow_off hc hb hs).1 s' rfl)
      (fun s r hs hb => (heurGrow_off hc hb hs).2 r rfl) hs h2

theorem heurGraph_off {srt : List (WData R) → List (WData R)} {H H' : NWG R} (hB : Bare H)
    (h : H.heurGraph srt = .ok H') : Off H H' := by
  unfold heurGraph at h
  simp only [Graph.loadMemory] at h
  obtain ⟨s1, h1, h⟩ := bind_eq_ok.1 h
  have e1 : Off H s1.1 := heurVertex_off hB h1 ⟨rfl, id⟩
  obtain ⟨G2, h2, h⟩ := bind_eq_ok.1 h
  have e2 : Off H G2 := by
    refine loop_inv (fun s : (NWG R × List (WData R)) × Nat => Off H s.1.1) (fun G' => Off H G')
      ?_ ?_ e1 h2
    · rintro ⟨⟨Ga, nb⟩, i⟩ s' hs hb
      simp only at hb hs
      split at hb
      · obtain ⟨_, _, hb⟩ := bind_eq_ok.1 hb
        split at hb
        · cases hb; exact hs
        · obtain ⟨_, h3, hb⟩ := bind_eq_ok.1 hb
          cases hb
          exact heurVertex_off hB h3 hs
      · cases hb
    · rintro ⟨⟨Ga, nb⟩, i⟩ s' hs hb
      simp only at hb hs
      split at hb
      · obtain ⟨_, _, hb⟩ := bind_eq_ok.1 hb
        split at hb
        · cases hb
        · obtain ⟨_, h3, hb⟩ := bind_eq_ok.1 hb
          cases hb
      · cases hb; exact hs
  unfold Graph.clearMemory at h
  obtain ⟨_, h3, h⟩ := bind_eq_ok.1 h
  obtain ⟨_, _, h3⟩ := bind_eq_ok.1 h3
  cases h3
  cases h
  exact e2

theorem findMax_off {srt : List (WData R) → List (WData R)} {junk : Nat → R} {H : NWG R} {sv : Nat}
    {r : NWG R × Nat} (hB : Bare H) (h : H.findMaxCliques srt junk sv true false = .ok r) :
    Off H r.1 := by
  unfold findMaxCliques at h
  simp only [if_true] at h
  obtain ⟨G1, h1, h⟩ := bind_eq_ok.1 h
  cases h
  exact heurGraph_off hB h1

end NWG

end CM
