import Verif.Lemmas.MemTest

/-!
# A search that is repeated from the start

A timed search may give up one root.  When the record is then forgotten and the search is repeated
without a time limit, that root is searched again.
-/

namespace CM

open Spec

namespace Graph

/-- The record is the old one, or it is noted at the root. -/
def Noted (r : Nat) (G G' : Graph) : Prop :=
  G'.curMax = G.curMax ∨ (G'.V r).mcs = G'.curMax

theorem clearMemory_noted {r n : Nat} {G Ga G' : Graph} (h : Ga.clearMemory n = .ok G')
    (hs : Noted r G Ga) : Noted r G G' := by
  unfold clearMemory at h
  obtain ⟨_, _, h⟩ := bind_eq_ok.1 h
  cases h
  exact hs

theorem saveClique_noted {r size : Nat} {V : Vtx} {res : GBits} {G Ga G' : Graph}
    (h : Ga.saveClique r V res size = .ok G') : Noted r G G' := by
  unfold saveClique setMcs at h
  obtain ⟨_, _, h⟩ := bind_eq_ok.1 h
  obtain ⟨_, _, h⟩ := bind_eq_ok.1 h
  obtain ⟨G1, h1, h⟩ := bind_eq_ok.1 h
  obtain ⟨V1, h2, h1⟩ := bind_eq_ok.1 h1
  obtain ⟨vs, h3, h1⟩ := bind_eq_ok.1 h1
  cases h1
  cases h
  right
  obtain ⟨hv, rfl⟩ := wr_eq_ok.1 h3
  simp only [Graph.V]
  simp only at hv
  simp [hv]

theorem stackFor_noted {r req cs : Nat} {V : Vtx} {G : Graph} {s : Graph × SState × Nat}
    {x : (Graph × SState × Nat) ⊕ ForExit} (h : stackFor r V req cs s = .ok x)
    (hs : Noted r G s.1) :
    (∀ s', x = .inl s' → Noted r G s'.1) ∧ (∀ G' a b, x = .inr (.pushed G' a b) → Noted r G G') ∧
      ∀ G' a b, x = .inr (.done G' a b) → Noted r G G' := by
  obtain ⟨Ga, top, left⟩ := s
  unfold stackFor at h
  simp only at h hs
  split at h
  · obtain ⟨_, _, h⟩ := bind_eq_ok.1 h
    obtain ⟨_, _, h⟩ := bind_eq_ok.1 h
    obtain ⟨_, _, h⟩ := bind_eq_ok.1 h
    obtain ⟨_, _, h⟩ := bind_eq_ok.1 h
    obtain ⟨_, _, h⟩ := bind_eq_ok.1 h
    split at h
    · split at h
      · obtain ⟨_, _, h⟩ := bind_eq_ok.1 h
        obtain ⟨G1, h1, h⟩ := bind_eq_ok.1 h
        obtain ⟨_, _, h⟩ := bind_eq_ok.1 h
        cases h
        refine ⟨fun s' e => ?_, fun _ _ _ e => (by cases e), fun _ _ _ e => (by cases e)⟩
        cases e
        have h2 : Noted r G G1 := saveClique_noted h1
        exact h2
      · simp only [loadMemory] at h
        obtain ⟨_, _, h⟩ := bind_eq_ok.1 h
        obtain ⟨_, _, h⟩ := bind_eq_ok.1 h
        obtain ⟨_, _, h⟩ := bind_eq_ok.1 h
        cases h
        refine ⟨fun s' e => (by cases e), fun _ _ _ e => ?_, fun _ _ _ e => (by cases e)⟩
        cases e
        exact hs
    · cases h
      refine ⟨fun s' e => ?_, fun _ _ _ e => (by cases e), fun _ _ _ e => (by cases e)⟩
      cases e
      exact hs
  · cases h
    refine ⟨fun s' e => (by cases e), fun _ _ _ e => (by cases e), fun _ _ _ e => ?_⟩
    cases e
    exact hs

theorem stackBody_noted {r req : Nat} {V : Vtx} {G : Graph} {s : Graph × List SState × Nat}
    {x : (Graph × List SState × Nat) ⊕ (Graph × List SState)}
    (h : stackBody r V req s = .ok x) (hs : Noted r G s.1) :
    (∀ s', x = .inl s' → Noted r G s'.1) ∧ ∀ y, x = .inr y → Noted r G y.1 := by
  obtain ⟨Ga, states, cs⟩ := s
  unfold stackBody at h
  simp only at h hs
  cases states with
  | nil =>
    cases h
    exact ⟨fun s' e => (by cases e), fun y e => by cases e; exact hs⟩
  | cons top rest =>
    simp only at h
    split at h
    · cases h
      exact ⟨fun s' e => (by cases e), fun y e => by cases e; exact hs⟩
    · obtain ⟨_, _, h⟩ := bind_eq_ok.1 h
      obtain ⟨_, _, h⟩ := bind_eq_ok.1 h
      obtain ⟨q, h1, h⟩ := bind_eq_ok.1 h
      have hq : (∀ G' a b, q = .pushed G' a b → Noted r G G') ∧
          ∀ G' a b, q = .done G' a b → Noted r G G' := by
        refine loop_inv (fun s : Graph × SState × Nat => Noted r G s.1)
          (fun q => (∀ G' a b, q = .pushed G' a b → Noted r G G') ∧
            ∀ G' a b, q = .done G' a b → Noted r G G') ?_ ?_ hs h1
        · exact fun s s' hs hb => (stackFor_noted hb hs).1 s' rfl
        · intro s q hs hb
          have := (stackFor_noted hb hs).2
          exact ⟨fun G' a b e => this.1 G' a b (by rw [e]), fun G' a b e => this.2 G' a b (by rw [e])⟩
      cases q with
      | pushed G1 a b =>
        simp only at h
        cases h
        exact ⟨fun s' e => (by cases e; exact hq.1 _ _ _ rfl), fun y e => by cases e⟩
      | done G1 a j =>
        simp only at h
        have h2 := hq.2 _ _ _ rfl
        split at h
        · obtain ⟨_, h3, h⟩ := bind_eq_ok.1 h
          obtain ⟨_, _, h⟩ := bind_eq_ok.1 h
          cases h
          have h4 := clearMemory_noted h3 h2
          exact ⟨fun s' e => (by cases e; exact h4), fun y e => by cases e⟩
        · cases h
          exact ⟨fun s' e => (by cases e; exact h2), fun y e => by cases e⟩

theorem stackVertex_noted {r : Nat} {G G' : Graph} (h : G.stackVertex r = .ok G') :
    Noted r G G' := by
  unfold stackVertex rootState at h
  obtain ⟨_, _, h⟩ := bind_eq_ok.1 h
  obtain ⟨⟨G1, x⟩, h1, h⟩ := bind_eq_ok.1 h
  have e1 : Noted r G G1 := by
    simp only [loadMemory] at h1
    obtain ⟨_, _, h1⟩ := bind_eq_ok.1 h1
    cases h1
    exact Or.inl rfl
  obtain ⟨_, _, h⟩ := bind_eq_ok.1 h
  simp only at h
  split at h
  · exact clearMemory_noted h e1
  · obtain ⟨⟨G2, st⟩, h2, h⟩ := bind_eq_ok.1 h
    have e2 : Noted r G G2 := loop_inv (fun s : Graph × List SState × Nat => Noted r G s.1)
      (fun y : Graph × List SState => Noted r G y.1)
      (fun s s' hs hb => (stackBody_noted hb hs).1 s' rfl)
      (fun s y hs hb => (stackBody_noted hb hs).2 y rfl) e1 h2
    simp only at h e2
    split at h
    · rw [ok_bind] at h
      exact clearMemory_noted h e2
    · obtain ⟨G3, h3, h⟩ := bind_eq_ok.1 h
      exact clearMemory_noted h (clearMemory_noted h3 e2)

variable {n : Nat} {S : SimpleGraph Nat} {G G' : Graph} {j c : Nat}

/-- The vertex 0 has no neighbours. -/
theorem rooted_zero (hO : Of G n S) (w : WF G) {T : Finset Nat} (hT : Rooted G 0 T) :
    T.card ≤ 1 := by
  rw [Finset.card_le_one]
  intro a ha b hb
  have h1 := hO.zero ⟨a, hT.1.2.1 a ha, rfl⟩
  have h2 := hO.zero ⟨b, hT.1.2.1 b hb, rfl⟩
  exact e_inj w w.npos (hT.1.2.1 a ha) (hT.1.2.1 b hb) (by rw [h1, h2])

/-- The root `j` may have been given up, when all earlier roots had been searched and the record
was `c`. -/
structure Late (G : Graph) (j c : Nat) : Prop where
  pos : 1 ≤ c
  mcs : c < (G.V j).mcs
  lim : c < G.limit
  low : ∀ v, v < j → v < G.nVert → ∀ T, Rooted G v T → 2 ≤ T.card → T.card ≤ c

theorem Late.congr (F : Frame G G') (hl : G'.limit = G.limit) (hV : (G'.V j).mcs = (G.V j).mcs)
    (h : Late G j c) : Late G' j c :=
  ⟨h.pos, by rw [hV]; exact h.mcs, by rw [hl]; exact h.lim, fun v hv hn T hT =>
    h.low v hv (by rwa [F.nVert] at hn) T (by rwa [F.rooted] at hT)⟩

/-- A timed search without a record gives up at most one root, and that one late. -/
theorem recGraph_late (hO : Of G n S) (h : Ok G) (t : Clock) (h1 : 1 ≤ G.curMax)
    (h0 : G.curLoc = 0) (hm : McsX G ∅) :
    ∃ q, G.recGraph t 0 = .ok q ∧
      (McsX q.1 ∅ ∨ ∃ j c, j < G.nVert ∧ McsX q.1 {j} ∧ Late q.1 j c) := by
  obtain ⟨G1, t1, a1, a2, a3, a4⟩ := recVertex_spec h.ready h.loc t
  obtain ⟨o1, i1⟩ := a2.ok h h.loc
  unfold recGraph
  rw [a1, ok_bind]
  simp only
  obtain ⟨q, b1, b2⟩ := loop_rule
    (body := fun (s : Graph × Clock × Nat) => do
      let (G, t, i) := s
      if i < G.nVert then do
        let V ← G.vtx i
        if V.mcs ≤ G.curMax ∨ G.curMax ≥ G.limit then .ok (.inl (G, t, i + 1))
        else
          let (expired, t) := tick t
          if expired then .ok (.inr (G, i))
          else do
            let (G, t) ← recVertex (G, t) i
            .ok (.inl (G, t, i + 1))
      else .ok (.inr (G, i)))
    (fun s => Ok s.1 ∧ Imp G s.1 ∧
      ((McsX s.1 ∅ ∧ DoneX s.1 ∅ s.2.2) ∨
        (s.2.1 = some 0 ∧ ∃ j c, j < G.nVert ∧ McsX s.1 {j} ∧ Late s.1 j c)))
    (fun q => McsX q.1 ∅ ∨ ∃ j c, j < G.nVert ∧ McsX q.1 {j} ∧ Late q.1 j c)
    (fun s => G.nVert - s.2.2)
    (by
      rintro ⟨Z, tZ, i⟩ ⟨c1, c2, c3⟩
      have hZn : Z.nVert = G.nVert := c2.frame.nVert
      simp only at c1 c2 c3 ⊢
      have hfin : McsX Z ∅ ∨ ∃ j c, j < G.nVert ∧ McsX Z {j} ∧ Late Z j c := by
        rcases c3 with c3 | c3
        · exact Or.inl c3.1
        · exact Or.inr c3.2
      by_cases hi : i < Z.nVert
      · rw [if_pos hi, vtx_ok c1.wf hi, ok_bind]
        by_cases hc : (Z.V i).mcs ≤ Z.curMax ∨ Z.curMax ≥ Z.limit
        · rw [if_pos hc]
          refine Or.inl ⟨_, rfl, ⟨c1, c2, ?_⟩, by simp only; omega⟩
          rcases c3 with ⟨c3, c4⟩ | c3
          · refine Or.inl ⟨c3, ?_⟩
            intro v hv hvn hX T hT h2
            simp only at hv hvn hT ⊢
            by_cases hvi : v = i
            · subst hvi
              have := c3 v hi hX T hT h2
              omega
            · exact c4 v (by omega) hvn hX T hT h2
          · exact Or.inr c3
        · rw [if_neg hc]
          by_cases hex : (tick tZ).1 = true
          · rw [if_pos hex]
            exact Or.inr ⟨_, rfl, hfin⟩
          · rw [if_neg hex]
            obtain ⟨W, tW, d1, d2, d3, d4⟩ := recVertex_spec c1.ready hi (tick tZ).2
            obtain ⟨o2, i2⟩ := d2.ok c1 hi
            rw [d1, ok_bind]
            refine Or.inl ⟨_, rfl, ⟨o2, c2.trans i2, ?_⟩, by simp only; omega⟩
            simp only
            rcases c3 with ⟨c3, c4⟩ | ⟨e, _⟩
            swap
            · rw [e] at hex; exact absurd rfl hex
            rcases d4 with d4 | d4
            · refine Or.inr ⟨d4, i, Z.curMax, by omega,
                d2.mcsX hi (c3.mono (Finset.empty_subset _)) (fun h => by simp at h), ?_⟩
              refine ⟨Nat.le_trans h1 c2.mono, ?_, by rw [i2.lim]; omega, ?_⟩
              · rcases d2.upd.res with ⟨_, _, _, e1⟩ | ⟨_, _, e1, _, e2⟩
                · rw [e1]; omega
                · rcases e2 with e2 | e2 <;> omega
              · intro v hv hvn T hT h2
                rw [i2.frame.rooted] at hT
                rw [i2.frame.nVert] at hvn
                have := c4 v hv hvn (by simp) T hT h2
                omega
            · refine Or.inl ⟨d2.mcsX hi c3 (fun _ S hS _ => d4 S hS), ?_⟩
              intro v hv hvn hX T hT h2
              by_cases hvi : v = i
              · subst hvi
                exact d4 T (by rwa [i2.frame.rooted] at hT)
              · exact i2.doneX c4 v (by omega) hvn hX T hT h2
      · rw [if_neg hi]
        exact Or.inr ⟨_, rfl, hfin⟩)
    (s := (G1, t1, 0)) (fuel := G1.nVert - 0 + 1)
    ⟨o1, i1, Or.inl ⟨a2.mcsX h.loc hm (fun _ T hT h2 => by
      rw [h0] at hT
      have := rooted_zero hO h.wf hT
      omega), DoneX.zero⟩⟩
    (by have := i1.frame.nVert; simp only; omega)
  exact ⟨q, b1, b2⟩

/-- Repeating the search without a time limit makes up for the root that was given up. -/
theorem stackGraph_late (hO : Of G n S) (h : Ok G) (h1 : G.curMax = 1) (h0 : G.curLoc = 0)
    (hm : McsX G {j}) (hL : Late G j c) :
    ∃ q, G.stackGraph = .ok q ∧ McsX q.1 ∅ ∧ DoneX q.1 ∅ q.2 := by
  by_cases hjn : j < G.nVert
  swap
  · obtain ⟨G', a1, a2, a3, a4, a5⟩ := stackGraph_X h hm
    have hF := a3.frame
    exact ⟨_, a1, fun v hv _ => a4 v hv (by
        rw [hF.nVert] at hv; simp only [Finset.mem_singleton]; omega),
      fun v hi hv _ => a5 v hi hv (by
        rw [hF.nVert] at hv; simp only [Finset.mem_singleton]; omega)⟩
  obtain ⟨G1, a1, a2, a3⟩ := stackVertex_spec h.ready h.loc
  obtain ⟨o1, i1⟩ := a2.ok h h.loc
  -- the vertex 0 changes nothing
  have hsame : G1.curMax = G.curMax ∧ G1.V j = G.V j := by
    rcases a2.upd.res with ⟨_, e1, _, e2⟩ | ⟨e1, e2, e3, _⟩
    · refine ⟨e1, ?_⟩
      by_cases hj : j = G.curLoc
      · rw [hj]; exact e2
      · exact a2.upd.other j hj
    · rw [h0] at e1 e2
      have := rooted_zero hO h.wf e1
      omega
  unfold stackGraph
  rw [a1, ok_bind]
  obtain ⟨G2, b1, b2, b3, b4, b5⟩ := forRange_rule (lo := 0) (hi := G1.nVert) (s := G1)
    (body := fun i G => do
      let V ← G.vtx i
      if V.mcs ≤ G.curMax ∨ G.curMax ≥ G.limit then .ok G
      else G.stackVertex i)
    (fun i Y => Ok Y ∧ Imp G Y ∧
      (i ≤ j → McsX Y {j} ∧ DoneX Y {j} i ∧ Y.curMax ≤ c ∧ Y.V j = G.V j) ∧
      (j < i → McsX Y ∅ ∧ DoneX Y ∅ i))
    (Nat.zero_le _) ⟨o1, i1, fun _ => ⟨a2.mcsX h.loc hm (fun _ => a3), DoneX.zero, by
      rw [hsame.1, h1]; exact hL.pos, hsame.2⟩, fun h => by omega⟩
    (by
      rintro k Y _ hk ⟨c1, c2, c3, c4⟩
      have hkY : k < Y.nVert := by rw [c2.frame.nVert, ← i1.frame.nVert]; exact hk
      have hl := c2.lim
      have hl2 := hL.lim
      rw [vtx_ok c1.wf hkY, ok_bind]
      by_cases hc : (Y.V k).mcs ≤ Y.curMax ∨ Y.curMax ≥ Y.limit
      · rw [if_pos hc]
        refine ⟨_, rfl, c1, c2, fun hkj => ?_, fun hjk => ?_⟩
        · obtain ⟨e1, e2, e3, e4⟩ := c3 (by omega)
          refine ⟨e1, ?_, e3, e4⟩
          intro v hv hvn hX T hT h2
          by_cases hvk : v = k
          · subst hvk
            have := e1 v hkY hX T hT h2
            omega
          · exact e2 v (by omega) hvn hX T hT h2
        · by_cases hkj : k = j
          · exfalso
            obtain ⟨e1, e2, e3, e4⟩ := c3 (by omega)
            have := hL.mcs
            rw [hkj, e4] at hc
            omega
          · obtain ⟨e1, e2⟩ := c4 (by omega)
            refine ⟨e1, ?_⟩
            intro v hv hvn hX T hT h2
            by_cases hvk : v = k
            · subst hvk
              have := e1 v hkY hX T hT h2
              omega
            · exact e2 v (by omega) hvn hX T hT h2
      · rw [if_neg hc]
        obtain ⟨Z, d1, d2, d3⟩ := stackVertex_spec c1.ready hkY
        obtain ⟨o2, i2⟩ := d2.ok c1 hkY
        have hstep : ∀ X, DoneX Y X k → DoneX Z X (k + 1) := by
          intro X hd v hv hvn hX T hT h2
          by_cases hvk : v = k
          · subst hvk
            exact d3 T (by rwa [i2.frame.rooted] at hT) h2
          · exact i2.doneX hd v (by omega) hvn hX T hT h2
        refine ⟨Z, d1, o2, c2.trans i2, fun hkj => ?_, fun hjk => ?_⟩
        · obtain ⟨e1, e2, e3, e4⟩ := c3 (by omega)
          refine ⟨d2.mcsX hkY e1 (fun _ => d3), hstep _ e2, ?_,
            (d2.upd.other j (by omega)).trans e4⟩
          rcases d2.upd.res with ⟨_, f1, _⟩ | ⟨f1, f2, f3, _⟩
          · omega
          · rw [c2.frame.rooted] at f1
            have g1 : 1 ≤ Y.curMax := by have := c2.mono; omega
            have := hL.low k (by omega) (by rw [← c2.frame.nVert]; exact hkY) _ f1 (by omega)
            omega
        · by_cases hkj : k = j
          · subst hkj
            obtain ⟨e1, e2, e3, e4⟩ := c3 (by omega)
            have hd : DoneX Y ∅ k := fun v hv hvn _ => e2 v hv hvn (by
              simp only [Finset.mem_singleton]; omega)
            refine ⟨?_, hstep _ hd⟩
            intro v hv _ T hT h2
            by_cases hvk : v = k
            · subst hvk
              have g1 := d3 T (by rwa [i2.frame.rooted] at hT) h2
              have g2 := hL.mcs
              have g3 : Z.curMax ≤ (Z.V v).mcs := by
                rcases stackVertex_noted d1 with g | g
                · rcases d2.upd.res with ⟨_, _, _, f1⟩ | ⟨_, _, f1, _⟩
                  · rw [f1, e4]; omega
                  · omega
                · omega
              omega
            · exact d2.mcsX hkY e1 (fun _ => d3) v hv (by
                simp only [Finset.mem_singleton]; omega) T hT h2
          · obtain ⟨e1, e2⟩ := c4 (by omega)
            exact ⟨d2.mcsX hkY e1 (fun _ => d3), hstep _ e2⟩)
  rw [b1, ok_bind]
  refine ⟨_, rfl, (b5 (by rw [i1.frame.nVert]; exact hjn)).1, ?_⟩
  simp only
  have := (b5 (by rw [i1.frame.nVert]; exact hjn)).2
  rwa [b3.frame.nVert, ← i1.frame.nVert]

end Graph

end CM
