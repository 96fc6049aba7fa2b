import Verif.Lemmas.Popped

/-!
# Weighted graphs with and without the use of a destroyed element
-/

namespace CM

variable {R : Type} [Zero R] [Add R] [Sub R] [NatCast R] [LT R] [LE R] [DecidableLT R]
  [DecidableLE R]

namespace NWG

variable {H H' : NWG R}

theorem stackBodyStd_or (cur : Nat) (V : Vtx) (req : Nat) (ws : List R)
    (s : NWG R × List (WState R) × R) :
    OrUB (stackBodyStd cur V req ws s) (stackBody cur V req ws s) := by
  obtain ⟨H, states, cw⟩ := s
  cases states with
  | nil => exact OrUB.refl _
  | cons top rest =>
    unfold stackBodyStd stackBody
    dsimp only
    refine OrUB.ite (OrUB.refl _) (OrUB.same fun x => OrUB.same fun sa => OrUB.same fun r => ?_)
    cases r with
    | pushed H top new cw => exact OrUB.refl _
    | done H top j => exact OrUB.ite OrUB.drop (OrUB.refl _)

theorem stackVertexStd_or (s : NWG R × List R) (cur : Nat) :
    OrUB (stackVertexStd s cur) (stackVertex s cur) := by
  obtain ⟨H, ws⟩ := s
  unfold stackVertexStd stackVertex
  refine OrUB.same fun V => OrUB.same fun x => OrUB.same fun y => OrUB.same fun wc => ?_
  exact OrUB.ite (OrUB.refl _) (OrUB.bind (OrUB.loop (stackBodyStd_or _ _ _ _) _ _)
    fun z => OrUB.refl _)

theorem stackGraphStd_or (junk : Nat → R) (H : NWG R) :
    OrUB (H.stackGraphStd junk) (H.stackGraph junk) := by
  unfold stackGraphStd stackGraph
  refine OrUB.bind (stackVertexStd_or _ _) fun s => OrUB.bind (OrUB.forRange (fun i s => ?_) _ _ _)
    fun _ => OrUB.refl _
  exact OrUB.same fun m => OrUB.ite (OrUB.refl _) (stackVertexStd_or _ _)

theorem findMaxCliquesStd_or (srt : List (WData R) → List (WData R)) (junk : Nat → R) (H : NWG R)
    (sv : Nat) (h d : Bool) :
    OrUB (H.findMaxCliquesStd srt junk sv h d) (H.findMaxCliques srt junk sv h d) := by
  unfold findMaxCliquesStd findMaxCliques
  have key : ∀ H : NWG R, OrUB (if d = true then H.stackGraphStd junk else .ok (H, sv))
      (if d = true then H.stackGraph junk else .ok (H, sv)) :=
    fun H => OrUB.ite (stackGraphStd_or _ _) (OrUB.refl _)
  exact OrUB.ite (OrUB.same key) (OrUB.same key)

theorem enumBodyStd_or (s : NWG R × WEnum R) : OrUB (enumBodyStd s) (enumBody s) := by
  obtain ⟨H, E⟩ := s
  unfold enumBodyStd enumBody
  dsimp only
  refine OrUB.ite ?_ (OrUB.refl _)
  cases hs : E.states with
  | nil => exact OrUB.refl _
  | cons top rest =>
    refine OrUB.same fun V => OrUB.same fun x => OrUB.same fun r => ?_
    cases r with
    | found H top => exact OrUB.refl _
    | pushed H top new cw => exact OrUB.refl _
    | done H top => exact OrUB.drop

theorem enumGraphStd_or (H : NWG R) (E : WEnum R) : OrUB (H.enumGraphStd E) (H.enumGraph E) :=
  OrUB.loop enumBodyStd_or _ _

end NWG

namespace PyNW

theorem getMaxCliqueStd_or (srt : List (NWG.WData R) → List (NWG.WData R)) (junk : Nat → R)
    (pg : PyNW R) (a : Args R) :
    OrUB (pg.getMaxCliqueStd srt junk a) (pg.getMaxClique srt junk a) := by
  unfold getMaxCliqueStd getMaxClique
  dsimp only
  cases checkLoaded { pg with currentVertex := 0 } with
  | none => exact OrUB.refl _
  | some H => exact OrUB.bind (NWG.findMaxCliquesStd_or _ _ _ _ _ _) fun _ => OrUB.refl _

theorem nextCliqueStd_or (pg : PyNW R) (E : WEnum R) :
    OrUB (pg.nextCliqueStd E) (pg.nextClique E) := by
  unfold nextCliqueStd nextClique
  cases pg.G with
  | none => exact OrUB.refl _
  | some H => exact OrUB.bind (NWG.enumGraphStd_or _ _) fun _ => OrUB.refl _

theorem consumeStd_or (fuel : Nat) (pg : PyNW R) (E : WEnum R) :
    OrUB (pg.consumeStd fuel E) (pg.consume fuel E) := by
  induction fuel generalizing pg E with
  | zero => exact OrUB.refl _
  | succ n ih =>
    unfold consumeStd consume
    refine OrUB.bind (nextCliqueStd_or _ _) ?_
    rintro ⟨pg, E, c⟩
    cases c with
    | none => exact OrUB.refl _
    | some c => exact OrUB.bind (ih _ _) fun _ => OrUB.refl _

theorem listCliquesStd_or (junk : Nat → R) (pg : PyNW R) (W : R) :
    OrUB (pg.listCliquesStd junk W) (pg.listCliques junk W) := by
  unfold listCliquesStd listCliques
  refine OrUB.same fun E => ?_
  cases pg.G with
  | none => exact OrUB.refl _
  | some H => exact OrUB.bind (consumeStd_or _ _ _) fun _ => OrUB.refl _

end PyNW

/-! ## A search that pops nothing -/

namespace NWG

variable {H H' : NWG R}

/-- The search of one vertex that pops nothing leaves the record alone or reaches the limit. -/
theorem stackVertexStd_ok {ws ws' : List R} {cur : Nat}
    (h : stackVertexStd (H, ws) cur = .ok (H', ws')) :
    H'.curMax = H.curMax ∨ H'.limit ≤ H'.curMax := by
  unfold stackVertexStd at h
  dsimp only at h
  obtain ⟨V, _, h⟩ := bind_eq_ok.1 h
  obtain ⟨⟨g1, x⟩, h1, h⟩ := bind_eq_ok.1 h
  obtain ⟨⟨eb, ws1, pot⟩, _, h⟩ := bind_eq_ok.1 h
  obtain ⟨wc, _, h⟩ := bind_eq_ok.1 h
  dsimp only at h
  split at h
  · left
    obtain ⟨g, _, h⟩ := bind_eq_ok.1 h
    cases h
    rfl
  · right
    obtain ⟨⟨H2, states⟩, h2, h⟩ := bind_eq_ok.1 h
    have key : states ≠ [] ∧ H2.limit ≤ H2.curMax := by
      refine loop_inv (fun s : NWG R × List (WState R) × R => s.2.1 ≠ [])
        (fun r : NWG R × List (WState R) => r.2 ≠ [] ∧ r.1.limit ≤ r.1.curMax) ?_ ?_ ?_ h2
      · rintro ⟨Ha, sa, ca⟩ s' hP hb
        cases sa with
        | nil => exact absurd rfl hP
        | cons top rest =>
          unfold stackBodyStd at hb
          dsimp only at hb
          split at hb
          · cases hb
          · obtain ⟨_, _, hb⟩ := bind_eq_ok.1 hb
            obtain ⟨_, _, hb⟩ := bind_eq_ok.1 hb
            obtain ⟨r, _, hb⟩ := bind_eq_ok.1 hb
            cases r with
            | pushed G top new cw => cases hb; exact List.cons_ne_nil _ _
            | done G top j =>
              dsimp only at hb
              split at hb
              · obtain ⟨_, _, hb⟩ := bind_eq_ok.1 hb
                cases hb
              · cases hb; exact List.cons_ne_nil _ _
      · rintro ⟨Ha, sa, ca⟩ r hP hb
        cases sa with
        | nil => exact absurd rfl hP
        | cons top rest =>
          unfold stackBodyStd at hb
          dsimp only at hb
          split at hb
          · cases hb
            exact ⟨List.cons_ne_nil _ _, ‹_›⟩
          · obtain ⟨_, _, hb⟩ := bind_eq_ok.1 hb
            obtain ⟨_, _, hb⟩ := bind_eq_ok.1 hb
            obtain ⟨r, _, hb⟩ := bind_eq_ok.1 hb
            cases r with
            | pushed G top new cw => cases hb
            | done G top j =>
              dsimp only at hb
              split at hb
              · obtain ⟨_, _, hb⟩ := bind_eq_ok.1 hb
                cases hb
              · cases hb
      · exact List.cons_ne_nil _ _
    dsimp only at h
    split at h
    · simp only [ok_bind] at h
      obtain ⟨_, _, h⟩ := bind_eq_ok.1 h
      cases h
      exact key.2
    · obtain ⟨_, _, h⟩ := bind_eq_ok.1 h
      obtain ⟨_, _, h⟩ := bind_eq_ok.1 h
      cases h
      exact key.2

theorem stackGraphStd_ok {junk : Nat → R} {i : Nat} (h : H.stackGraphStd junk = .ok (H', i)) :
    H'.curMax = H.curMax ∨ H'.limit ≤ H'.curMax := by
  unfold stackGraphStd at h
  obtain ⟨⟨H1, ws1⟩, h1, h⟩ := bind_eq_ok.1 h
  obtain ⟨⟨H2, ws2⟩, h2, h⟩ := bind_eq_ok.1 h
  cases h
  refine forRange_inv
    (fun (_ : Nat) (X : NWG R × List R) => X.1.curMax = H.curMax ∨ X.1.limit ≤ X.1.curMax)
    (Nat.zero_le _) (stackVertexStd_ok h1) ?_ h2
  rintro k ⟨X, wx⟩ ⟨Y, wy⟩ _ _ hX hb
  obtain ⟨V, _, hb⟩ := bind_eq_ok.1 hb
  split at hb
  · cases hb; exact hX
  · rename_i hc
    rcases hX with hX | hX
    · dsimp only at hX ⊢
      rw [← hX]; exact stackVertexStd_ok hb
    · exact absurd (Or.inr hX) hc

/-! ## An iterator that pops nothing -/

omit [Sub R] [NatCast R] in
theorem enumLoad_nVert {E : WEnum R} {r : NWG R × WEnum R × Bool} (h : H.enumLoad E = .ok r) :
    r.1.g.nVert = H.g.nVert := by
  unfold enumLoad at h
  obtain ⟨V, _, h⟩ := bind_eq_ok.1 h
  obtain ⟨x, h1, h⟩ := bind_eq_ok.1 h
  obtain ⟨y, _, h⟩ := bind_eq_ok.1 h
  obtain ⟨w, _, h⟩ := bind_eq_ok.1 h
  have e1 := Graph.rootState_nVert h1
  simp only at h
  split at h
  · obtain ⟨z, h2, h⟩ := bind_eq_ok.1 h
    have e2 := Graph.clearMemory_nVert h2
    cases h
    exact e2.trans e1
  · cases h
    exact e1

theorem enumVertex_nVert {E : WEnum R} {r : NWG R × WEnum R} (h : H.enumVertex E = .ok r) :
    r.1.g.nVert = H.g.nVert := by
  unfold enumVertex at h
  refine loop_inv (fun s : NWG R × WEnum R => s.1.g.nVert = H.g.nVert)
    (fun r : NWG R × WEnum R => r.1.g.nVert = H.g.nVert) ?_ ?_ rfl h
  · rintro ⟨Ga, Ea⟩ s' hP hb
    simp only at hb hP
    split at hb
    · obtain ⟨V, _, hb⟩ := bind_eq_ok.1 hb
      split at hb
      · cases hb; exact hP
      · obtain ⟨⟨Gb, Eb, b⟩, h1, hb⟩ := bind_eq_ok.1 hb
        have e := enumLoad_nVert h1
        simp only at hb e
        split at hb
        · cases hb
        · cases hb; exact e.trans hP
    · cases hb
  · rintro ⟨Ga, Ea⟩ s' hP hb
    simp only at hb hP
    split at hb
    · obtain ⟨V, _, hb⟩ := bind_eq_ok.1 hb
      split at hb
      · cases hb
      · obtain ⟨⟨Gb, Eb, b⟩, h1, hb⟩ := bind_eq_ok.1 hb
        have e := enumLoad_nVert h1
        simp only at hb e
        split at hb
        · cases hb; exact e.trans hP
        · cases hb
    · cases hb; exact hP

/-- The graph in the exit of the inner loop. -/
def EnumExit.left : EnumExit R → NWG R
  | .found H _ => H
  | .pushed H _ _ _ => H
  | .done H _ => H

omit [Zero R] [NatCast R] [LT R] [DecidableLT R] in
theorem enumFor_nVert {V : Vtx} {req : Nat} {ws : List R} {cw required : R}
    {s : NWG R × WState R × Nat} {r : (NWG R × WState R × Nat) ⊕ EnumExit R}
    (h : enumFor V req ws cw required s = .ok r) :
    (∀ s', r = .inl s' → s'.1.g.nVert = s.1.g.nVert) ∧
      ∀ x, r = .inr x → x.left.g.nVert = s.1.g.nVert := by
  obtain ⟨H, top, j⟩ := s
  unfold enumFor at h
  simp only at h
  split at h
  · obtain ⟨b, _, h⟩ := bind_eq_ok.1 h
    split at h
    · obtain ⟨eb, _, h⟩ := bind_eq_ok.1 h
      obtain ⟨c, _, h⟩ := bind_eq_ok.1 h
      obtain ⟨w, _, h⟩ := bind_eq_ok.1 h
      obtain ⟨v, _, h⟩ := bind_eq_ok.1 h
      obtain ⟨U, _, h⟩ := bind_eq_ok.1 h
      obtain ⟨rm, _, h⟩ := bind_eq_ok.1 h
      split at h
      · split at h
        · obtain ⟨_, _, h⟩ := bind_eq_ok.1 h
          obtain ⟨_, _, h⟩ := bind_eq_ok.1 h
          obtain ⟨_, _, h⟩ := bind_eq_ok.1 h
          obtain ⟨_, _, h⟩ := bind_eq_ok.1 h
          cases h
          exact ⟨fun s' e => (by cases e), fun x e => by cases e; rfl⟩
        · simp only [Graph.loadMemory] at h
          obtain ⟨_, _, h⟩ := bind_eq_ok.1 h
          obtain ⟨_, _, h⟩ := bind_eq_ok.1 h
          obtain ⟨_, _, h⟩ := bind_eq_ok.1 h
          cases h
          exact ⟨fun s' e => (by cases e), fun x e => by cases e; rfl⟩
      · cases h
        exact ⟨fun s' e => (by cases e; rfl), fun x e => by cases e⟩
    · cases h
      exact ⟨fun s' e => (by cases e; rfl), fun x e => by cases e⟩
  · cases h
    exact ⟨fun s' e => (by cases e), fun x e => by cases e; rfl⟩

theorem enumBodyStd_keeps {s : NWG R × WEnum R} {r : (NWG R × WEnum R) ⊕ (NWG R × WEnum R × Nat)}
    (h : enumBodyStd s = .ok r) :
    (∀ s', r = .inl s' → s'.1.g.nVert = s.1.g.nVert ∧
      (s.2.states ≠ [] → s.2.cur < s.1.g.nVert → s'.2.states ≠ [] ∧ s'.2.cur = s.2.cur)) ∧
      ∀ x, r = .inr x → x.1.g.nVert = s.1.g.nVert ∧ x.2.2 = x.2.1.cur ∧ x.2.1.cur = s.2.cur ∧
        (x.2.1.cur < s.1.g.nVert → x.2.1.states ≠ []) := by
  obtain ⟨H, E⟩ := s
  unfold enumBodyStd at h
  simp only at h
  split at h
  · rename_i hc
    split at h
    · rename_i hst
      obtain ⟨G1, h1, h⟩ := bind_eq_ok.1 h
      obtain ⟨⟨G2, E2⟩, h2, h⟩ := bind_eq_ok.1 h
      have e1 := Graph.clearMemory_nVert h1
      have e2 := enumVertex_nVert h2
      cases h
      exact ⟨fun s' e => (by cases e; exact ⟨e2.trans e1, fun hne => absurd hst hne⟩),
        fun x e => by cases e⟩
    · obtain ⟨V, _, h⟩ := bind_eq_ok.1 h
      obtain ⟨⟨eb, left⟩, _, h⟩ := bind_eq_ok.1 h
      obtain ⟨x, h1, h⟩ := bind_eq_ok.1 h
      have e1 : x.left.g.nVert = H.g.nVert :=
        loop_inv (fun s : NWG R × WState R × Nat => s.1.g.nVert = H.g.nVert)
          (fun x : EnumExit R => x.left.g.nVert = H.g.nVert)
          (fun s s' hs hb => ((enumFor_nVert hb).1 s' rfl).trans hs)
          (fun s r hs hb => ((enumFor_nVert hb).2 r rfl).trans hs) rfl h1
      cases x with
      | found G1 top =>
        cases h
        exact ⟨fun s' e => (by cases e), fun x e => by cases e; exact ⟨e1, rfl, rfl, by simp⟩⟩
      | pushed G1 top new cw =>
        cases h
        exact ⟨fun s' e => (by cases e; exact ⟨e1, fun _ _ => ⟨by simp, rfl⟩⟩), fun x e => by cases e⟩
      | done G1 top =>
        simp only at h
        obtain ⟨G2, h2, h⟩ := bind_eq_ok.1 h
        cases h
  · rename_i hc
    cases h
    exact ⟨fun s' e => (by cases e), fun x e => by
      cases e; exact ⟨rfl, rfl, rfl, fun h => absurd h hc⟩⟩

theorem enumGraphStd_keeps {E : WEnum R} {r : NWG R × WEnum R × Nat}
    (h : H.enumGraphStd E = .ok r) :
    r.1.g.nVert = H.g.nVert ∧ r.2.2 = r.2.1.cur ∧ (r.2.1.cur < H.g.nVert → r.2.1.states ≠ []) ∧
      (E.states ≠ [] → E.cur < H.g.nVert → r.2.2 = E.cur) := by
  unfold enumGraphStd at h
  refine loop_inv
    (fun s : NWG R × WEnum R => s.1.g.nVert = H.g.nVert ∧
      (E.states ≠ [] → E.cur < H.g.nVert → s.2.states ≠ [] ∧ s.2.cur = E.cur))
    (fun r : NWG R × WEnum R × Nat => r.1.g.nVert = H.g.nVert ∧ r.2.2 = r.2.1.cur ∧
      (r.2.1.cur < H.g.nVert → r.2.1.states ≠ []) ∧
      (E.states ≠ [] → E.cur < H.g.nVert → r.2.2 = E.cur)) ?_ ?_ ⟨rfl, fun h _ => ⟨h, rfl⟩⟩ h
  · intro s s' hs hb
    obtain ⟨a, b⟩ := (enumBodyStd_keeps hb).1 s' rfl
    refine ⟨a.trans hs.1, fun h1 h2 => ?_⟩
    obtain ⟨c, d⟩ := hs.2 h1 h2
    obtain ⟨e, f⟩ := b c (by rw [d, hs.1]; exact h2)
    exact ⟨e, f.trans d⟩
  · intro s x hs hb
    obtain ⟨a, b, c, d⟩ := (enumBodyStd_keeps hb).2 x rfl
    refine ⟨a.trans hs.1, b, fun h => d (by rw [hs.1]; exact h), fun h1 h2 => ?_⟩
    rw [b, c, (hs.2 h1 h2).2]

end NWG

/-- The graph of the object has the vertices that the object says it has. -/
def PyNW.Whole (pg : PyNW R) : Prop := ∃ H, pg.G = some H ∧ H.g.nVert = pg.nvert + 1

theorem nextCliqueStd_keeps {pg : PyNW R} {E : WEnum R} {r : PyNW R × WEnum R × Option (List Nat)}
    (hw : pg.Whole) (h : pg.nextCliqueStd E = .ok r) :
    r.1.Whole ∧ r.1.nvert = pg.nvert ∧
      (∀ c, r.2.2 = some c → r.2.1.states ≠ [] ∧ r.2.1.cur ≤ pg.nvert) ∧
      (E.states ≠ [] → E.cur ≤ pg.nvert → r.2.2 ≠ none) := by
  obtain ⟨H, hH, hn⟩ := hw
  unfold PyNW.nextCliqueStd at h
  rw [hH] at h
  simp only at h
  obtain ⟨⟨H1, E1, v⟩, h1, h⟩ := bind_eq_ok.1 h
  obtain ⟨e1, e2, e3, e4⟩ := NWG.enumGraphStd_keeps h1
  simp only at h e1 e2 e3 e4
  split at h
  · rename_i hv
    cases h
    exact ⟨⟨H1, rfl, e1.trans hn⟩, rfl, fun c hc => (by cases hc), fun a b => by
      have := e4 a (by omega); omega⟩
  · rename_i hv
    obtain ⟨⟨H2, ans⟩, h2, h⟩ := bind_eq_ok.1 h
    have e5 : H2.g.nVert = H1.g.nVert := by
      unfold NWG.getClique at h2
      obtain ⟨x, h3, h2⟩ := bind_eq_ok.1 h2
      have := Graph.getClique_nVert h3
      cases h2
      exact this
    cases h
    refine ⟨⟨H2, rfl, e5.trans (e1.trans hn)⟩, rfl, fun c _ => ⟨e3 (by omega), by simp only; omega⟩,
      fun _ _ => by simp⟩

theorem wconsumeStd_stuck (fuel : Nat) {pg : PyNW R} {E : WEnum R}
    {r : PyNW R × WEnum R × List (List Nat)} (hw : pg.Whole) (hs : E.states ≠ [])
    (hc : E.cur ≤ pg.nvert) : pg.consumeStd fuel E ≠ .ok r := by
  induction fuel generalizing pg E r with
  | zero => intro h; cases h
  | succ n ih =>
    intro h
    unfold PyNW.consumeStd at h
    obtain ⟨⟨pg1, E1, c⟩, h1, h⟩ := bind_eq_ok.1 h
    obtain ⟨a1, a2, a3, a4⟩ := nextCliqueStd_keeps hw h1
    cases c with
    | none => exact a4 hs hc rfl
    | some c =>
      obtain ⟨y, hy, _⟩ := bind_eq_ok.1 h
      obtain ⟨a5, a6⟩ := a3 c rfl
      exact ih a1 a5 (a2.symm ▸ a6) hy

/-- An iteration that yields a clique cannot be completed. -/
theorem wlistCliquesStd_stuck {pg pg' : PyNW R} {junk : Nat → R} {W : R} {cs : List (List Nat)}
    (hw : pg.Whole) (h : pg.listCliques junk W = .ok (pg', cs)) (hc : cs ≠ []) :
    pg.listCliquesStd junk W = .error .ub := by
  rcases PyNW.listCliquesStd_or junk pg W with h1 | h1
  · exfalso
    rw [h] at h1
    unfold PyNW.listCliquesStd at h1
    obtain ⟨E, hE, h1⟩ := bind_eq_ok.1 h1
    obtain ⟨H, hH, hn⟩ := id hw
    rw [hH] at h1
    obtain ⟨⟨pg2, E2, cs2⟩, h2, h1⟩ := bind_eq_ok.1 h1
    cases h1
    unfold PyNW.consumeStd at h2
    obtain ⟨⟨pg3, E3, c⟩, h3, h2⟩ := bind_eq_ok.1 h2
    cases c with
    | none => cases h2; exact hc rfl
    | some c =>
      obtain ⟨a1, a2, a3, a4⟩ := nextCliqueStd_keeps hw h3
      obtain ⟨y, hy, _⟩ := bind_eq_ok.1 h2
      obtain ⟨a5, a6⟩ := a3 c rfl
      exact wconsumeStd_stuck _ a1 a5 (a2.symm ▸ a6) hy
  · exact h1

end CM
