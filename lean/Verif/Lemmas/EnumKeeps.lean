import Verif.Model.Rebuild
import Verif.Lemmas.Basic

/-! # What an iterator leaves alone, whatever the state of the object -/

namespace CM

namespace Graph

theorem clearMemory_nVert {G G' : Graph} {n : Nat} (h : G.clearMemory n = .ok G') :
    G'.nVert = G.nVert := by
  unfold clearMemory at h
  obtain ⟨_, _, h⟩ := bind_eq_ok.1 h
  cases h
  rfl

theorem rootState_nVert {G : Graph} {V : Vtx} {req : Nat} {r : Graph × SState}
    (h : G.rootState V req = .ok r) : r.1.nVert = G.nVert := by
  unfold rootState at h
  simp only [loadMemory] at h
  obtain ⟨_, _, h⟩ := bind_eq_ok.1 h
  cases h
  rfl

theorem enumLoad_nVert {G : Graph} {E : Enum} {r : Graph × Enum × Bool}
    (h : G.enumLoad E = .ok r) : r.1.nVert = G.nVert ∧ r.2.1.required = E.required := by
  unfold enumLoad at h
  obtain ⟨V, _, h⟩ := bind_eq_ok.1 h
  obtain ⟨x, h1, h⟩ := bind_eq_ok.1 h
  obtain ⟨y, _, h⟩ := bind_eq_ok.1 h
  have e1 := rootState_nVert h1
  simp only at h
  split at h
  · obtain ⟨z, h2, h⟩ := bind_eq_ok.1 h
    have e2 := clearMemory_nVert h2
    cases h
    exact ⟨e2.trans e1, rfl⟩
  · cases h
    exact ⟨e1, rfl⟩

theorem enumVertex_nVert {G : Graph} {E : Enum} {r : Graph × Enum}
    (h : G.enumVertex E = .ok r) : r.1.nVert = G.nVert ∧ r.2.required = E.required := by
  unfold enumVertex at h
  refine loop_inv (fun s : Graph × Enum => s.1.nVert = G.nVert ∧ s.2.required = E.required)
    (fun r : Graph × Enum => r.1.nVert = G.nVert ∧ r.2.required = E.required) ?_ ?_ ⟨rfl, rfl⟩ h
  · rintro ⟨Ga, Ea⟩ s' hP hb
    simp only at hb hP
    split at hb
    · obtain ⟨V, _, hb⟩ := bind_eq_ok.1 hb
      split at hb
      · cases hb; exact hP
      · obtain ⟨⟨Gb, Eb, b⟩, h1, hb⟩ := bind_eq_ok.1 hb
        have e := enumLoad_nVert h1
        simp only at hb e
        split at hb
        · cases hb
        · cases hb; exact ⟨e.1.trans hP.1, e.2.trans hP.2⟩
    · cases hb
  · rintro ⟨Ga, Ea⟩ s' hP hb
    simp only at hb hP
    split at hb
    · obtain ⟨V, _, hb⟩ := bind_eq_ok.1 hb
      split at hb
      · cases hb
      · obtain ⟨⟨Gb, Eb, b⟩, h1, hb⟩ := bind_eq_ok.1 hb
        have e := enumLoad_nVert h1
        simp only at hb e
        split at hb
        · cases hb; exact ⟨e.1.trans hP.1, e.2.trans hP.2⟩
        · cases hb
    · cases hb; exact hP

/-- The graph in the exit of the inner loop. -/
def EnumExit.graph : EnumExit → Graph
  | .found G _ => G
  | .pushed G _ _ => G
  | .done G _ => G

theorem enumFor_nVert {V : Vtx} {req cs required : Nat} {s : Graph × SState × Nat × Nat}
    {r : (Graph × SState × Nat × Nat) ⊕ EnumExit} (h : enumFor V req cs required s = .ok r) :
    (∀ s', r = .inl s' → s'.1.nVert = s.1.nVert) ∧
      ∀ x, r = .inr x → x.graph.nVert = s.1.nVert := by
  obtain ⟨G, top, left, j⟩ := s
  unfold enumFor at h
  simp only at h
  split at h
  · obtain ⟨b, _, h⟩ := bind_eq_ok.1 h
    split at h
    · obtain ⟨eb, _, h⟩ := bind_eq_ok.1 h
      obtain ⟨v, _, h⟩ := bind_eq_ok.1 h
      obtain ⟨U, _, h⟩ := bind_eq_ok.1 h
      obtain ⟨rm, _, h⟩ := bind_eq_ok.1 h
      split at h
      · split at h
        · obtain ⟨_, _, h⟩ := bind_eq_ok.1 h
          obtain ⟨_, _, h⟩ := bind_eq_ok.1 h
          obtain ⟨_, _, h⟩ := bind_eq_ok.1 h
          obtain ⟨_, _, h⟩ := bind_eq_ok.1 h
          cases h
          exact ⟨fun s' e => (by cases e), fun x e => by cases e; rfl⟩
        · simp only [loadMemory] at h
          obtain ⟨_, _, h⟩ := bind_eq_ok.1 h
          obtain ⟨_, _, h⟩ := bind_eq_ok.1 h
          obtain ⟨_, _, h⟩ := bind_eq_ok.1 h
          cases h
          exact ⟨fun s' e => (by cases e), fun x e => by cases e; rfl⟩
      · cases h
        exact ⟨fun s' e => (by cases e; rfl), fun x e => by cases e⟩
    · cases h
      exact ⟨fun s' e => (by cases e; rfl), fun x e => by cases e⟩
  · cases h
    exact ⟨fun s' e => (by cases e), fun x e => by cases e; rfl⟩

theorem enumBody_keeps {s : Graph × Enum} {r : (Graph × Enum) ⊕ (Graph × Enum × Nat)}
    (h : enumBody s = .ok r) :
    (∀ s', r = .inl s' → s'.1.nVert = s.1.nVert ∧ s'.2.required = s.2.required) ∧
      ∀ x, r = .inr x → x.1.nVert = s.1.nVert ∧ x.2.1.required = s.2.required ∧
        x.2.2 = x.2.1.cur ∧ (x.2.1.cur < s.1.nVert → x.2.1.states ≠ []) := by
  obtain ⟨G, E⟩ := s
  unfold enumBody at h
  simp only at h
  split at h
  · rename_i hc
    split at h
    · obtain ⟨G1, h1, h⟩ := bind_eq_ok.1 h
      obtain ⟨⟨G2, E2⟩, h2, h⟩ := bind_eq_ok.1 h
      have e1 := clearMemory_nVert h1
      have e2 := enumVertex_nVert h2
      cases h
      exact ⟨fun s' e => (by cases e; exact ⟨e2.1.trans e1, e2.2⟩), fun x e => by cases e⟩
    · obtain ⟨V, _, h⟩ := bind_eq_ok.1 h
      obtain ⟨⟨eb, left⟩, _, h⟩ := bind_eq_ok.1 h
      obtain ⟨x, h1, h⟩ := bind_eq_ok.1 h
      have e1 : x.graph.nVert = G.nVert :=
        loop_inv (fun s : Graph × SState × Nat × Nat => s.1.nVert = G.nVert)
          (fun x : EnumExit => x.graph.nVert = G.nVert)
          (fun s s' hs hb => ((enumFor_nVert hb).1 s' rfl).trans hs)
          (fun s r hs hb => ((enumFor_nVert hb).2 r rfl).trans hs) rfl h1
      cases x with
      | found G1 top =>
        cases h
        exact ⟨fun s' e => (by cases e), fun x e => by cases e; exact ⟨e1, rfl, rfl, by simp⟩⟩
      | pushed G1 top new =>
        cases h
        exact ⟨fun s' e => (by cases e; exact ⟨e1, rfl⟩), fun x e => by cases e⟩
      | done G1 top =>
        simp only at h
        obtain ⟨G2, h2, h⟩ := bind_eq_ok.1 h
        obtain ⟨_, _, h⟩ := bind_eq_ok.1 h
        have e2 := clearMemory_nVert h2
        cases h
        exact ⟨fun s' e => (by cases e; exact ⟨e2.trans e1, rfl⟩), fun x e => by cases e⟩
  · rename_i hc
    cases h
    exact ⟨fun s' e => (by cases e), fun x e => by
      cases e; exact ⟨rfl, rfl, rfl, fun h => absurd h hc⟩⟩

theorem enumGraph_keeps {G : Graph} {E : Enum} {r : Graph × Enum × Nat}
    (h : G.enumGraph E = .ok r) :
    r.1.nVert = G.nVert ∧ r.2.1.required = E.required ∧
      (2 ≤ E.required → r.2.2 = r.2.1.cur ∧ (r.2.1.cur < G.nVert → r.2.1.states ≠ [])) := by
  unfold enumGraph at h
  split at h
  · rename_i h0
    cases h
    exact ⟨rfl, rfl, fun h2 => by omega⟩
  · split at h
    · rename_i h1
      obtain ⟨_, _, h⟩ := bind_eq_ok.1 h
      obtain ⟨_, _, h⟩ := bind_eq_ok.1 h
      obtain ⟨_, _, h⟩ := bind_eq_ok.1 h
      obtain ⟨_, _, h⟩ := bind_eq_ok.1 h
      cases h
      exact ⟨rfl, rfl, fun h2 => by omega⟩
    · have := loop_inv (fun s : Graph × Enum => s.1.nVert = G.nVert ∧ s.2.required = E.required)
        (fun x : Graph × Enum × Nat => x.1.nVert = G.nVert ∧ x.2.1.required = E.required ∧
          x.2.2 = x.2.1.cur ∧ (x.2.1.cur < G.nVert → x.2.1.states ≠ []))
        (fun s s' hs hb => by
          obtain ⟨a, b⟩ := (enumBody_keeps hb).1 s' rfl
          exact ⟨a.trans hs.1, b.trans hs.2⟩)
        (fun s r hs hb => by
          obtain ⟨a, b, c, d⟩ := (enumBody_keeps hb).2 r rfl
          exact ⟨a.trans hs.1, b.trans hs.2, c, fun h => d (by rw [hs.1]; exact h)⟩)
        ⟨rfl, rfl⟩ h
      exact ⟨this.1, this.2.1, fun _ => this.2.2⟩

theorem getClique_nVert {G : Graph} {v : Nat} {r : Graph × List Nat} (h : G.getClique v = .ok r) :
    r.1.nVert = G.nVert := by
  unfold getClique at h
  obtain ⟨_, _, h⟩ := bind_eq_ok.1 h
  obtain ⟨_, _, h⟩ := bind_eq_ok.1 h
  obtain ⟨_, _, h⟩ := bind_eq_ok.1 h
  cases h
  rfl

end Graph

/-- The graph of the object has the vertices that the object says it has. -/
def PyGraph.Whole (pg : PyGraph) : Prop := ∃ G, pg.G = some G ∧ G.nVert = pg.nvert + 1

theorem nextClique_keeps {pg : PyGraph} {E : Enum} {r : PyGraph × Enum × Option (List Nat)}
    (hw : pg.Whole) (h : pg.nextClique E = .ok r) :
    r.1.Whole ∧ r.1.nvert = pg.nvert ∧ r.2.1.required = E.required ∧
      (2 ≤ E.required → ∀ c, r.2.2 = some c → r.2.1.states ≠ [] ∧ r.2.1.cur ≤ pg.nvert) := by
  obtain ⟨G, hG, hn⟩ := hw
  unfold PyGraph.nextClique at h
  rw [hG] at h
  simp only at h
  obtain ⟨⟨G1, E1, v⟩, h1, h⟩ := bind_eq_ok.1 h
  obtain ⟨e1, e2, e3⟩ := Graph.enumGraph_keeps h1
  simp only at h e1 e2 e3
  split at h
  · cases h
    exact ⟨⟨G1, rfl, e1.trans hn⟩, rfl, e2, fun _ c hc => by cases hc⟩
  · rename_i hv
    obtain ⟨⟨G2, ans⟩, h2, h⟩ := bind_eq_ok.1 h
    have e4 := Graph.getClique_nVert h2
    cases h
    refine ⟨⟨G2, rfl, e4.trans (e1.trans hn)⟩, rfl, e2, fun hk c _ => ?_⟩
    obtain ⟨a, b⟩ := e3 hk
    exact ⟨b (by omega), by simp only; omega⟩

theorem nexts_keeps : ∀ {j : Nat} {pg : PyGraph} {E : Enum}
    {r : PyGraph × Enum × List (Option (List Nat))}, pg.Whole → pg.nexts j E = .ok r →
    r.1.Whole ∧ r.1.nvert = pg.nvert ∧ r.2.1.required = E.required ∧
      (2 ≤ E.required → ∀ c, r.2.2.getLast? = some (some c) →
        r.2.1.states ≠ [] ∧ r.2.1.cur ≤ pg.nvert) := by
  intro j
  induction j with
  | zero =>
    intro pg E r hw h
    cases h
    exact ⟨hw, rfl, rfl, fun _ c hc => by cases hc⟩
  | succ j ih =>
    intro pg E r hw h
    unfold PyGraph.nexts at h
    obtain ⟨⟨pg1, E1, c1⟩, h1, h⟩ := bind_eq_ok.1 h
    obtain ⟨⟨pg2, E2, cs⟩, h2, h⟩ := bind_eq_ok.1 h
    obtain ⟨a1, a2, a3, a4⟩ := nextClique_keeps hw h1
    obtain ⟨b1, b2, b3, b4⟩ := ih a1 h2
    simp only at a2 a3 a4 b2 b3 b4
    cases h
    refine ⟨b1, b2.trans a2, b3.trans a3, fun hk c hc => ?_⟩
    cases cs with
    | nil =>
      cases j with
      | zero =>
        cases h2
        simp only [List.getLast?_singleton, Option.some.injEq] at hc
        exact a4 hk c hc
      | succ j =>
        exfalso
        unfold PyGraph.nexts at h2
        obtain ⟨_, _, h2⟩ := bind_eq_ok.1 h2
        obtain ⟨_, _, h2⟩ := bind_eq_ok.1 h2
        cases h2
    | cons y ys =>
      rw [List.getLast?_cons_cons] at hc
      have := b4 (by rw [a3]; exact hk) c hc
      rw [← a2]
      exact this

end CM
