import Verif.Model.Popped
import Verif.Lemmas.EnumKeeps
import Verif.Lemmas.Checked
import Verif.Lemmas.History
import Verif.Lemmas.RoomExact

/-!
# The searches with and without the use of a destroyed element
-/

namespace CM

open Spec

variable {α β σ ρ : Type}

/-- `x` is `y`, or undefined. -/
def OrUB (x y : M α) : Prop := x = y ∨ x = .error .ub

namespace OrUB

theorem refl (x : M α) : OrUB x x := Or.inl rfl

theorem bind {x y : M α} {f g : α → M β} (h : OrUB x y) (hf : ∀ a, OrUB (f a) (g a)) :
    OrUB (x >>= f) (y >>= g) := by
  rcases h with h | h
  · subst h
    cases x with
    | ok a => exact hf a
    | error e => exact Or.inl rfl
  · subst h
    exact Or.inr rfl

theorem same {x : M α} {f g : α → M β} (hf : ∀ a, OrUB (f a) (g a)) :
    OrUB (x >>= f) (x >>= g) := bind (refl x) hf

theorem ite {p : Prop} [Decidable p] {x x' y y' : M α} (h1 : OrUB x y) (h2 : OrUB x' y') :
    OrUB (if p then x else x') (if p then y else y') := by
  split
  · exact h1
  · exact h2

theorem drop {x : M α} {f : α → M β} : OrUB (x >>= fun _ => .error .ub) (x >>= f) := by
  cases x with
  | ok a => exact Or.inr rfl
  | error e => exact Or.inl rfl

theorem loop {f g : σ → M (σ ⊕ ρ)} (h : ∀ s, OrUB (f s) (g s)) (n : Nat) (s : σ) :
    OrUB (CM.loop n f s) (CM.loop n g s) := by
  induction n generalizing s with
  | zero => exact refl _
  | succ n ih =>
    unfold CM.loop
    rcases h s with h | h
    · rw [h]
      split
      · exact refl _
      · exact ih _
      · exact refl _
    · rw [h]
      exact Or.inr rfl

theorem forRange {f g : Nat → σ → M σ} (h : ∀ i s, OrUB (f i s) (g i s)) (lo hi : Nat) (s : σ) :
    OrUB (CM.forRange lo hi f s) (CM.forRange lo hi g s) := by
  unfold CM.forRange
  generalize hi - lo = n
  induction n generalizing lo s with
  | zero => exact refl _
  | succ n ih =>
    unfold CM.forN
    rcases h lo s with h | h
    · rw [h]
      split
      · exact ih _ _
      · exact refl _
    · rw [h]
      exact Or.inr rfl

theorem ok {x y : M α} {a : α} (h : OrUB x y) (hx : x = .ok a) : y = .ok a := by
  rcases h with h | h
  · rw [← h, hx]
  · rw [h] at hx; cases hx

end OrUB

namespace Graph

variable {G G' : Graph}

theorem stackBodyStd_or (cur : Nat) (V : Vtx) (req : Nat) (s : Graph × List SState × Nat) :
    OrUB (stackBodyStd cur V req s) (stackBody cur V req s) := by
  obtain ⟨G, states, cs⟩ := s
  cases states with
  | nil => exact OrUB.refl _
  | cons top rest =>
    unfold stackBodyStd stackBody
    dsimp only
    refine OrUB.ite (OrUB.refl _) (OrUB.same fun x => OrUB.same fun sa => OrUB.same fun r => ?_)
    cases r with
    | pushed G top new => exact OrUB.refl _
    | done G top j => exact OrUB.ite OrUB.drop (OrUB.refl _)

theorem stackVertexStd_or (G : Graph) (cur : Nat) :
    OrUB (G.stackVertexStd cur) (G.stackVertex cur) := by
  unfold stackVertexStd stackVertex
  refine OrUB.same fun V => OrUB.same fun x => OrUB.same fun y => ?_
  exact OrUB.ite (OrUB.refl _) (OrUB.bind (OrUB.loop (stackBodyStd_or _ _ _) _ _)
    fun z => OrUB.refl _)

theorem stackGraphStd_or (G : Graph) : OrUB G.stackGraphStd G.stackGraph := by
  unfold stackGraphStd stackGraph
  refine OrUB.bind (stackVertexStd_or _ _) fun G => OrUB.bind (OrUB.forRange (fun i G => ?_) _ _ _)
    fun _ => OrUB.refl _
  exact OrUB.same fun V => OrUB.ite (OrUB.refl _) (stackVertexStd_or _ _)

theorem findMaxCliquesStd_or (srt : List VData → List VData) (G : Graph) (sv : Nat) (h d : Bool)
    (tl : TimeLimit) : OrUB (G.findMaxCliquesStd srt sv h d tl) (G.findMaxCliques srt sv h d tl) := by
  unfold findMaxCliquesStd findMaxCliques
  have key : ∀ G : Graph, OrUB
      (if d = true then match tl with
        | none => G.stackGraphStd
        | some t => G.recGraph t sv
      else .ok (G, sv))
      (if d = true then match tl with
        | none => G.stackGraph
        | some t => G.recGraph t sv
      else .ok (G, sv)) := fun G => by
    refine OrUB.ite ?_ (OrUB.refl _)
    cases tl with
    | none => exact stackGraphStd_or _
    | some t => exact OrUB.refl _
  exact OrUB.ite (OrUB.same key) (OrUB.same key)

theorem enumBodyStd_or (s : Graph × Enum) : OrUB (enumBodyStd s) (enumBody s) := by
  obtain ⟨G, E⟩ := s
  unfold enumBodyStd enumBody
  dsimp only
  refine OrUB.ite ?_ (OrUB.refl _)
  cases hs : E.states with
  | nil => exact OrUB.refl _
  | cons top rest =>
    refine OrUB.same fun V => OrUB.same fun x => OrUB.same fun r => ?_
    cases r with
    | found G top => exact OrUB.refl _
    | pushed G top new => exact OrUB.refl _
    | done G top => exact OrUB.drop

theorem enumGraphStd_or (G : Graph) (E : Enum) : OrUB (G.enumGraphStd E) (G.enumGraph E) := by
  unfold enumGraphStd enumGraph
  exact OrUB.ite (OrUB.refl _) (OrUB.ite (OrUB.refl _) (OrUB.loop enumBodyStd_or _ _))

end Graph

namespace PyGraph

theorem getMaxCliqueStd_or (srt : List Graph.VData → List Graph.VData) (pg : PyGraph) (a : Args) :
    OrUB (pg.getMaxCliqueStd srt a) (pg.getMaxClique srt a) := by
  unfold getMaxCliqueStd getMaxClique
  dsimp only
  cases checkLoaded { pg with
      currentVertex := if a.continueSearch = true then pg.currentVertex else 0 } with
  | none => exact OrUB.refl _
  | some G => exact OrUB.bind (Graph.findMaxCliquesStd_or _ _ _ _ _ _) fun _ => OrUB.refl _

theorem nextCliqueStd_or (pg : PyGraph) (E : Enum) :
    OrUB (pg.nextCliqueStd E) (pg.nextClique E) := by
  unfold nextCliqueStd nextClique
  cases pg.G with
  | none => exact OrUB.refl _
  | some G => exact OrUB.bind (Graph.enumGraphStd_or _ _) fun _ => OrUB.refl _

theorem consumeStd_or (fuel : Nat) (pg : PyGraph) (E : Enum) :
    OrUB (pg.consumeStd fuel E) (pg.consume fuel E) := by
  induction fuel generalizing pg E with
  | zero => exact OrUB.refl _
  | succ n ih =>
    unfold consumeStd consume
    refine OrUB.bind (nextCliqueStd_or _ _) ?_
    rintro ⟨pg, E, c⟩
    cases c with
    | none => exact OrUB.refl _
    | some c => exact OrUB.bind (ih _ _) fun _ => OrUB.refl _

theorem listCliquesStd_or (pg : PyGraph) (k : Nat) :
    OrUB (pg.listCliquesStd k) (pg.listCliques k) := by
  unfold listCliquesStd listCliques
  refine OrUB.same fun E => ?_
  cases pg.G with
  | none => exact OrUB.refl _
  | some G => exact OrUB.bind (consumeStd_or _ _ _) fun _ => OrUB.refl _

end PyGraph

/-! ## A search that pops nothing -/

namespace Graph

variable {G G' : Graph}

theorem clearMemory_record {n : Nat} (h : G.clearMemory n = .ok G') :
    G'.curMax = G.curMax ∧ G'.limit = G.limit := by
  unfold clearMemory at h
  obtain ⟨_, _, h⟩ := bind_eq_ok.1 h
  cases h
  exact ⟨rfl, rfl⟩

/-- The search of one vertex that pops nothing leaves the record alone or reaches the limit. -/
theorem stackVertexStd_ok {cur : Nat} (h : G.stackVertexStd cur = .ok G') :
    G'.curMax = G.curMax ∨ G'.limit ≤ G'.curMax := by
  unfold stackVertexStd at h
  obtain ⟨V, _, h⟩ := bind_eq_ok.1 h
  obtain ⟨⟨G1, x⟩, h1, h⟩ := bind_eq_ok.1 h
  obtain ⟨⟨eb, pot⟩, _, h⟩ := bind_eq_ok.1 h
  dsimp only at h
  have hG1 : G1.curMax = G.curMax := by
    unfold rootState at h1
    simp only [loadMemory] at h1
    obtain ⟨_, _, h1⟩ := bind_eq_ok.1 h1
    cases h1
    rfl
  split at h
  · left
    rw [(clearMemory_record h).1]
    exact hG1
  · right
    obtain ⟨⟨G2, states⟩, h2, h⟩ := bind_eq_ok.1 h
    have key : states ≠ [] ∧ G2.limit ≤ G2.curMax := by
      refine loop_inv (fun s : Graph × List SState × Nat => s.2.1 ≠ [])
        (fun r : Graph × List SState => r.2 ≠ [] ∧ r.1.limit ≤ r.1.curMax) ?_ ?_ ?_ h2
      · rintro ⟨Ga, sa, ca⟩ s' hP hb
        cases sa with
        | nil => exact absurd rfl hP
        | cons top rest =>
          unfold stackBodyStd at hb
          dsimp only at hb
          split at hb
          · cases hb
          · obtain ⟨_, _, hb⟩ := bind_eq_ok.1 hb
            obtain ⟨_, _, hb⟩ := bind_eq_ok.1 hb
            obtain ⟨r, _, hb⟩ := bind_eq_ok.1 hb
            cases r with
            | pushed G top new => cases hb; exact List.cons_ne_nil _ _
            | done G top j =>
              dsimp only at hb
              split at hb
              · obtain ⟨_, _, hb⟩ := bind_eq_ok.1 hb
                cases hb
              · cases hb; exact List.cons_ne_nil _ _
      · rintro ⟨Ga, sa, ca⟩ r hP hb
        cases sa with
        | nil => exact absurd rfl hP
        | cons top rest =>
          unfold stackBodyStd at hb
          dsimp only at hb
          split at hb
          · cases hb
            exact ⟨List.cons_ne_nil _ _, ‹_›⟩
          · obtain ⟨_, _, hb⟩ := bind_eq_ok.1 hb
            obtain ⟨_, _, hb⟩ := bind_eq_ok.1 hb
            obtain ⟨r, _, hb⟩ := bind_eq_ok.1 hb
            cases r with
            | pushed G top new => cases hb
            | done G top j =>
              dsimp only at hb
              split at hb
              · obtain ⟨_, _, hb⟩ := bind_eq_ok.1 hb
                cases hb
              · cases hb
      · exact List.cons_ne_nil _ _
    dsimp only at h
    split at h
    · have a1 := clearMemory_record h
      rw [a1.1, a1.2]
      exact key.2
    · obtain ⟨G3, h3, h⟩ := bind_eq_ok.1 h
      have a1 := clearMemory_record h
      have a2 := clearMemory_record h3
      rw [a1.1, a1.2, a2.1, a2.2]
      exact key.2

theorem stackGraphStd_ok {i : Nat} (h : G.stackGraphStd = .ok (G', i)) :
    G'.curMax = G.curMax ∨ G'.limit ≤ G'.curMax := by
  unfold stackGraphStd at h
  obtain ⟨G1, h1, h⟩ := bind_eq_ok.1 h
  obtain ⟨G2, h2, h⟩ := bind_eq_ok.1 h
  cases h
  refine forRange_inv (fun (_ : Nat) (X : Graph) => X.curMax = G.curMax ∨ X.limit ≤ X.curMax)
    (Nat.zero_le _) (stackVertexStd_ok h1) ?_ h2
  intro k X Y _ _ hX hb
  obtain ⟨V, _, hb⟩ := bind_eq_ok.1 hb
  split at hb
  · cases hb; exact hX
  · rename_i hc
    rcases hX with hX | hX
    · rw [← hX]; exact stackVertexStd_ok hb
    · exact absurd (Or.inr hX) hc

/-- An iterator in the middle of a vertex never gets past it without popping. -/
theorem enumGraphStd_ok {E : Enum} {r : Graph × Enum × Nat} (hk : 2 ≤ E.required)
    (hs : E.states ≠ []) (hc : E.cur < G.nVert) (h : G.enumGraphStd E = .ok r) : r.2.2 = E.cur := by
  unfold enumGraphStd at h
  rw [if_neg (by omega), if_neg (by omega)] at h
  refine loop_inv (fun s : Graph × Enum => s.1.nVert = G.nVert ∧ s.2.states ≠ [] ∧ s.2.cur = E.cur)
    (fun r : Graph × Enum × Nat => r.2.2 = E.cur) ?_ ?_ ⟨rfl, hs, rfl⟩ h
  · rintro ⟨Ga, Ea⟩ s' ⟨p1, p2, p3⟩ hb
    have hn := (enumBody_keeps ((enumBodyStd_or _).ok hb)).1 s' rfl
    refine ⟨hn.1.trans p1, ?_⟩
    dsimp only at p1 p2 p3
    unfold enumBodyStd at hb
    dsimp only at hb
    rw [if_pos (by omega)] at hb
    cases hst : Ea.states with
    | nil => exact absurd hst p2
    | cons top rest =>
      rw [hst] at hb
      obtain ⟨_, _, hb⟩ := bind_eq_ok.1 hb
      obtain ⟨_, _, hb⟩ := bind_eq_ok.1 hb
      obtain ⟨r, _, hb⟩ := bind_eq_ok.1 hb
      cases r with
      | found G top => cases hb
      | pushed G top new => cases hb; exact ⟨List.cons_ne_nil _ _, p3⟩
      | done G top =>
        obtain ⟨_, _, hb⟩ := bind_eq_ok.1 hb
        cases hb
  · rintro ⟨Ga, Ea⟩ r ⟨p1, p2, p3⟩ hb
    dsimp only at p1 p2 p3
    unfold enumBodyStd at hb
    dsimp only at hb
    rw [if_pos (by omega)] at hb
    cases hst : Ea.states with
    | nil => exact absurd hst p2
    | cons top rest =>
      rw [hst] at hb
      obtain ⟨_, _, hb⟩ := bind_eq_ok.1 hb
      obtain ⟨_, _, hb⟩ := bind_eq_ok.1 hb
      obtain ⟨r, _, hb⟩ := bind_eq_ok.1 hb
      cases r with
      | found G top => cases hb; exact p3
      | pushed G top new => cases hb
      | done G top =>
        obtain ⟨_, _, hb⟩ := bind_eq_ok.1 hb
        cases hb

end Graph

theorem consumeStd_stuck (fuel : Nat) {pg : PyGraph} {E : Enum} {r : PyGraph × Enum × List (List Nat)}
    (hw : pg.Whole) (hk : 2 ≤ E.required) (hs : E.states ≠ []) (hc : E.cur ≤ pg.nvert) :
    pg.consumeStd fuel E ≠ .ok r := by
  induction fuel generalizing pg E r with
  | zero => intro h; cases h
  | succ n ih =>
    intro h
    unfold PyGraph.consumeStd at h
    obtain ⟨⟨pg1, E1, c⟩, h1, h⟩ := bind_eq_ok.1 h
    cases c with
    | none =>
      obtain ⟨G, hG, hn⟩ := hw
      unfold PyGraph.nextCliqueStd at h1
      rw [hG] at h1
      obtain ⟨x, hx, h1⟩ := bind_eq_ok.1 h1
      obtain ⟨G1, E2, v⟩ := x
      have : v = E.cur := Graph.enumGraphStd_ok hk hs (by omega) hx
      dsimp only at h1
      rw [if_neg (by omega)] at h1
      obtain ⟨_, _, h1⟩ := bind_eq_ok.1 h1
      cases h1
    | some c =>
      obtain ⟨a1, a2, a3, a4⟩ := nextClique_keeps hw ((PyGraph.nextCliqueStd_or _ _).ok h1)
      obtain ⟨y, hy, _⟩ := bind_eq_ok.1 h
      obtain ⟨a5, a6⟩ := a4 hk c rfl
      exact ih a1 (a3.symm ▸ hk) a5 (a2.symm ▸ a6) hy

/-- An iteration that yields a clique of two or more vertices cannot be completed. -/
theorem listCliquesStd_stuck {pg pg' : PyGraph} {k : Nat} {cs : List (List Nat)} (hw : pg.Whole)
    (hk : 2 ≤ k) (h : pg.listCliques k = .ok (pg', cs)) (hc : cs ≠ []) :
    pg.listCliquesStd k = .error .ub := by
  rcases PyGraph.listCliquesStd_or pg k with h1 | h1
  · exfalso
    rw [h] at h1
    unfold PyGraph.listCliquesStd at h1
    obtain ⟨E, hE, h1⟩ := bind_eq_ok.1 h1
    obtain ⟨G, hG, hn⟩ := id hw
    have hEk : E.required = k := by
      unfold PyGraph.allCliques at hE
      split at hE
      · cases hE
      · cases hE; rfl
    rw [hG] at h1
    obtain ⟨⟨pg2, E2, cs2⟩, h2, h1⟩ := bind_eq_ok.1 h1
    cases h1
    unfold PyGraph.consumeStd at h2
    obtain ⟨⟨pg3, E3, c⟩, h3, h2⟩ := bind_eq_ok.1 h2
    cases c with
    | none => cases h2; exact hc rfl
    | some c =>
      obtain ⟨a1, a2, a3, a4⟩ := nextClique_keeps hw ((PyGraph.nextCliqueStd_or _ _).ok h3)
      obtain ⟨y, hy, _⟩ := bind_eq_ok.1 h2
      obtain ⟨a5, a6⟩ := a4 (by omega) c rfl
      exact consumeStd_stuck _ a1 (a3.symm ▸ hEk.symm ▸ hk) a5 (a2.symm ▸ a6) hy
  · exact h1

/-! ## Iterations that push nothing -/

theorem enumGraphStd_small (G : Graph) {E : Enum} (hk : E.required ≤ 1) :
    G.enumGraphStd E = G.enumGraph E := by
  unfold Graph.enumGraphStd Graph.enumGraph
  split
  · rfl
  · split
    · rfl
    · have hc : ¬ E.cur < G.nVert := by omega
      have : (G.nVert + 2) * 2 ^ (G.maxDeg + 2) ≠ 0 := by positivity
      obtain ⟨m, hm⟩ := Nat.exists_eq_succ_of_ne_zero this
      rw [hm]
      unfold loop Graph.enumBodyStd Graph.enumBody
      simp only [if_neg hc]

theorem consumeStd_small (fuel : Nat) (pg : PyGraph) {E : Enum} (hk : E.required ≤ 1) :
    pg.consumeStd fuel E = pg.consume fuel E := by
  induction fuel generalizing pg E with
  | zero => rfl
  | succ n ih =>
    unfold PyGraph.consumeStd PyGraph.consume
    have hn : pg.nextCliqueStd E = pg.nextClique E := by
      unfold PyGraph.nextCliqueStd PyGraph.nextClique
      cases pg.G with
      | none => rfl
      | some G => dsimp only; rw [enumGraphStd_small G hk]
    rw [hn]
    cases h : pg.nextClique E with
    | error e => rfl
    | ok r =>
      obtain ⟨pg1, E1, c⟩ := r
      have hr : E1.required = E.required := by
        unfold PyGraph.nextClique at h
        cases hG : pg.G with
        | none => rw [hG] at h; cases h
        | some G =>
          rw [hG] at h
          obtain ⟨x, h1, h⟩ := bind_eq_ok.1 h
          have e := (Graph.enumGraph_keeps h1).2.1
          dsimp only at h
          split at h
          · cases h; exact e
          · obtain ⟨_, _, h⟩ := bind_eq_ok.1 h
            cases h; exact e
      rw [ok_bind, ok_bind]
      cases c with
      | none => rfl
      | some c => dsimp only; rw [ih pg1 (hr ▸ hk)]

theorem listCliquesStd_small (pg : PyGraph) {k : Nat} (hk : k ≤ 1) :
    pg.listCliquesStd k = pg.listCliques k := by
  unfold PyGraph.listCliquesStd PyGraph.listCliques
  unfold PyGraph.allCliques
  cases pg.checkLoaded with
  | none => rfl
  | some G0 =>
    simp only [ok_bind]
    cases pg.G with
    | none => rfl
    | some G => dsimp only; rw [consumeStd_small _ _ (E := Enum.new k) hk]

end CM
