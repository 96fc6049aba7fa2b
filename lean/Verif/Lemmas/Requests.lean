import Verif.SpecRequests
import Verif.Lemmas.HeapUse

/-! # How many requests for memory a search and an iterator make -/

namespace CM

open Spec Graph

variable {grow : Nat → Nat} {pg : PyGraph} {n : Nat} {S : SimpleGraph Nat} {G : Graph}

theorem reserve_new {k L : Nat} (hL : 0 < L) :
    Vecs.reserve ⟨0, 0, some (k + 2)⟩ L = (⟨L, L, some k⟩, true) := by
  unfold Vecs.reserve
  dsimp only
  rw [if_neg (by omega)]
  dsimp only [Heap.request, Option.map_some]
  rw [if_neg (by omega)]

theorem reserve_less {k L : Nat} (hL : 0 < L) (hk : k < 2) :
    ∃ q, Vecs.reserve ⟨0, 0, some k⟩ L = (q, false) := by
  unfold Vecs.reserve
  dsimp only
  rw [if_neg (by omega)]
  have : k = 0 ∨ k = 1 := by omega
  rcases this with rfl | rfl
  · exact ⟨_, rfl⟩
  · dsimp only [Heap.request, Option.map_some]
    rw [if_neg (by omega)]
    exact ⟨_, rfl⟩

theorem reserve_enough {q : Vecs} {L : Nat} (h1 : L ≤ q.states) (h2 : L ≤ q.toRemove) :
    q.reserve L = (q, true) := by
  unfold Vecs.reserve
  rw [if_pos h1]
  dsimp only
  rw [if_pos h2]

/-- The search proper: `c` requests. -/
theorem findMaxA_count {srt : List VData → List VData} (hsrt : ∀ l, (srt l).Perm l) {G : Graph}
    (h : Ok G) (hL : Lim G) (hm : G.maxDeg ≠ 0) (hl : 0 < G.limit) (sv : Nat) (heur dfs : Bool)
    (tl : TimeLimit) {c : Nat}
    (hc : c = (if heur then 1 else 0) + (if dfs ∧ tl = none then 2 else 0)) (k : Nat) :
    (k < c → ∃ G', G.findMaxCliquesA grow srt sv heur dfs tl (some k) = .ok (G', none)) ∧
    ∃ G' i, G.findMaxCliques srt sv heur dfs tl = .ok (G', i) ∧
      G.findMaxCliquesA grow srt sv heur dfs tl (some (k + c)) = .ok (G', some (i, some k)) := by
  have hstack : ∀ {X : Graph}, Ok X → Lim X → 0 < X.limit →
      (∀ k, k < 2 → X.stackGraphA grow (some k) = .ok (X, none)) ∧
      ∃ X' i, X.stackGraph = .ok (X', i) ∧
        ∀ k, X.stackGraphA grow (some (k + 2)) = .ok (X', some (i, some k)) := by
    intro X o1 o2 o3
    refine ⟨fun k hk => ?_, ?_⟩
    · obtain ⟨q, e⟩ := reserve_less o3 hk
      unfold stackGraphA
      rw [e]
    · obtain ⟨X', b1, _⟩ := stackGraph_spec o1
      exact ⟨X', _, b1, fun k => stackGraphA_run o1.at o2 (reserve_new o3) b1⟩
  have hrec : ∀ {X : Graph}, Ok X → ∀ t, ∃ X' i, X.recGraph t sv = .ok (X', i) := by
    intro X o1 t
    obtain ⟨X', i, b1, _⟩ := recGraph_spec o1 t sv
    exact ⟨X', i, b1⟩
  obtain ⟨G1, h1, h2, h3, h4⟩ := heurGraph_spec hsrt h
  have hL1 : Lim G1 := hL.frame h3.frame (Nat.le_of_eq h3.lim.symm)
  have hl1 : 0 < G1.limit := by have := h3.lim; omega
  have hh0 : G.heurGraphA srt (some 0) = .ok (G, none) := by
    unfold heurGraphA
    rw [if_neg hm]
    rfl
  have hh : ∀ k, G.heurGraphA srt (some (k + 1)) = .ok (G1, some (some k)) := by
    intro k
    unfold heurGraphA
    rw [if_neg hm]
    dsimp only [Heap.request]
    rw [h1]
    rfl
  unfold findMaxCliquesA findMaxCliques
  subst hc
  cases heur with
  | false =>
    simp only [Bool.false_eq_true, if_false, Nat.zero_add]
    cases dfs with
    | false => exact ⟨fun hk => by simp at hk, G, sv, rfl, rfl⟩
    | true =>
      cases tl with
      | none =>
        obtain ⟨s1, X', i, s2, s3⟩ := hstack h hL hl
        simp only [if_true, and_self]
        exact ⟨fun hk => ⟨G, s1 k hk⟩, X', i, s2, s3 k⟩
      | some t =>
        obtain ⟨X', i, r1⟩ := hrec h t
        simp only [if_true, reduceCtorEq, and_false, if_false, Nat.add_zero]
        refine ⟨fun hk => by omega, X', i, r1, ?_⟩
        rw [ok_bind]
        dsimp only
        rw [r1]
        rfl
  | true =>
    simp only [if_true]
    rw [h1]
    simp only [ok_bind]
    cases dfs with
    | false =>
      simp only [Bool.false_eq_true, if_false, false_and, Nat.add_zero]
      refine ⟨fun hk => ?_, G1, sv, rfl, ?_⟩
      · have : k = 0 := by omega
        subst this
        rw [hh0]
        exact ⟨G, rfl⟩
      · rw [hh]
        rfl
    | true =>
      cases tl with
      | none =>
        obtain ⟨s1, X', i, s2, s3⟩ := hstack h2 hL1 hl1
        simp only [if_true, and_self]
        refine ⟨fun hk => ?_, X', i, s2, ?_⟩
        · cases k with
          | zero => rw [hh0]; exact ⟨G, rfl⟩
          | succ k => rw [hh]; exact ⟨G1, s1 k (by omega)⟩
        · rw [show k + (1 + 2) = (k + 2) + 1 by omega, hh]
          exact s3 k
      | some t =>
        obtain ⟨X', i, r1⟩ := hrec h2 t
        simp only [if_true, reduceCtorEq, and_false, if_false, Nat.add_zero]
        refine ⟨fun hk => ?_, X', i, r1, ?_⟩
        · have : k = 0 := by omega
          subst this
          rw [hh0]
          exact ⟨G, rfl⟩
        · rw [hh, ok_bind]
          dsimp only
          rw [r1]
          rfl

/-- `max_degree` counts the vertex itself. -/
theorem Graph.WF.maxDeg_ne {G : Graph} (w : WF G) (hn : 0 < G.nVert) : G.maxDeg ≠ 0 := by
  have h1 := w.maxd 0 hn
  have h2 := w.spos 0 hn
  omega

/-- One search. -/
theorem getMaxCliqueA_count (h : PyOk pg n S G) (hL : Lim G) (hm : G.maxDeg ≠ 0)
    {srt : List VData → List VData} (hsrt : ∀ l, (srt l).Perm l) {a : PyGraph.Args}
    (ha : Wide S a.upperBound) (k : Nat) :
    (k < pg.requests a → ∃ pg', pg.getMaxCliqueA grow srt (some k) a = .ok (pg', .noMemory)) ∧
    (pg.requests a ≤ k → ∃ pg' r, pg.getMaxClique srt a = .ok (pg', r) ∧
      pg.getMaxCliqueA grow srt (some k) a = .ok (pg', .of r)) := by
  have hl : PyGraph.checkLoaded { pg with
      currentVertex := if a.continueSearch = true then pg.currentVertex else 0 } = some G :=
    h.loaded
  have hLb := lim_bounded h hL ha
  have hlim : 0 < (bounded G a).limit := by
    have := hLb 0 (by rw [(bounded_frame G a).nVert, h.of.nv]; omega)
    omega
  obtain ⟨c, hc⟩ : ∃ c, c = (if (if a.continueSearch = true ∧ pg.currentVertex ≠ 0 then false
      else a.useHeuristic) = true then 1 else 0) +
      (if a.useDfs = true ∧ a.timeLimit = none then 2 else 0) := ⟨_, rfl⟩
  have hreq : pg.requests a = c + 2 := by
    rw [hc]
    unfold PyGraph.requests
    congr 2
    by_cases h1 : a.continueSearch = true ∧ pg.currentVertex ≠ 0
    · rw [if_pos h1]
      simp [h1.1, h1.2]
    · rw [if_neg h1]
      simp [h1]
  have hm' : (bounded G a).maxDeg ≠ 0 := hm
  have hcnt := fun k => findMaxA_count (grow := grow) hsrt (bounded_ok h.ok a) hLb hm' hlim
    (if a.continueSearch = true then pg.currentVertex else 0)
    (if a.continueSearch = true ∧ pg.currentVertex ≠ 0 then false else a.useHeuristic)
    a.useDfs a.timeLimit hc k
  rw [hreq]
  have hgo : ∀ j, ∃ G' i, (bounded G a).findMaxCliques srt
        (if a.continueSearch = true then pg.currentVertex else 0)
        (if a.continueSearch = true ∧ pg.currentVertex ≠ 0 then false else a.useHeuristic)
        a.useDfs a.timeLimit = .ok (G', i) ∧ pg.getMaxCliqueA grow srt (some (j + c)) a =
      .ok ({ pg with G := some G', currentVertex := i, finishedAll := decide (i ≥ n) },
        if j < 2 then .noMemory
        else .of (if a.lowerBound > (G'.cliqueAt G'.curLoc).length then .raise
          else .ret (G'.cliqueAt G'.curLoc))) := by
    intro j
    obtain ⟨_, G', i, e1, e2⟩ := hcnt j
    refine ⟨G', i, e1, ?_⟩
    obtain ⟨_, f2⟩ := getMaxClique_of h hsrt a e1
    unfold PyGraph.getMaxCliqueA
    dsimp only
    rw [hl]
    dsimp only
    unfold bounded at e2
    rw [e2]
    dsimp only [bind, Except.bind]
    rw [f2]
    dsimp only
    rw [h.nv]
    match j with
    | 0 => rfl
    | 1 => rfl
    | j + 2 =>
      dsimp only [Heap.request]
      have hj : ¬ j + 2 < 2 := by omega
      by_cases hlb : a.lowerBound > (G'.cliqueAt G'.curLoc).length
      · rw [if_pos hlb, if_neg hj, if_pos hlb]; rfl
      · rw [if_neg hlb, if_neg hj, if_neg hlb]; rfl
  constructor
  · intro hk
    by_cases hkc : k < c
    · obtain ⟨G', e⟩ := (hcnt k).1 hkc
      refine ⟨{ pg with
        G := some G'
        currentVertex := if a.continueSearch = true then pg.currentVertex else 0 }, ?_⟩
      unfold PyGraph.getMaxCliqueA
      dsimp only
      rw [hl]
      dsimp only
      unfold bounded at e
      rw [e]
      rfl
    · obtain ⟨G', i, _, e⟩ := hgo (k - c)
      rw [show k - c + c = k by omega, if_pos (by omega)] at e
      exact ⟨_, e⟩
  · intro hk
    obtain ⟨G', i, e1, e⟩ := hgo (k - c)
    rw [show k - c + c = k by omega, if_neg (by omega)] at e
    exact ⟨_, _, (getMaxClique_of h hsrt a e1).1, e⟩

/-! ## The iterator -/

/-- One `__next__` after which at least two requests are granted. -/
theorem nextCliqueA_count {Gs : Graph} {E E' : Enum} {Q : Nat → Prop} {b k j : Nat} (hQ : Q k)
    (h2 : 2 ≤ k) (hg : pg.G = some G) (h : EInv Q b Gs k G E)
    (hL : Lim Gs) {q q1 : Vecs} (hc : q.reserve G.limit = (q1, true)) (hj : q1.heap = some (j + 2))
    {pg' : PyGraph} {c : Option (List Nat)} (hn : pg.nextClique E = .ok (pg', E', c)) :
    ∃ q', pg.nextCliqueA grow E q = .ok (pg', E', q', .ret c) ∧ q'.states = q1.states ∧
      q'.toRemove = q1.toRemove := by
  unfold PyGraph.nextClique at hn
  unfold PyGraph.nextCliqueA
  rw [hg] at hn ⊢
  dsimp only at hn ⊢
  obtain ⟨⟨G1, E1, v⟩, a1, hn⟩ := bind_eq_ok.1 hn
  rw [enumGraphA_run hQ h2 h hL hc a1, ok_bind]
  dsimp only at hn ⊢
  split at hn
  · rename_i hv
    rw [if_pos hv]
    cases hn
    exact ⟨q1, rfl, rfl, rfl⟩
  · rename_i hv
    rw [if_neg hv]
    obtain ⟨⟨G3, ans⟩, d1, d2⟩ := bind_eq_ok.1 hn
    rw [d1, ok_bind]
    dsimp only
    cases d2
    rw [hj]
    exact ⟨_, rfl, rfl, rfl⟩

/-- A first `__next__` with too few requests. -/
theorem nextCliqueA_few {Gs : Graph} {E E' : Enum} {Q : Nat → Prop} {b k i : Nat} (hQ : Q k)
    (h2 : 2 ≤ k) (hg : pg.G = some G) (h : EInv Q b Gs k G E) (hL : Lim Gs) (hl : 0 < Gs.limit)
    {pg' : PyGraph} {c : List Nat} (hn : pg.nextClique E = .ok (pg', E', some c)) (hi : i < 4) :
    ∃ p E'' q, pg.nextCliqueA grow E ⟨0, 0, some i⟩ = .ok (p, E'', q, .noMemory) := by
  have hl' : 0 < G.limit := by rw [h.2.1.lim]; exact hl
  have hr : E.required = k := h.1
  unfold PyGraph.nextClique at hn
  unfold PyGraph.nextCliqueA
  rw [hg] at hn ⊢
  dsimp only at hn ⊢
  obtain ⟨⟨G1, E1, v⟩, a1, hn⟩ := bind_eq_ok.1 hn
  by_cases hi2 : i < 2
  · obtain ⟨q, e⟩ := reserve_less hl' hi2
    have : G.enumGraphA grow E ⟨0, 0, some i⟩ = .ok (G, E, q, none) := by
      unfold enumGraphA
      rw [if_neg (by omega), if_neg (by omega), e]
    rw [this]
    exact ⟨_, _, _, rfl⟩
  · obtain ⟨j, rfl⟩ : ∃ j, i = j + 2 := ⟨i - 2, by omega⟩
    rw [enumGraphA_run hQ h2 h hL (reserve_new hl') a1, ok_bind]
    dsimp only at hn ⊢
    split at hn
    · cases hn
    · rename_i hv
      rw [if_neg hv]
      obtain ⟨⟨G3, ans⟩, d1, d2⟩ := bind_eq_ok.1 hn
      rw [d1, ok_bind]
      have : j = 0 ∨ j = 1 := by omega
      rcases this with rfl | rfl <;> exact ⟨_, _, _, rfl⟩

/-- Calls on an iterator whose vectors are reserved. -/
theorem nextsA_count {Gs : Graph} {Q : Nat → Prop} {b k : Nat} (hQ : Q k) (h2 : 2 ≤ k)
    (hL : Lim Gs) : ∀ (js : List Nat) {pg pg' : PyGraph} {G : Graph} {E E' : Enum} {q : Vecs}
    {cs : List (Option (List Nat))},
    pg.G = some G → Gs.nVert = pg.nvert + 1 → EInv Q b Gs k G E → Gs.limit ≤ q.states →
    Gs.limit ≤ q.toRemove → pg.nexts js.length E = .ok (pg', E', cs) →
    ∃ q', pg.nextsA grow (js.map fun j => some (j + 2)) E q = .ok (pg', E', q', cs.map .ret) := by
  intro js
  induction js with
  | nil =>
    intro pg pg' G E E' q cs _ _ _ _ _ h
    cases h
    exact ⟨q, rfl⟩
  | cons j js ih =>
    intro pg pg' G E E' q cs hg hnv hI h1 h3 h
    unfold PyGraph.nexts at h
    obtain ⟨⟨p1, E1, c⟩, a1, h⟩ := bind_eq_ok.1 h
    dsimp only at h
    obtain ⟨⟨p2, E2, cs'⟩, a2, h⟩ := bind_eq_ok.1 h
    cases h
    obtain ⟨q', b1, b2, b3⟩ := nextCliqueA_count (grow := grow) (q := { q with heap := some (j + 2) })
      (j := j) hQ h2 hg hI hL
      (reserve_enough (by rw [hI.2.1.lim]; exact h1) (by rw [hI.2.1.lim]; exact h3)) rfl a1
    obtain ⟨G2, E2', c2, cc⟩ := nextClique_spec hQ h2 hg hnv hI
    have key : p1 = { pg with G := some G2 } ∧ E1 = E2' := by
      rcases cc with ⟨v, C, c, _⟩ | ⟨c, _⟩
      · rw [a1] at c
        injection c with c
        rw [Prod.mk.injEq, Prod.mk.injEq] at c
        exact ⟨c.1, c.2.1⟩
      · rw [a1] at c
        injection c with c
        rw [Prod.mk.injEq, Prod.mk.injEq] at c
        exact ⟨c.1, c.2.1⟩
    obtain ⟨rfl, rfl⟩ := key
    obtain ⟨q'', d1⟩ := ih (pg := { pg with G := some G2 }) (q := q') rfl hnv c2 (by rw [b2]; exact h1) (by rw [b3]; exact h3) a2
    refine ⟨q'', ?_⟩
    rw [List.map_cons]
    unfold PyGraph.nextsA
    rw [b1, ok_bind]
    dsimp only
    rw [d1, ok_bind]
    rfl

/-- Calls on a new iterator. -/
theorem nextsA_new {Gs : Graph} {Q : Nat → Prop} {b k : Nat} (hQ : Q k) (h2 : 2 ≤ k)
    (hL : Lim Gs) (hl : 0 < Gs.limit) (j : Nat) (js : List Nat) {pg' : PyGraph} {E E' : Enum}
    {cs : List (Option (List Nat))} (hg : pg.G = some G) (hnv : Gs.nVert = pg.nvert + 1)
    (hI : EInv Q b Gs k G E) (h : pg.nexts (js.length + 1) E = .ok (pg', E', cs)) :
    ∃ q', pg.nextsA grow (some (j + 4) :: js.map fun j => some (j + 2)) E ⟨0, 0, none⟩ =
      .ok (pg', E', q', cs.map .ret) := by
  unfold PyGraph.nexts at h
  obtain ⟨⟨p1, E1, c⟩, a1, h⟩ := bind_eq_ok.1 h
  dsimp only at h
  obtain ⟨⟨p2, E2, cs'⟩, a2, h⟩ := bind_eq_ok.1 h
  cases h
  obtain ⟨q', b1, b2, b3⟩ := nextCliqueA_count (grow := grow) (q := ⟨0, 0, some (j + 4)⟩)
    (j := j) hQ h2 hg hI hL (reserve_new (k := j + 2) (by rw [hI.2.1.lim]; exact hl)) rfl a1
  obtain ⟨G2, E2', c2, cc⟩ := nextClique_spec hQ h2 hg hnv hI
  have key : p1 = { pg with G := some G2 } ∧ E1 = E2' := by
    rcases cc with ⟨v, C, c, _⟩ | ⟨c, _⟩
    · rw [a1] at c
      injection c with c
      rw [Prod.mk.injEq, Prod.mk.injEq] at c
      exact ⟨c.1, c.2.1⟩
    · rw [a1] at c
      injection c with c
      rw [Prod.mk.injEq, Prod.mk.injEq] at c
      exact ⟨c.1, c.2.1⟩
  obtain ⟨rfl, rfl⟩ := key
  obtain ⟨q'', d1⟩ := nextsA_count (grow := grow) hQ h2 hL js (q := q')
    (pg := { pg with G := some G2 }) rfl hnv c2
    (by rw [b2, hI.2.1.lim]) (by rw [b3, hI.2.1.lim]) a2
  refine ⟨q'', ?_⟩
  unfold PyGraph.nextsA
  rw [b1, ok_bind]
  dsimp only
  rw [d1, ok_bind]
  rfl

end CM
