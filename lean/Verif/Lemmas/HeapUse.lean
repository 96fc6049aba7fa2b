import Verif.SpecHeap
import Verif.Lemmas.Heap
import Verif.Lemmas.AllCliques

/-!
# Calls on an object while memory may run out
-/

namespace CM

open Spec Graph

variable {grow : Nat → Nat} {pg : PyGraph} {n : Nat} {S : SimpleGraph Nat} {G : Graph}

theorem lim_bounded (h : PyOk pg n S G) (hL : Lim G) {a : PyGraph.Args}
    (ha : Wide S a.upperBound) : Lim (bounded G a) := by
  intro v hv
  rw [(bounded_frame G a).rootCand]
  have h1 := hL v hv
  have h2 := lim_of_degree h.of h.ok.wf ha hv
  simp only [bounded]
  split <;> assumption

/-- The start vertex and whether the heuristic is used (pygraph.cpp:50-57). -/
theorem getMaxClique_of (h : PyOk pg n S G) {srt : List VData → List VData}
    (hsrt : ∀ l, (srt l).Perm l) (a : PyGraph.Args) {G' : Graph} {i : Nat}
    (h1 : (bounded G a).findMaxCliques srt (if a.continueSearch = true then pg.currentVertex else 0)
      (if a.continueSearch = true ∧ pg.currentVertex ≠ 0 then false else a.useHeuristic)
      a.useDfs a.timeLimit = .ok (G', i)) :
    pg.getMaxClique srt a =
      .ok ({ pg with G := some G', currentVertex := i, finishedAll := decide (i ≥ n) },
        if a.lowerBound > (G'.cliqueAt G'.curLoc).length then .raise
        else .ret (G'.cliqueAt G'.curLoc)) ∧
    G'.getClique G'.curLoc = .ok (G', G'.cliqueAt G'.curLoc) := by
  obtain ⟨G2, i2, b1, b2, -, -⟩ := findMax_spec hsrt (bounded_ok h.ok a)
    (if a.continueSearch = true then pg.currentVertex else 0)
    (if a.continueSearch = true ∧ pg.currentVertex ≠ 0 then false else a.useHeuristic)
    a.useDfs a.timeLimit
  rw [h1] at b1
  cases b1
  have hgc := getClique_ok b2.wf b2.pad b2.loc
  refine ⟨?_, hgc⟩
  unfold PyGraph.getMaxClique
  simp only
  have hl : PyGraph.checkLoaded { pg with
      currentVertex := if a.continueSearch = true then pg.currentVertex else 0 } = some G :=
    h.loaded
  rw [hl]
  simp only
  unfold bounded at h1
  rw [h1, ok_bind]
  simp only
  rw [hgc, ok_bind, h.nv]
  simp only
  split <;> rfl

/-- One search. -/
theorem getMaxCliqueA_spec (h : PyOk pg n S G) (hL : Lim G) {srt : List VData → List VData}
    (hsrt : ∀ l, (srt l).Perm l) {a : PyGraph.Args} (ha : Wide S a.upperBound) (hp : Heap) :
    (∃ pg' r, pg.getMaxClique srt a = .ok (pg', r) ∧
      pg.getMaxCliqueA grow srt hp a = .ok (pg', .of r)) ∨
    (hp ≠ none ∧ ∃ a' pg' pg'' r, a'.Less a ∧
      pg.getMaxCliqueA grow srt hp a = .ok (pg', .noMemory) ∧
      pg.getMaxClique srt a' = .ok (pg'', r) ∧ SameBut pg' pg'') := by
  have hl : PyGraph.checkLoaded { pg with
      currentVertex := if a.continueSearch = true then pg.currentVertex else 0 } = some G :=
    h.loaded
  unfold PyGraph.getMaxCliqueA
  dsimp only
  rw [hl]
  dsimp only
  rcases findMaxA_eq (grow := grow) hsrt (bounded_ok h.ok a) (lim_bounded h hL ha)
    (if a.continueSearch = true then pg.currentVertex else 0)
    (if a.continueSearch = true ∧ pg.currentVertex ≠ 0 then false else a.useHeuristic)
    a.useDfs a.timeLimit hp with ⟨e0, e1⟩ | ⟨e0, G', e1, e2⟩ | ⟨G', i, hp', e0, e1, e2⟩
  · right
    unfold bounded at e1
    rw [e1]
    refine ⟨e0, { a with useHeuristic := false, useDfs := false }, _, _, _, Or.inr (Or.inr rfl), rfl,
      (getMaxClique_of (G' := bounded G a)
        (i := if a.continueSearch = true then pg.currentVertex else 0) h hsrt _ ?_).1, rfl⟩
    dsimp only
    rw [ite_self]
    rfl
  · right
    unfold bounded at e1
    rw [e1]
    exact ⟨e0, { a with useDfs := false }, _, _, _, Or.inr (Or.inl rfl), rfl,
      (getMaxClique_of h hsrt { a with useDfs := false } e2).1, rfl⟩
  · obtain ⟨f1, f2⟩ := getMaxClique_of h hsrt a e2
    unfold bounded at e1
    rw [e1]
    dsimp only [bind, Except.bind]
    rw [f2]
    dsimp only
    rw [← h.nv] at f1
    cases hr : Heap.request hp' with
    | none =>
      right
      refine ⟨fun h0 => ?_, a, _, _, _, Or.inl rfl, rfl, f1, rfl⟩
      rw [e0 h0] at hr
      cases hr
    | some h2 =>
      dsimp only
      cases hr2 : h2.request with
      | none =>
        right
        refine ⟨fun h0 => ?_, a, _, _, _, Or.inl rfl, rfl, f1, rfl⟩
        rw [e0 h0] at hr
        cases hr
        cases hr2
      | some h3 =>
        left
        refine ⟨_, _, f1, ?_⟩
        dsimp only
        split <;> rfl

/-- One call. -/
theorem op_lim (h : PyOk pg n S G) (hL : Lim G) {op : Op} (hl : op.Legal) (ha : op.Wide S) :
    ∃ pg' G', op.run pg = .ok pg' ∧ PyOk pg' n S G' ∧ Lim G' := by
  cases op with
  | search srt a =>
    obtain ⟨G', i, h1, h2, h3, _⟩ := getMaxClique_spec h hl a
    refine ⟨_, G', ?_, getMaxClique_pyok (i := i) h h2 h3 (decide (i ≥ n)),
      (lim_bounded h hL ha).frame h3.frame (Nat.le_of_eq h3.lim.symm)⟩
    show (pg.getMaxClique srt a >>= _) = _
    rw [h1, ok_bind]
  | reset =>
    refine ⟨{ pg with G := some { G with curMax := 1 }, finishedAll := false, currentVertex := 0 },
      { G with curMax := 1 }, ?_, ⟨rfl, h.nv, h.pos, reset_ok h.ok 1,
      h.of.frame (reset_frame G 1)⟩, hL.frame (reset_frame G 1) (Nat.le_refl _)⟩
    · simp only [Op.run, PyGraph.resetSearch, h.g]
  | list k =>
    obtain ⟨G', cs, h1, h2, h3, _⟩ := listCliques_spec h k
    refine ⟨{ pg with G := some G' }, G', ?_, ⟨rfl, h.nv, h.pos, h2, h.of.frame h3.frame⟩,
      hL.frame h3.frame (Nat.le_of_eq h3.lim.symm)⟩
    show (pg.listCliques k >>= _) = _
    rw [h1, ok_bind]

theorem runs_lim : ∀ (ops : List Op) {pg : PyGraph} {G : Graph}, PyOk pg n S G → Lim G →
    (∀ op ∈ ops, op.Legal ∧ op.Wide S) →
    ∃ pg' G', runs ops pg = .ok pg' ∧ PyOk pg' n S G' ∧ Lim G' := by
  intro ops
  induction ops with
  | nil => intro pg G h hL _; exact ⟨pg, G, rfl, h, hL⟩
  | cons op ops ih =>
    intro pg G h hL ho
    obtain ⟨pg1, G1, a1, a2, a3⟩ := op_lim h hL (ho op (by simp)).1 (ho op (by simp)).2
    obtain ⟨pg2, G2, b1, b2, b3⟩ := ih a2 a3 (fun o h => ho o (by simp [h]))
    exact ⟨pg2, G2, by rw [runs_cons, a1, ok_bind, b1], b2, b3⟩

/-! ## `search_done` is only reported -/

theorem SameBut.refl (pg : PyGraph) : SameBut pg pg := rfl

theorem SameBut.pyok {pg pg' : PyGraph} (s : SameBut pg pg') (h : PyOk pg' n S G) :
    PyOk pg n S G := by
  unfold SameBut at s
  rw [s]
  exact ⟨h.g, h.nv, h.pos, h.ok, h.of⟩

theorem getMaxClique_done (h : PyOk pg n S G) (srt : List VData → List VData) (a : PyGraph.Args)
    (b : Bool) : { pg with finishedAll := b }.getMaxClique srt a = pg.getMaxClique srt a := by
  have hl : PyGraph.checkLoaded { pg with
      currentVertex := if a.continueSearch = true then pg.currentVertex else 0 } = some G :=
    h.loaded
  have hl' : PyGraph.checkLoaded { pg with
      finishedAll := b
      currentVertex := if a.continueSearch = true then pg.currentVertex else 0 } = some G :=
    h.loaded
  unfold PyGraph.getMaxClique
  dsimp only
  rw [hl, hl']

theorem nextClique_done (pg : PyGraph) (E : Enum) (b : Bool) :
    { pg with finishedAll := b }.nextClique E =
      (pg.nextClique E).map fun x => ({ x.1 with finishedAll := b }, x.2) := by
  unfold PyGraph.nextClique
  dsimp only
  cases pg.G with
  | none => rfl
  | some G =>
    dsimp only
    cases G.enumGraph E with
    | error e => rfl
    | ok x =>
      dsimp only [bind, Except.bind]
      split
      · rfl
      · cases x.1.getClique x.2.2 with
        | error e => rfl
        | ok y => rfl

theorem consume_done (b : Bool) : ∀ (fuel : Nat) (pg : PyGraph) (E : Enum),
    { pg with finishedAll := b }.consume fuel E =
      (pg.consume fuel E).map fun x => ({ x.1 with finishedAll := b }, x.2) := by
  intro fuel
  induction fuel with
  | zero => intro pg E; rfl
  | succ fuel ih =>
    intro pg E
    unfold PyGraph.consume
    rw [nextClique_done]
    cases pg.nextClique E with
    | error e => rfl
    | ok x =>
      obtain ⟨p, E', c⟩ := x
      cases c with
      | none => rfl
      | some c =>
        dsimp only [bind, Except.bind, Except.map]
        rw [ih]
        cases p.consume fuel E' with
        | error e => rfl
        | ok y => rfl

theorem listCliques_done (pg : PyGraph) (k : Nat) (b : Bool) :
    { pg with finishedAll := b }.listCliques k =
      (pg.listCliques k).map fun x => ({ x.1 with finishedAll := b }, x.2) := by
  unfold PyGraph.listCliques
  have hc : { pg with finishedAll := b }.allCliques k = pg.allCliques k := rfl
  rw [hc]
  cases pg.allCliques k with
  | error e => rfl
  | ok E =>
    dsimp only [bind, Except.bind]
    obtain ⟨Go, f, nv, ne, cv⟩ := pg
    cases Go with
    | none => rfl
    | some G =>
      have hd := consume_done b (G.nVert * 2 ^ G.maxDeg + 1) ⟨some G, f, nv, ne, cv⟩ E
      dsimp only at hd ⊢
      rw [hd]
      cases PyGraph.consume (G.nVert * 2 ^ G.maxDeg + 1) ⟨some G, f, nv, ne, cv⟩ E with
      | error e => rfl
      | ok y => rfl

/-- One call on the same object. -/
theorem SameBut.op {pg pg' pg1 : PyGraph} (s : SameBut pg pg') (hP : PyOk pg' n S G) {op : Op}
    (h : op.run pg' = .ok pg1) : ∃ pg1', op.run pg = .ok pg1' ∧ SameBut pg1' pg1 := by
  unfold SameBut at s
  rw [s]
  cases op with
  | search srt a =>
    refine ⟨pg1, ?_, rfl⟩
    rw [← h]
    unfold Op.run
    dsimp only
    rw [getMaxClique_done hP]
  | reset =>
    refine ⟨pg1, ?_, rfl⟩
    rw [← h]
    rfl
  | list k =>
    unfold Op.run at h ⊢
    dsimp only at h ⊢
    rw [listCliques_done]
    obtain ⟨⟨p, cs⟩, h1, h2⟩ := bind_eq_ok.1 h
    rw [h1]
    cases h2
    exact ⟨_, rfl, rfl⟩

theorem SameBut.symm {pg pg' : PyGraph} (s : SameBut pg pg') : SameBut pg' pg := by
  unfold SameBut at s ⊢
  rw [s]

theorem SameBut.trans {pg pg' pg'' : PyGraph} (s : SameBut pg pg') (t : SameBut pg' pg'') :
    SameBut pg pg'' := by
  unfold SameBut at s t ⊢
  rw [t] at s
  exact s

theorem runsA_cons (s : Op × Heap) (ss : List (Op × Heap)) (pg : PyGraph) :
    runsA grow (s :: ss) pg = (s.1.runA grow s.2 pg >>= runsA grow ss) := by
  unfold runsA
  rw [List.foldlM_cons]

theorem less_legal {op' op : Op} (h : op'.Less op) : op.Legal → op'.Legal := by
  cases h with
  | same => exact id
  | search h => exact id

theorem less_wide {op' op : Op} (h : op'.Less op) : op.Wide S → op'.Wide S := by
  cases h with
  | same => exact id
  | search h => rcases h with rfl | rfl | rfl <;> exact id

theorem less_positive {op' op : Op} (h : op'.Less op) : op.Positive → op'.Positive := by
  cases h with
  | same => exact id
  | search h => rcases h with rfl | rfl | rfl <;> exact id

theorem less_exact {op' op : Op} (h : op'.Less op) : op.Exact S n → op'.Exact S n := by
  cases h with
  | same => exact id
  | search h => rcases h with rfl | rfl | rfl <;> exact id

/-- One call that may run out of memory. -/
theorem opA_spec (h : PyOk pg n S G) (hL : Lim G) {op : Op} (hl : op.Legal) (ha : op.Wide S)
    (hp : Heap) : ∃ op' pg' pg'', op'.Less op ∧ op.runA grow hp pg = .ok pg' ∧
      op'.run pg = .ok pg'' ∧ SameBut pg' pg'' ∧ (hp = none → op' = op) := by
  cases op with
  | search srt a =>
    rcases getMaxCliqueA_spec (grow := grow) h hL hl ha hp with
      ⟨pg', r, e1, e2⟩ | ⟨e0, a', pg', pg'', r, e1, e2, e3, e4⟩
    · refine ⟨.search srt a, pg', pg', .same _, ?_, ?_, rfl, fun _ => rfl⟩
      · show (pg.getMaxCliqueA grow srt hp a >>= _) = _
        rw [e2, ok_bind]
      · show (pg.getMaxClique srt a >>= _) = _
        rw [e1, ok_bind]
    · refine ⟨.search srt a', pg', pg'', .search e1, ?_, ?_, e4, fun h0 => absurd h0 e0⟩
      · show (pg.getMaxCliqueA grow srt hp a >>= _) = _
        rw [e2, ok_bind]
      · show (pg.getMaxClique srt a' >>= _) = _
        rw [e3, ok_bind]
  | reset =>
    obtain ⟨pg', _, e1, _⟩ := op_lim h hL hl ha
    exact ⟨.reset, pg', pg', .same _, e1, e1, rfl, fun _ => rfl⟩
  | list k =>
    obtain ⟨pg', _, e1, _⟩ := op_lim h hL hl ha
    exact ⟨.list k, pg', pg', .same _, e1, e1, rfl, fun _ => rfl⟩

theorem runsA_spec : ∀ (steps : List (Op × Heap)) {pgA pg : PyGraph} {G : Graph},
    SameBut pgA pg → PyOk pg n S G → Lim G → (∀ s ∈ steps, s.1.Legal ∧ s.1.Wide S) →
    ∃ pgA' ops pg' G', runsA grow steps pgA = .ok pgA' ∧
      List.Forall₂ Op.Less ops (steps.map Prod.fst) ∧ runs ops pg = .ok pg' ∧ SameBut pgA' pg' ∧
      PyOk pg' n S G' ∧ Lim G' := by
  intro steps
  induction steps with
  | nil => intro pgA pg G s h hL _; exact ⟨pgA, [], pg, G, rfl, .nil, rfl, s, h, hL⟩
  | cons st steps ih =>
    intro pgA pg G s h hL ho
    obtain ⟨l1, l2⟩ := ho st (by simp)
    obtain ⟨op', pg1, pg2, a1, a2, a3, a4, _⟩ := opA_spec (grow := grow) (s.pyok h) hL l1 l2 st.2
    obtain ⟨pg3, b1, b2⟩ := s.symm.op (s.pyok h) a3
    obtain ⟨pg3', G3, c1, c2, c3⟩ := op_lim h hL (less_legal a1 l1) (less_wide a1 l2)
    rw [b1] at c1
    cases c1
    obtain ⟨pgA', ops, pg', G', d1, d2, d3, d4, d5, d6⟩ := ih (a4.trans b2.symm) c2 c3
      (fun o ho' => ho o (by simp [ho']))
    refine ⟨pgA', op' :: ops, pg', G', ?_, .cons a1 d2, ?_, d4, d5, d6⟩
    · rw [runsA_cons, a2, ok_bind, d1]
    · rw [runs_cons, b1, ok_bind, d3]

/-! ## The iterator -/

/-- One `__next__`. -/
theorem nextCliqueA_spec {Gs : Graph} {E : Enum} {Q : Nat → Prop} {b k : Nat} (hQ : Q k)
    (h2 : 2 ≤ k) (hg : pg.G = some G) (hnv : Gs.nVert = pg.nvert + 1) (h : EInv Q b Gs k G E)
    (hL : Lim Gs) (q : Vecs) :
    (q.heap ≠ none ∧ ∃ q', pg.nextCliqueA grow E q = .ok (pg, E, q', .noMemory)) ∨
    (∃ pg' E' G' c q', pg.nextClique E = .ok (pg', E', c) ∧ pg'.G = some G' ∧
      pg'.nvert = pg.nvert ∧ EInv Q b Gs k G' E' ∧
      (pg.nextCliqueA grow E q = .ok (pg', E', q', .ret c) ∨
        (q.heap ≠ none ∧ c ≠ none ∧ pg.nextCliqueA grow E q = .ok (pg', E', q', .noMemory)))) := by
  obtain ⟨G', E', v, a1, a2, _⟩ := enumGraph_spec hQ h2 h
  rcases enumGraphA_eq (grow := grow) hQ h2 h hL q a1 with ⟨e0, q', e1⟩ | ⟨q', e0, e1⟩
  · left
    refine ⟨e0, q', ?_⟩
    unfold PyGraph.nextCliqueA
    rw [hg]
    dsimp only
    rw [e1, ok_bind]
    dsimp only
    rw [← hg]
  · right
    obtain ⟨G2, E2, c2, cc⟩ := nextClique_spec hQ h2 hg hnv h
    have key : ∃ c, pg.nextClique E = .ok ({ pg with G := some G2 }, E2, c) := by
      rcases cc with ⟨v, C, c, _⟩ | ⟨c, _⟩
      · exact ⟨_, c⟩
      · exact ⟨_, c⟩
    clear cc
    obtain ⟨c, hc⟩ := key
    refine ⟨{ pg with G := some G2 }, E2, G2, c, ?_⟩
    have hc' := hc
    unfold PyGraph.nextClique at hc'
    rw [hg] at hc'
    dsimp only at hc'
    rw [a1, ok_bind] at hc'
    dsimp only at hc'
    unfold PyGraph.nextCliqueA
    rw [hg]
    dsimp only
    rw [e1, ok_bind]
    dsimp only
    split at hc'
    · rename_i hv
      rw [if_pos hv]
      cases hc'
      exact ⟨_, hc, rfl, rfl, c2, Or.inl rfl⟩
    · rename_i hv
      rw [if_neg hv]
      obtain ⟨⟨G3, ans⟩, d1, d2⟩ := bind_eq_ok.1 hc'
      rw [d1, ok_bind]
      dsimp only
      cases d2
      cases hr : q'.heap.request with
      | none =>
        refine ⟨_, hc, rfl, rfl, c2, Or.inr ⟨fun h0 => ?_, by simp, rfl⟩⟩
        rw [e0 h0] at hr
        cases hr
      | some h1 =>
        dsimp only
        cases hr2 : h1.request with
        | none =>
          refine ⟨_, hc, rfl, rfl, c2, Or.inr ⟨fun h0 => ?_, by simp, rfl⟩⟩
          rw [e0 h0] at hr
          cases hr
          cases hr2
        | some h3 => exact ⟨_, hc, rfl, rfl, c2, Or.inl rfl⟩

theorem nextsA_spec {Gs : Graph} {Q : Nat → Prop} {b k : Nat} (hQ : Q k) (h2 : 2 ≤ k)
    (hL : Lim Gs) : ∀ (hs : List Heap) {pg : PyGraph} {G : Graph} {E : Enum} (q : Vecs),
    pg.G = some G → Gs.nVert = pg.nvert + 1 → EInv Q b Gs k G E →
    ∃ pg' E' q' as m cs, pg.nextsA grow hs E q = .ok (pg', E', q', as) ∧
      pg.nexts m E = .ok (pg', E', cs) ∧ Merge as cs ∧
      List.Forall₂ (fun h a => h = none → a ≠ .noMemory) hs as := by
  intro hs
  induction hs with
  | nil => intro pg G E q _ _ _; exact ⟨pg, E, q, [], 0, [], rfl, rfl, .nil, .nil⟩
  | cons hp hs ih =>
    intro pg G E q hg hnv h
    rcases nextCliqueA_spec (grow := grow) hQ h2 hg hnv h hL { q with heap := hp } with
      ⟨e0, q', e1⟩ | ⟨pg1, E1, G1, c, q1, f1, f2, f3, f4, f5⟩
    · obtain ⟨pg', E', q'', as, m, cs, g1, g2, g3, g4⟩ := ih q' hg hnv h
      refine ⟨pg', E', q'', _, m, cs, ?_, g2, .idle g3, .cons (fun h0 => absurd h0 e0) g4⟩
      unfold PyGraph.nextsA
      rw [e1, ok_bind]
      dsimp only
      rw [g1, ok_bind]
    · obtain ⟨pg', E', q'', as, m, cs, g1, g2, g3, g4⟩ := ih q1 f2 (by rw [f3]; exact hnv) f4
      have hn : pg.nexts (m + 1) E = .ok (pg', E', c :: cs) := by
        unfold PyGraph.nexts
        rw [f1, ok_bind]
        dsimp only
        rw [g2, ok_bind]
      rcases f5 with e1 | ⟨e0, hc, e1⟩
      · refine ⟨pg', E', q'', _, m + 1, _, ?_, hn, .same c g3, .cons (fun _ => by simp) g4⟩
        unfold PyGraph.nextsA
        rw [e1, ok_bind]
        dsimp only
        rw [g1, ok_bind]
      · cases c with
        | none => exact absurd rfl hc
        | some l =>
          refine ⟨pg', E', q'', _, m + 1, _, ?_, hn, .lost l g3, .cons (fun h0 => absurd h0 e0) g4⟩
          unfold PyGraph.nextsA
          rw [e1, ok_bind]
          dsimp only
          rw [g1, ok_bind]

end CM
