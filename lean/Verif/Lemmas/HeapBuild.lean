import Verif.Model.HeapBuild
import Verif.SpecHeap
import Verif.Lemmas.HeapUse
import Verif.Lemmas.EnumKeeps
import Verif.Lemmas.Bare
import Verif.Lemmas.Export

/-! # An object with the numbers of another graph -/

namespace CM

open Spec Graph

variable {pg pgX : PyGraph} {n : Nat} {S : SimpleGraph Nat} {G : Graph}

/-- The two objects have the same graph, and searches continue at the same place. -/
structure SameGraph (pg pgX : PyGraph) : Prop where
  g : pgX.G = pg.G
  cv : pgX.currentVertex = pg.currentVertex

theorem SameGraph.refl (pg : PyGraph) : SameGraph pg pg := ⟨rfl, rfl⟩

theorem sameGraph_counts (pg : PyGraph) (n m : Nat) :
    SameGraph pg { pg with nvert := n, nedges := m } := ⟨rfl, rfl⟩

/-- A search does not depend on the numbers of vertices and edges the object has, but for
`search_done`. -/
theorem getMaxClique_same (s : SameGraph pg pgX) (hg : pg.G = some G) (h1 : pg.nvert ≠ 0)
    (h2 : pgX.nvert ≠ 0) {srt : List VData → List VData} {a : PyGraph.Args} {pg' : PyGraph}
    {r : PyRes (List Nat)} (h : pg.getMaxClique srt a = .ok (pg', r)) :
    ∃ pgX', pgX.getMaxClique srt a = .ok (pgX', r) ∧ SameGraph pg' pgX' ∧
      pgX'.nvert = pgX.nvert ∧ pgX'.nedges = pgX.nedges ∧
      (pgX.nvert = pg.nvert → pgX'.finishedAll = pg'.finishedAll) := by
  obtain ⟨s1, s2⟩ := s
  obtain ⟨Go, f, nv, ne, cv⟩ := pg
  obtain ⟨Go', f', nv', ne', cv'⟩ := pgX
  dsimp only at s1 s2 hg h1 h2
  subst s1 s2 hg
  have hl : ∀ (c : Nat), PyGraph.checkLoaded ⟨some G, f, nv, ne, c⟩ = some G := fun c => by
    unfold PyGraph.checkLoaded
    rw [if_neg h1]
  have hl' : ∀ (c : Nat), PyGraph.checkLoaded ⟨some G, f', nv', ne', c⟩ = some G := fun c => by
    unfold PyGraph.checkLoaded
    rw [if_neg h2]
  unfold PyGraph.getMaxClique at h ⊢
  dsimp only at h ⊢
  rw [hl] at h
  rw [hl']
  dsimp only at h ⊢
  obtain ⟨⟨G1, i⟩, e1, h⟩ := bind_eq_ok.1 h
  rw [e1, ok_bind]
  dsimp only at h ⊢
  obtain ⟨⟨G2, ans⟩, e2, h⟩ := bind_eq_ok.1 h
  rw [e2, ok_bind]
  dsimp only at h ⊢
  split at h <;> rename_i hc
  · cases h
    rw [if_pos hc]
    exact ⟨_, rfl, ⟨rfl, rfl⟩, rfl, rfl, fun e => by rw [e]⟩
  · cases h
    rw [if_neg hc]
    exact ⟨_, rfl, ⟨rfl, rfl⟩, rfl, rfl, fun e => by rw [e]⟩

/-- The same for `reset_search`. -/
theorem resetSearch_same (s : SameGraph pg pgX) {pg' : PyGraph} (h : pg.resetSearch = .ok pg') :
    ∃ pgX', pgX.resetSearch = .ok pgX' ∧ SameGraph pg' pgX' ∧
      pgX'.nvert = pgX.nvert ∧ pgX'.nedges = pgX.nedges := by
  unfold PyGraph.resetSearch at h ⊢
  rw [s.g]
  cases hG : pg.G with
  | none => rw [hG] at h; cases h
  | some G =>
    rw [hG] at h
    cases h
    exact ⟨_, rfl, ⟨rfl, rfl⟩, rfl, rfl⟩

/-- Histories of searches and resets. -/
theorem runs_same : ∀ (ops : List Op) {pg pgX : PyGraph} {G : Graph}, SameGraph pg pgX →
    PyOk pg n S G → pgX.nvert ≠ 0 → (∀ op ∈ ops, op.Legal ∧ ∀ k, op ≠ .list k) →
    ∃ pg' pgX' G', runs ops pg = .ok pg' ∧ runs ops pgX = .ok pgX' ∧ SameGraph pg' pgX' ∧
      PyOk pg' n S G' ∧ pgX'.nvert = pgX.nvert ∧ pgX'.nedges = pgX.nedges ∧
      pg'.nedges = pg.nedges := by
  intro ops
  induction ops with
  | nil =>
    intro pg pgX G s h _ _
    exact ⟨pg, pgX, G, rfl, rfl, s, h, rfl, rfl, rfl⟩
  | cons op ops ih =>
    intro pg pgX G s h hx hl
    obtain ⟨hl0, hl1⟩ := List.forall_mem_cons.1 hl
    obtain ⟨pg1, G1, a1, a2, _, a3, _⟩ := op_spec h hl0.1
    have key : ∃ pgX1, op.run pgX = .ok pgX1 ∧ SameGraph pg1 pgX1 ∧ pgX1.nvert = pgX.nvert ∧
        pgX1.nedges = pgX.nedges := by
      cases op with
      | list k => exact absurd rfl (hl0.2 k)
      | reset => exact resetSearch_same s a1
      | search srt a =>
        obtain ⟨⟨p, r⟩, b1, b2⟩ := bind_eq_ok.1 (show (pg.getMaxClique srt a >>= fun x =>
          .ok x.1) = Except.ok pg1 from a1)
        cases b2
        obtain ⟨pgX', c1, c2, c3, c4, _⟩ :=
          getMaxClique_same s h.g (by rw [h.nv]; exact h.pos) hx b1
        refine ⟨pgX', ?_, c2, c3, c4⟩
        show (pgX.getMaxClique srt a >>= fun x => Except.ok x.1) = _
        rw [c1, ok_bind]
    obtain ⟨pgX1, b1, b2, b3, b4⟩ := key
    obtain ⟨pg2, pgX2, G2, c1, c2, c3, c4, c5, c6, c7⟩ := ih b2 a2 (by rw [b3]; exact hx) hl1
    refine ⟨pg2, pgX2, G2, ?_, ?_, c3, c4, c5.trans b3, c6.trans b4, c7.trans a3⟩
    · rw [runs_cons, a1, ok_bind, c1]
    · rw [runs_cons, b1, ok_bind, c2]

/-- A vertex that the enumerator gives is where it stands, if it is none of the graph. -/
theorem enumGraph_last {E : Enum} {r : Graph × Enum × Nat} (h : G.enumGraph E = .ok r)
    (hv : G.nVert ≤ r.2.2) : r.2.2 = r.2.1.cur := by
  unfold enumGraph at h
  split at h
  · cases h
    rfl
  · split at h
    · rename_i h1
      obtain ⟨_, _, h⟩ := bind_eq_ok.1 h
      obtain ⟨_, _, h⟩ := bind_eq_ok.1 h
      obtain ⟨_, _, h⟩ := bind_eq_ok.1 h
      obtain ⟨_, _, h⟩ := bind_eq_ok.1 h
      cases h
      dsimp only at hv
      omega
    · exact loop_inv (fun _ : Graph × Enum => True)
        (fun x : Graph × Enum × Nat => x.2.2 = x.2.1.cur)
        (fun s s' hs hb => trivial)
        (fun s r hs hb => ((enumBody_keeps hb).2 r rfl).2.2.1) trivial h

theorem getClique_oob {v : Nat} (h : G.vs.length ≤ v) : G.getClique v = .error .ub := by
  unfold getClique vtx
  rw [rd_oob h]
  rfl

/-- The number of steps allowed does not matter. -/
theorem consume_det : ∀ (f f' : Nat) {pg : PyGraph} {E : Enum} {r r' : PyGraph × Enum × List (List Nat)},
    pg.consume f E = .ok r → pg.consume f' E = .ok r' → r = r' := by
  intro f
  induction f with
  | zero => intro f' pg E r r' h; simp [PyGraph.consume] at h
  | succ f ih =>
    intro f' pg E r r' h h'
    cases f' with
    | zero => simp [PyGraph.consume] at h'
    | succ f' =>
      unfold PyGraph.consume at h h'
      obtain ⟨⟨p, E1, c⟩, h1, h⟩ := bind_eq_ok.1 h
      rw [h1, ok_bind] at h'
      cases c with
      | none => cases h; cases h'; rfl
      | some c =>
        dsimp only at h h'
        obtain ⟨x, h2, h⟩ := bind_eq_ok.1 h
        obtain ⟨y, h3, h'⟩ := bind_eq_ok.1 h'
        have := ih _ h2 h3
        subst this
        cases h
        cases h'
        rfl

/-- An iterator on an object that believes to have more vertices than its graph. -/
theorem consume_past : ∀ (fuel : Nat) {pg pg' pgX : PyGraph} {E E' : Enum} {cs : List (List Nat)}
    {G G' : Graph}, pg.consume fuel E = .ok (pg', E', cs) → pg.G = some G →
    G.nVert = pg.nvert + 1 → pg'.G = some G' → E'.cur = G'.nVert → G'.nVert = pg.nvert + 1 →
    G'.vs.length = G'.nVert → pgX.G = pg.G → pg.nvert < pgX.nvert →
    pgX.consume fuel E = .error .ub := by
  intro fuel
  induction fuel with
  | zero => intro pg pg' pgX E E' cs G G' h; simp [PyGraph.consume] at h
  | succ fuel ih =>
    intro pg pg' pgX E E' cs G G' h hg hn hg' hc hn' hv hx hlt
    unfold PyGraph.consume at h ⊢
    obtain ⟨⟨p, E1, c⟩, h1, h⟩ := bind_eq_ok.1 h
    unfold PyGraph.nextClique at h1 ⊢
    rw [hg] at h1
    rw [hx, hg]
    dsimp only at h1 ⊢
    obtain ⟨⟨G1, E1', v⟩, h2, h1⟩ := bind_eq_ok.1 h1
    rw [h2, ok_bind]
    have hk := (enumGraph_keeps h2).1
    dsimp only at h1 hk ⊢
    split at h1
    · rename_i hgt
      cases h1
      cases h
      cases hg'
      have hl := enumGraph_last h2 (by dsimp only; omega)
      dsimp only at hl
      rw [if_neg (by omega)]
      rw [getClique_oob (by omega)]
      rfl
    · rename_i hgt
      obtain ⟨⟨G2, ans⟩, h3, h1⟩ := bind_eq_ok.1 h1
      cases h1
      rw [if_neg (by omega), h3, ok_bind]
      have hk2 := getClique_nVert h3
      dsimp only at hk2 h ⊢
      rw [ok_bind]
      obtain ⟨⟨p2, E2, cs2⟩, h4, h⟩ := bind_eq_ok.1 h
      cases h
      dsimp only
      rw [ih (pgX := { pgX with G := some G2 }) h4 rfl (by dsimp only; omega) hg' hc hn' hv rfl hlt]
      rfl

/-- An iterator on an object that believes to have at most the vertices of its graph. -/
theorem consume_fewer : ∀ (fuel : Nat) {pg pg' pgX : PyGraph} {E E' : Enum} {cs : List (List Nat)},
    pg.consume fuel E = .ok (pg', E', cs) → pgX.G = pg.G → pgX.nvert ≤ pg.nvert →
    ∃ pgX' EX csX, pgX.consume fuel E = .ok (pgX', EX, csX) ∧ csX <+: cs ∧
      (pgX.nvert = pg.nvert → csX = cs ∧ pgX'.G = pg'.G) := by
  intro fuel
  induction fuel with
  | zero => intro pg pg' pgX E E' cs h; simp [PyGraph.consume] at h
  | succ fuel ih =>
    intro pg pg' pgX E E' cs h hx hle
    unfold PyGraph.consume at h ⊢
    obtain ⟨⟨p, E1, c⟩, h1, h⟩ := bind_eq_ok.1 h
    unfold PyGraph.nextClique at h1 ⊢
    rw [hx]
    cases hg : pg.G with
    | none => rw [hg] at h1; cases h1
    | some G =>
      rw [hg] at h1
      dsimp only at h1 ⊢
      obtain ⟨⟨G1, E1', v⟩, h2, h1⟩ := bind_eq_ok.1 h1
      rw [h2, ok_bind]
      dsimp only at h1 ⊢
      split at h1
      · rename_i hgt
        cases h1
        cases h
        rw [if_pos (by omega), ok_bind]
        exact ⟨_, _, [], rfl, List.prefix_refl _, fun _ => ⟨rfl, rfl⟩⟩
      · rename_i hgt
        obtain ⟨⟨G2, ans⟩, h3, h1⟩ := bind_eq_ok.1 h1
        cases h1
        dsimp only at h
        obtain ⟨⟨p2, E2, cs2⟩, h4, h⟩ := bind_eq_ok.1 h
        cases h
        by_cases hgx : v > pgX.nvert
        · rw [if_pos hgx, ok_bind]
          exact ⟨_, _, [], rfl, List.nil_prefix, fun e => by omega⟩
        · rw [if_neg hgx, h3, ok_bind]
          dsimp only
          rw [ok_bind]
          obtain ⟨pgX', EX, csX, c1, c2, c3⟩ :=
            ih (pgX := { pgX with G := some G2 }) h4 rfl hle
          dsimp only at c1 c3 ⊢
          rw [c1, ok_bind]
          refine ⟨pgX', EX, ans :: csX, rfl, ?_, fun e => ?_⟩
          · exact List.cons_prefix_cons.2 ⟨rfl, c2⟩
          · obtain ⟨d1, d2⟩ := c3 e
            exact ⟨by rw [d1], d2⟩

theorem allCliques_some (hg : pg.G = some G) (h0 : pg.nvert ≠ 0) (k : Nat) :
    pg.allCliques k = .ok (Enum.new k) := by
  unfold PyGraph.allCliques PyGraph.checkLoaded
  rw [if_neg h0, hg]

theorem listCliques_past (h : PyOk pg n S G) (hx : pgX.G = pg.G) (hlt : n < pgX.nvert) (k : Nat) :
    pgX.listCliques k = .error .ub := by
  obtain ⟨fuel, G1, E1, cs, _, b2, _, b4, b5⟩ := listCliques_end h k
  obtain ⟨G2, cs2, c1, c2, _⟩ := listCliques_spec h k
  have hn := h.nv
  have hgX : pgX.G = some G := by rw [hx, h.g]
  unfold PyGraph.listCliques at c1 ⊢
  rw [allCliques_some h.g (by rw [h.nv]; exact h.pos), ok_bind, h.g] at c1
  rw [allCliques_some hgX (by omega), ok_bind, hgX]
  dsimp only at c1 ⊢
  obtain ⟨⟨p, E', cs'⟩, d1, d2⟩ := bind_eq_ok.1 c1
  cases d2
  have e := consume_det _ _ b2 d1
  rw [Prod.mk.injEq, Prod.mk.injEq, PyGraph.mk.injEq, Option.some.injEq] at e
  obtain ⟨⟨rfl, _⟩, rfl, rfl⟩ := e
  rw [consume_past _ d1 h.g (by rw [h.of.nv, h.nv]) rfl b4 b5 c2.wf.vlen hx (by omega)]
  rfl

theorem listCliques_fewer (h : PyOk pg n S G) (hx : pgX.G = pg.G) (hle : pgX.nvert ≤ n)
    (h0 : pgX.nvert ≠ 0) {k : Nat} {pg' : PyGraph} {cs : List (List Nat)}
    (hl : pg.listCliques k = .ok (pg', cs)) :
    ∃ pgX' csX, pgX.listCliques k = .ok (pgX', csX) ∧ csX <+: cs ∧
      (pgX.nvert = n → csX = cs ∧ pgX'.G = pg'.G) := by
  have hn := h.nv
  have hgX : pgX.G = some G := by rw [hx, h.g]
  unfold PyGraph.listCliques at hl ⊢
  rw [allCliques_some h.g (by rw [h.nv]; exact h.pos), ok_bind, h.g] at hl
  rw [allCliques_some hgX h0, ok_bind, hgX]
  dsimp only at hl ⊢
  obtain ⟨⟨p, E', cs'⟩, d1, d2⟩ := bind_eq_ok.1 hl
  cases d2
  obtain ⟨pgX', EX, csX, c1, c2, c3⟩ := consume_fewer _ d1 hx (by omega)
  rw [c1, ok_bind]
  exact ⟨pgX', csX, rfl, c2, fun e => c3 (by omega)⟩

end CM
