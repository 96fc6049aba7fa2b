import Verif.Lemmas.NWSameLoad
import Verif.Props.Compilers
import Verif.Props.WeightedCompilers

/-!
# C110: the answers depend on the graph, not on how it was written down

A graph can be given as a list of edges in any order, with the ends of an edge either way round
and edges repeated, as an array, as a list of neighbour sets, as a file, or be built from two
sets.  What is loaded is the same object up to the number of edges it displays, so all later
answers are the same, in the same order.
-/

namespace CM

open Spec

section

variable {n : Nat} {S : SimpleGraph Nat} {pg pg' : PyGraph}

/-- **C110**: two objects that hold the same graph, whichever loaders made them from whichever
description, in whichever builds, give the same answers to the same calls, cliques in the same
order, and then the same export, vertex data and answers to any number `m` of `next()` calls on a
new `all_cliques(k)` iterator.  Where they display the same number of edges, the edge list and the
file are the same too. -/
theorem C110_same_answers (h : Usable pg n S) (h' : Usable pg' n S)
    {ops : List Op} (hl : ∀ op ∈ ops, op.Legal) (E : Enum) :
    ∃ q q' seen, acts (ops.map .call) pg E = .ok (q, E, seen) ∧
      acts (ops.map .call) pg' E = .ok (q', E, seen) ∧
      (q'.nvert = q.nvert ∧ q'.finishedAll = q.finishedAll ∧
        q'.currentVertex = q.currentVertex) ∧
      q'.toMatrix = q.toMatrix ∧ q'.toAdjList = q.toAdjList ∧
      (q'.nedges = q.nedges → q'.toEdgelist = q.toEdgelist ∧ q'.toFile = q.toFile) ∧
      (∀ v, q'.getVertexData v = q.getVertexData v) ∧
      ∀ k m, ∃ I r r' J J' cs, q.allCliques k = .ok I ∧ q'.allCliques k = .ok I ∧
        q.nexts m I = .ok (r, J, cs) ∧ q'.nexts m I = .ok (r', J', cs) := by
  obtain ⟨q, q2, seen, a1, a2, ⟨b1, b2, b3, b4⟩, c1, c2, c3, c4, c5, c6⟩ :=
    C97_same_answers h (h.loaded.two h'.loaded) (fun G hG => h'.kept G hG) hl E
  have e := acts_shown pg.nedges (ops.map .call) pg' E
  rw [show acts (ops.map .call) (pg'.shown pg.nedges) E = .ok (q2, E, seen) from a2] at e
  cases hq : acts (ops.map .call) pg' E with
  | error f => rw [hq] at e; cases e
  | ok x =>
    obtain ⟨q', E', s'⟩ := x
    rw [hq] at e
    cases e
    refine ⟨q, q', seen, a1, rfl, ⟨b1, b3, b4⟩, c2, c3, fun hm => ?_, c5, fun k m => ?_⟩
    · have : q'.shown pg.nedges = q' := by
        rw [show pg.nedges = q'.nedges from (b2.trans hm.symm)]
        rfl
      rw [this] at c1 c4
      exact ⟨c1, c4⟩
    · obtain ⟨I, r, r', J, J', cs, d1, d2, d3, d4⟩ := c6 k m
      rw [nexts_shown] at d4
      cases hx : q'.nexts m I with
      | error f => rw [hx] at d4; cases d4
      | ok y =>
        obtain ⟨y1, y2, y3⟩ := y
        rw [hx] at d4
        cases d4
        exact ⟨I, r, y1, J, J', cs, d1, d2, d3, hx⟩

/-- **C110** for one compiler, whatever is done next, calls while an iterator is held and
undefined behaviour included: two objects that hold the same graph, and both or neither lost their
buffer in the constructor, differ only in the number of edges they display. -/
theorem C110_same_object (h : Loaded pg n S) (h' : Loaded pg' n S)
    (hc : ∀ G G', pg.G = some G → pg'.G = some G' →
      G'.argLR = G.argLR ∧ G'.dangling = G.dangling) :
    pg' = { pg with nedges := pg'.nedges } ∧
      ∀ xs E, acts xs pg' E =
        (acts xs pg E).map fun x => ({ x.1 with nedges := pg'.nedges }, x.2) := by
  have key : pg' = pg.shown pg'.nedges := by
    obtain ⟨hn, l, c, m, edges, hD, he⟩ := h.made
    obtain ⟨_, l', c', m', edges', hD', he'⟩ := h'.made
    have hce : Graph.ctor l' c' n edges' = Graph.ctor l' c' n edges := by
      unfold Graph.ctor
      rw [hD.clean hn hD']
    unfold PyGraph.loadGraph at he he'
    rw [hce] at he'
    obtain ⟨G, h1, he⟩ := bind_eq_ok.1 he
    obtain ⟨G', h1', he'⟩ := bind_eq_ok.1 he'
    cases he
    cases he'
    obtain ⟨hc1, hc2⟩ := hc G G' rfl rfl
    have : G' = G := by
      by_cases hl : l' = l
      · subst hl
        obtain ⟨d, h2⟩ := ctor_flag (cap' := c') h1
        rw [h2] at h1'
        cases h1'
        have : d = G.dangling := hc2
        subst this
        rfl
      · obtain rfl : l' = !l := by cases l <;> cases l' <;> simp_all
        obtain ⟨d, h2⟩ := ctor_flag (cap' := c') h1
        have e : G' = Graph.fl _ := Graph.ctor_fl l c' n edges _ _ h2 h1'
        rw [e] at hc1
        have : (!G.argLR) = G.argLR := hc1
        cases hb : G.argLR <;> rw [hb] at this <;> cases this
    rw [this]
    rfl
  refine ⟨key, fun xs E => ?_⟩
  have e := acts_shown pg'.nedges xs pg E
  rw [← key] at e
  exact e

end

section

variable {R : Type} [Zero R] [Add R] [Sub R] [NatCast R] [LT R] [LE R] [DecidableLT R]
  [DecidableLE R] {pg pg' : PyNW R} {n : Nat} {S : SimpleGraph Nat} {ω ω' : Nat → R}

/-- **C110** for `NWGraph`, with weights of any arithmetic, so rounding included: two objects that
hold the same graph and the same weights give the same answers. -/
theorem C110_weighted (h : WUsable pg n S ω) (h' : WUsable pg' n S ω')
    (hω : ∀ v, 1 ≤ v → v ≤ n → ω v = ω' v)
    {ops : List (WOp R)} (hl : ∀ op ∈ ops, op.Legal) (E : WEnum R) :
    ∃ q q' seen, wacts (ops.map .call) pg E = .ok (q, E, seen) ∧
      wacts (ops.map .call) pg' E = .ok (q', E, seen) ∧
      (q'.nvert = q.nvert ∧ q'.finishedAll = q.finishedAll ∧
        q'.currentVertex = q.currentVertex) ∧
      q'.toMatrix = q.toMatrix ∧ q'.toAdjList = q.toAdjList ∧
      (q'.nedges = q.nedges → q'.toEdgelist = q.toEdgelist) ∧
      q'.getAllWeights = q.getAllWeights ∧
      (∀ v, q'.getVertexData v = q.getVertexData v) ∧
      ∀ junk W m, ∃ I r r' J J' cs, q.allCliques junk W = .ok I ∧ q'.allCliques junk W = .ok I ∧
        q.nexts m I = .ok (r, J, cs) ∧ q'.nexts m I = .ok (r', J', cs) := by
  obtain ⟨q, q2, seen, a1, a2, ⟨b1, b2, b3, b4⟩, c1, c2, c3, c4, c5, c6⟩ :=
    C97_same_answers_weighted h (h.loaded.two h'.loaded hω) (fun G hG => h'.kept G hG) hl E
  have e := wacts_wshown pg.nedges (ops.map .call) pg' E
  rw [show wacts (ops.map .call) (pg'.shown pg.nedges) E = .ok (q2, E, seen) from a2] at e
  cases hq : wacts (ops.map .call) pg' E with
  | error f => rw [hq] at e; cases e
  | ok x =>
    obtain ⟨q', E', s'⟩ := x
    rw [hq] at e
    cases e
    refine ⟨q, q', seen, a1, rfl, ⟨b1, b3, b4⟩, c2, c3, fun hm => ?_, c4, c5, fun junk W m => ?_⟩
    · have : q'.shown pg.nedges = q' := by
        rw [show pg.nedges = q'.nedges from (b2.trans hm.symm)]
        rfl
      rw [this] at c1
      exact c1
    · obtain ⟨I, r, r', J, J', cs, d1, d2, d3, d4⟩ := c6 junk W m
      rw [nexts_wshown] at d4
      cases hx : q'.nexts m I with
      | error f => rw [hx] at d4; cases d4
      | ok y =>
        obtain ⟨y1, y2, y3⟩ := y
        rw [hx] at d4
        cases d4
        exact ⟨I, r, y1, J, J', cs, d1, d2, d3, hx⟩

end

/-! ## The kite, written down in other ways -/

namespace Sample

/-- The edges of the kite in another order, some of them the other way round and one twice. -/
def rowsB : List (Nat × Nat) :=
  [(5, 4), (4, 3), (3, 1), (2, 1), (4, 2), (3, 2), (4, 1), (1, 4)]

theorem rowsB_same : ofPairs rowsB = ofPairs rows := by
  have h1 : ∀ p ∈ rowsB, (p.1, p.2) ∈ rows ∨ (p.2, p.1) ∈ rows := by decide
  have h2 : ∀ p ∈ rows, (p.1, p.2) ∈ rowsB ∨ (p.2, p.1) ∈ rowsB := by decide
  ext u v
  exact and_congr_right fun _ => ⟨fun h => h.elim (h1 (u, v)) fun h => (h1 (v, u) h).symm,
    fun h => h.elim (h2 (u, v)) fun h => (h2 (v, u) h).symm⟩

def kiteB : PyGraph := get PyGraph.new (PyGraph.fromEdgelist false 200 rowsB 5)

theorem kiteB_eq : PyGraph.fromEdgelist false 200 rowsB 5 = .ok kiteB := by decide +kernel

theorem kept_of {pg : PyGraph} (h : (pg.G.map fun G => G.dangling) = some false) :
    BufferKept pg := by
  intro G hG
  rw [hG] at h
  simpa using h

theorem kiteB_usable : Usable kiteB 5 (ofPairs rows) :=
  ⟨rowsB_same ▸ .edgelist (by decide) (by decide) kiteB_eq, kept_of (by decide +kernel),
    kite_usable.edge⟩

/-- The kite as an array of which only the part above the diagonal is filled in. -/
def kiteA (i j : Nat) : Bool := decide ((i + 1, j + 1) ∈ rows)

def kiteM : PyGraph := get PyGraph.new (PyGraph.fromMatrix true 64 5 5 kiteA)

theorem kiteM_eq : PyGraph.fromMatrix true 64 5 5 kiteA = .ok kiteM := by decide +kernel

theorem kiteA_same : ofMatrix 5 kiteA = ofPairs rows := by
  have h1 : ∀ p ∈ rows, (1 ≤ p.1 ∧ p.1 ≤ 5) ∧ (1 ≤ p.2 ∧ p.2 ≤ 5) := by decide
  have h2 : ∀ u v : Nat, 1 ≤ u → 1 ≤ v → (kiteA (u - 1) (v - 1) = true ↔ (u, v) ∈ rows) := by
    intro u v hu hv
    unfold kiteA
    rw [Nat.sub_add_cancel hu, Nat.sub_add_cancel hv, decide_eq_true_eq]
  ext u v
  refine and_congr_right fun _ => ⟨fun h => ?_, fun h => ?_⟩
  · obtain ⟨hu, hv, h⟩ := h
    rwa [h2 u v hu.1 hv.1, h2 v u hv.1 hu.1] at h
  · have hr : (1 ≤ u ∧ u ≤ 5) ∧ (1 ≤ v ∧ v ≤ 5) :=
      h.elim (h1 (u, v)) fun h => (h1 (v, u) h).symm
    exact ⟨hr.1, hr.2, by rwa [h2 u v hr.1.1 hr.2.1, h2 v u hr.2.1 hr.1.1]⟩

theorem kiteM_usable : Usable kiteM 5 (ofPairs rows) :=
  ⟨kiteA_same ▸ .matrix (by decide) kiteM_eq, kept_of (by decide +kernel), kite_usable.edge⟩

def wkiteB : PyNW Rat := get (PyNW.new (R := Rat))
      (PyNW.fromEdgelist false 200 rowsB 5 [2, 1/2, 3, 1, 10])

theorem wkiteB_eq : PyNW.fromEdgelist false 200 rowsB 5 [2, 1/2, 3, 1, 10] = .ok wkiteB := by
  decide +kernel

theorem wkiteB_usable :
    WUsable wkiteB 5 (ofPairs rows) (nth ([2, 1/2, 3, 1, 10] : List Rat)) :=
  ⟨rowsB_same ▸ .edgelist (by decide) (by decide) wkiteB_eq, wkept (by decide +kernel),
    wkite_usable.edge⟩

end Sample

/-- The hypotheses of `C110_same_answers` hold of three descriptions of the kite; the objects are
not the same. -/
example : Usable Sample.kite 5 (ofPairs Sample.rows) ∧ Usable Sample.kiteB 5 (ofPairs Sample.rows) ∧
    Usable Sample.kiteM 5 (ofPairs Sample.rows) ∧
    Sample.kite.nedges = 7 ∧ Sample.kiteB.nedges = 8 ∧ Sample.kiteM.nedges = 3 :=
  ⟨Sample.kite_usable, Sample.kiteB_usable, Sample.kiteM_usable, by decide +kernel,
    by decide +kernel, by decide +kernel⟩

example : (Sample.kiteB.listCliques 3 >>= fun x => .ok x.2) =
      (Sample.kite.listCliques 3 >>= fun x => .ok x.2) ∧
    (Sample.kiteM.listCliques 2 >>= fun x => .ok x.2) =
      .ok [[2, 3], [2, 4], [3, 4], [4, 5]] := by
  decide +kernel

/-- What does depend on the description: the number of edges displayed, and with it the edge list
that is exported, one row of which is uninitialised memory. -/
example : Sample.kite.toEdgelist ≠ Sample.kiteB.toEdgelist ∧
    (Sample.kiteB.toEdgelist >>= fun rs => .ok rs.getLast?) = .ok (some none) := by
  decide +kernel

/-- The hypothesis of `C110_same_object` holds: kite and array were loaded by one compiler. -/
example : ∀ G G', Sample.kite.G = some G → Sample.kiteM.G = some G' →
    G'.argLR = G.argLR ∧ G'.dangling = G.dangling := by
  intro G G' h h'
  have h1 : (Sample.kite.G.map fun G => (G.argLR, G.dangling)) = some (true, false) := by
    decide +kernel
  have h2 : (Sample.kiteM.G.map fun G => (G.argLR, G.dangling)) = some (true, false) := by
    decide +kernel
  rw [h] at h1
  rw [h'] at h2
  simp only [Option.map_some, Option.some.injEq, Prod.mk.injEq] at h1 h2
  exact ⟨h2.1.trans h1.1.symm, h2.2.trans h1.2.symm⟩

/-- The hypotheses of `C110_weighted` hold. -/
example : WUsable Sample.wkiteB 5 (ofPairs Sample.rows) (nth ([2, 1/2, 3, 1, 10] : List Rat)) ∧
    (Sample.wkiteB.getMaxClique Sample.byW (fun _ => 7) {} >>= fun x => .ok x.2) =
      .ok (.ret [4, 5]) :=
  ⟨Sample.wkiteB_usable, by decide +kernel⟩

end CM
