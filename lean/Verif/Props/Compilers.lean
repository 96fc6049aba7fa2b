import Verif.Lemmas.Recompile
import Verif.Props.Sample
import Verif.Model.File

/-!
# C97: the answers do not depend on the compiler

The C++ standard leaves open in which order the two `load_memory` calls in
`SearchState x(vertices[cur], load_memory(req), load_memory(req))` are evaluated
(dfs_stack.cpp:47-48, enumerate.cpp:45-46), and how much room `push_back` leaves in a vector.
The searches hand out and clear those two pieces of memory by hand, one above the other, so a
difference could show in the results.  It does not.
-/

namespace CM

open Spec

variable {n : Nat} {S : SimpleGraph Nat} {pg pg' : PyGraph}

/-- **C97**: the same loading call in two builds of the library, followed by the same calls, gives
the same answers to all of them, and then the same export, the same printed state and the same
answers to any number `m` of `next()` calls on a new `all_cliques(k)` iterator. -/
theorem C97_same_answers (h : Usable pg n S) (hr : Recompiled pg pg') (hk : BufferKept pg')
    {ops : List Op} (hl : ∀ op ∈ ops, op.Legal) (E : Enum) :
    ∃ q q' seen, acts (ops.map .call) pg E = .ok (q, E, seen) ∧
      acts (ops.map .call) pg' E = .ok (q', E, seen) ∧
      (q'.nvert = q.nvert ∧ q'.nedges = q.nedges ∧ q'.finishedAll = q.finishedAll ∧
        q'.currentVertex = q.currentVertex) ∧
      q'.toEdgelist = q.toEdgelist ∧ q'.toMatrix = q.toMatrix ∧ q'.toAdjList = q.toAdjList ∧
      q'.toFile = q.toFile ∧ (∀ v, q'.getVertexData v = q.getVertexData v) ∧
      ∀ k m, ∃ I r r' J J' cs, q.allCliques k = .ok I ∧ q'.allCliques k = .ok I ∧
        q.nexts m I = .ok (r, J, cs) ∧ q'.nexts m I = .ok (r', J', cs) := by
  obtain ⟨G, hF⟩ := h.fresh
  have hP := hF.pyok
  obtain ⟨q, G1, ss, a1, a2, a3⟩ := calls_two ops hP hl E
  have iter : ∀ (p : PyGraph) (A : Graph), PyOk p n S A → ∀ k, ∃ p1 cs,
      p.allCliques k = .ok (Enum.new k) ∧ p.listCliques k = .ok (p1, cs) ∧
      ∀ m, ∃ r J, p.nexts m (Enum.new k) = .ok (r, J, (cs.map some ++ List.replicate m none).take m) := by
    intro p A hp k
    obtain ⟨fuel, G2, E', cs, b1, b2, b3, b4, b5⟩ := listCliques_end hp k
    exact ⟨_, cs, b1, b3, fun m =>
      nexts_of_consume fuel b2 (next_end (pg := { p with G := some G2 }) rfl b5 b4) m⟩
  rcases hr.cases h.kept hk with rfl | rfl
  · refine ⟨q, q, ss, a1, a1, ⟨rfl, rfl, rfl, rfl⟩, rfl, rfl, rfl, rfl, fun _ => rfl,
      fun k m => ?_⟩
    obtain ⟨p1, cs, c1, _, c3⟩ := iter q G1 a3 k
    obtain ⟨r, J, c4⟩ := c3 m
    exact ⟨_, _, _, _, _, _, c1, c1, c4, c4⟩
  · have eg := PyGraph.fl_some a3.g
    have g := a3.g
    have el : q.fl.checkLoaded = some G1.fl := a3.fl.loaded
    refine ⟨q, q.fl, ss, a1, a2, ⟨rfl, rfl, rfl, rfl⟩, ?_, ?_, ?_, ?_, fun v => ?_,
      fun k m => ?_⟩
    · unfold PyGraph.toEdgelist; rw [el, a3.loaded]; rfl
    · unfold PyGraph.toMatrix; rw [el, a3.loaded]; rfl
    · unfold PyGraph.toAdjList; rw [el, a3.loaded]; rfl
    · unfold PyGraph.toFile; rw [el, a3.loaded]; rfl
    · unfold PyGraph.getVertexData; rw [eg, g]; rfl
    · obtain ⟨p1, cs, c1, c2, c3⟩ := iter q G1 a3 k
      obtain ⟨p2, ds, d1, d2, d3⟩ := iter q.fl G1.fl a3.fl k
      have := listCliques_rel a3 k _ _ c2 d2
      cases this
      obtain ⟨r, J, c4⟩ := c3 m
      obtain ⟨r', J', d4⟩ := d3 m
      exact ⟨_, _, _, _, _, _, c1, d1, c4, d4⟩

namespace Sample

/-- The kite, compiled by a compiler that evaluates arguments from right to left. -/
def kiteR : PyGraph := get PyGraph.new (PyGraph.fromEdgelist false 200 rows 5)

theorem kiteR_eq : PyGraph.fromEdgelist false 200 rows 5 = .ok kiteR := by decide +kernel

end Sample

/-- The kite in two builds: the hypotheses hold and the two objects differ. -/
example : Usable Sample.kite 5 (ofPairs Sample.rows) ∧ Recompiled Sample.kite Sample.kiteR ∧
    BufferKept Sample.kiteR ∧ Sample.kite ≠ Sample.kiteR := by
  refine ⟨Sample.kite_usable, .edgelist Sample.kite_eq Sample.kiteR_eq, ?_, ?_⟩
  · intro G hG
    have : (Sample.kiteR.G.map fun G => G.dangling) = some false := by decide +kernel
    rw [hG] at this
    simpa using this
  · intro h
    have h1 : (Sample.kite.G.map fun G => G.argLR) = some true := by decide +kernel
    have h2 : (Sample.kiteR.G.map fun G => G.argLR) = some false := by decide +kernel
    rw [h, h2] at h1
    cases h1

example : (Sample.kite.getMaxClique id {} >>= fun x => .ok x.2) = .ok (.ret [1, 2, 3, 4]) ∧
    (Sample.kiteR.getMaxClique id {} >>= fun x => .ok x.2) = .ok (.ret [1, 2, 3, 4]) ∧
    (Sample.kiteR.listCliques 2 >>= fun x => .ok x.2) =
      .ok [[2, 3], [2, 4], [3, 4], [4, 5]] := by
  decide +kernel

end CM
