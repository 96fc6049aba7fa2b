import Verif.Lemmas.WRecompile
import Verif.Lemmas.NWNext
import Verif.Props.Weighted

/-!
# C97 for weighted graphs

As in Props/Compilers: the two `load_memory` calls of `nw_dfs.cpp:31-32` and
`nw_enumerate.cpp:28-29` may be evaluated in either order.  Weights are numbers of any arithmetic,
so the claim covers `double` with its rounding.
-/

namespace CM

open Spec NWG

section

variable {R : Type} [Zero R] [Add R] [Sub R] [NatCast R] [LT R] [LE R] [DecidableLT R]
  [DecidableLE R] {pg pg' : PyNW R} {n : Nat} {S : SimpleGraph Nat} {ω : Nat → R}

/-- **C97** for `NWGraph`: the same loading call in two builds of the library, followed by the
same calls, gives the same answers to all of them, and then the same export, the same weights, the
same printed state and the same answers to any number `m` of `next()` calls on a new
`all_cliques(W)` iterator. -/
theorem C97_same_answers_weighted (h : WUsable pg n S ω) (hr : WRecompiled pg pg')
    (hk : ∀ H, pg'.G = some H → H.g.dangling = false)
    {ops : List (WOp R)} (hl : ∀ op ∈ ops, op.Legal) (E : WEnum R) :
    ∃ q q' seen, wacts (ops.map .call) pg E = .ok (q, E, seen) ∧
      wacts (ops.map .call) pg' E = .ok (q', E, seen) ∧
      (q'.nvert = q.nvert ∧ q'.nedges = q.nedges ∧ q'.finishedAll = q.finishedAll ∧
        q'.currentVertex = q.currentVertex) ∧
      q'.toEdgelist = q.toEdgelist ∧ q'.toMatrix = q.toMatrix ∧ q'.toAdjList = q.toAdjList ∧
      q'.getAllWeights = q.getAllWeights ∧
      (∀ v, q'.getVertexData v = q.getVertexData v) ∧
      ∀ junk W m, ∃ I r r' J J' cs, q.allCliques junk W = .ok I ∧ q'.allCliques junk W = .ok I ∧
        q.nexts m I = .ok (r, J, cs) ∧ q'.nexts m I = .ok (r', J', cs) := by
  obtain ⟨H, hF⟩ := AW.wusable_fresh h
  have hP := hF.pyok
  obtain ⟨q, H1, ss, a1, a2, a3⟩ := wcalls_two ops hP hl E
  have iter : ∀ (p : PyNW R) (A : NWG R), WPyOk p n S ω A → ∀ junk W, ∃ p1 I cs,
      p.allCliques junk W = .ok I ∧ p.listCliques junk W = .ok (p1, cs) ∧
      ∀ m, ∃ r J, p.nexts m I = .ok (r, J, (cs.map some ++ List.replicate m none).take m) := by
    intro p A hp junk W
    obtain ⟨fuel, I, H', E', cs, b1, b2, b3, b4, b5, _⟩ := AW.wlistCliques_spec hp junk W
    exact ⟨_, I, cs, b1, b5, fun m =>
      wnexts_of_consume fuel b2 (wnext_end (pg := { p with G := some H' }) rfl b4 b3) m⟩
  rcases hr.cases h.kept hk with rfl | rfl
  · refine ⟨q, q, ss, a1, a1, ⟨rfl, rfl, rfl, rfl⟩, rfl, rfl, rfl, rfl, fun _ => rfl,
      fun junk W m => ?_⟩
    obtain ⟨p1, I, cs, c1, _, c3⟩ := iter q H1 a3 junk W
    obtain ⟨r, J, c4⟩ := c3 m
    exact ⟨_, _, _, _, _, _, c1, c1, c4, c4⟩
  · have el : q.fl.checkLoaded = some H1.fl := a3.fl.loaded
    refine ⟨q, q.fl, ss, a1, a2, ⟨rfl, rfl, rfl, rfl⟩, ?_, ?_, ?_, ?_, fun v => ?_,
      fun junk W m => ?_⟩
    · unfold PyNW.toEdgelist; rw [el, a3.loaded]; rfl
    · unfold PyNW.toMatrix; rw [el, a3.loaded]; rfl
    · unfold PyNW.toAdjList; rw [el, a3.loaded]; rfl
    · unfold PyNW.getAllWeights; rw [el, a3.loaded]; rfl
    · unfold PyNW.getVertexData; rw [PyNW.fl_some a3.g, a3.g]; rfl
    · obtain ⟨p1, I, cs, c1, c2, c3⟩ := iter q H1 a3 junk W
      obtain ⟨p2, I', ds, d1, d2, d3⟩ := iter q.fl H1.fl a3.fl junk W
      have := wlistCliques_rel a3 junk W _ _ c2 d2
      cases this
      have hI : I' = I := by
        unfold PyNW.allCliques at c1 d1
        rw [a3.loaded] at c1
        rw [el] at d1
        cases c1
        cases d1
        rfl
      subst hI
      obtain ⟨r, J, c4⟩ := c3 m
      obtain ⟨r', J', d4⟩ := d3 m
      exact ⟨_, _, _, _, _, _, c1, d1, c4, d4⟩

end

namespace Sample

/-- The weighted kite, compiled by a compiler that evaluates arguments from right to left. -/
def wkiteR : PyNW Rat := get (PyNW.new (R := Rat))
      (PyNW.fromEdgelist false 200 rows 5 [2, 1/2, 3, 1, 10])

theorem wkiteR_eq : PyNW.fromEdgelist false 200 rows 5 [2, 1/2, 3, 1, 10] = .ok wkiteR := by
  decide +kernel

end Sample

/-- The weighted kite in two builds: the hypotheses hold and the two objects differ. -/
example : WUsable Sample.wkite 5 (ofPairs Sample.rows) (nth ([2, 1/2, 3, 1, 10] : List Rat)) ∧
    WRecompiled Sample.wkite Sample.wkiteR ∧
    (∀ H, Sample.wkiteR.G = some H → H.g.dangling = false) ∧ Sample.wkite ≠ Sample.wkiteR := by
  refine ⟨Sample.wkite_usable, .edgelist Sample.wkite_eq Sample.wkiteR_eq,
    Sample.wkept (by decide +kernel), ?_⟩
  intro h
  have h1 : (Sample.wkite.G.map fun H => H.g.argLR) = some true := by decide +kernel
  have h2 : (Sample.wkiteR.G.map fun H => H.g.argLR) = some false := by decide +kernel
  rw [h, h2] at h1
  cases h1

example : (Sample.wkite.listCliques (fun _ => 7) (11/2) >>= fun x => .ok x.2) =
      (Sample.wkiteR.listCliques (fun _ => 7) (11/2) >>= fun x => .ok x.2) ∧
    (Sample.wkiteR.getMaxClique Sample.byW (fun _ => 7) {} >>= fun x => .ok x.2) =
      .ok (.ret [4, 5]) := by
  refine ⟨?_, ?_⟩ <;> decide +kernel

end CM
