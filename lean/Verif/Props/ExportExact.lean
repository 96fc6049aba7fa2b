import Verif.Lemmas.EdgeCountExact
import Verif.Props.Loading
import Verif.Props.WeightedObject

/-!
# C06, C70: exactly when `n_edges` is the number of edges, and what `to_edgelist()` does otherwise

`from_edgelist` never counts too few edges and `from_matrix` never too many, so the export of the
one is always complete, with uninitialised rows after the edges, and the export of the other is
right or writes outside its array.
-/

namespace CM

open Spec Graph NWG

variable {n : Nat} {S : SimpleGraph Nat}

/-- `es` is the list of all edges of the graph, each once, smaller endpoint first, in dictionary
order. -/
def ListsEdges (S : SimpleGraph Nat) (es : List (Nat × Nat)) : Prop :=
  es.Pairwise lexLess ∧ ∀ e, e ∈ es ↔ e.1 < e.2 ∧ S.Adj e.1 e.2

/-- The rows are loop-free and name no edge twice, in whichever orientation. -/
def Distinct (rows : List (Nat × Nat)) : Prop :=
  (∀ r ∈ rows, r.1 ≠ r.2) ∧ (rows.map fun r => (min r.1 r.2, max r.1 r.2)).Nodup

/-- **C05/C06**: what `to_edgelist()` does on any loaded graph.  The array has `n_edges` rows;
the edges are written to the first of them; the other rows are uninitialised, and if there are
too few rows, memory outside of the array is written. -/
theorem C06_export {pg : PyGraph} (h : Loaded pg n S) (h0 : n ≠ 0) :
    ∃ es, ListsEdges S es ∧ es.length = edgeCount S n ∧
      pg.toEdgelist = if edgeCount S n ≤ pg.nedges then
        .ok (es.map some ++ List.replicate (pg.nedges - edgeCount S n) none) else .error .ub := by
  obtain ⟨hn, cap, m, G, hL⟩ := h.as
  obtain ⟨es, h1, h2, h3⟩ := toEdgelist_spec hL.holds h0
  have hc := edgeCount_list hL.of.rng (lexLt_nodup h1) h2
  exact ⟨es, ⟨h1, h2⟩, hc, by rw [h3, hc]⟩

/-- **C06**: after `from_edgelist`, `n_edges` is the number of edges exactly if the rows are
loop-free and distinct; and `to_edgelist()` lists the edges in any case, followed by
uninitialised rows for the rows that were given in excess. -/
theorem C06_edgelist_exactly {argLR : Bool} {cap : Nat} {rows : List (Nat × Nat)} {pg : PyGraph}
    (hn : n < 2 ^ 31) (hlen : rows.length < 2 ^ 56)
    (h : PyGraph.fromEdgelist argLR cap rows n = .ok pg) :
    (pg.nedges = edgeCount (ofPairs rows) n ↔ Distinct rows) ∧
      (n ≠ 0 → ∃ es, ListsEdges (ofPairs rows) es ∧
        pg.toEdgelist = .ok (es.map some ++ List.replicate (rows.length - es.length) none)) := by
  obtain ⟨h1, h2⟩ := fromEdgelist_spec argLR cap (rows := rows) hn hlen
  by_cases hv : ValidRows rows n
  · obtain ⟨pg', G, h3, h4⟩ := h1 hv
    rw [h] at h3; cases h3
    have hm : pg.nedges = rows.length := by rw [h4.eq]
    obtain ⟨c1, c2⟩ := rows_count_iff hv
    rw [hm]
    refine ⟨c2, fun h0 => ?_⟩
    obtain ⟨es, a1, a2, a3⟩ := C06_export (.edgelist hn hlen h) h0
    exact ⟨es, a1, by rw [a3, hm, if_pos c1, a2]⟩
  · rw [h2 hv] at h; cases h

/-- **C06**: after `from_matrix`, `n_edges` is the number of edges exactly if the matrix is
symmetric; if it is not, `to_edgelist()` writes outside its array. -/
theorem C06_matrix_exactly {argLR : Bool} {cap : Nat} {A : Nat → Nat → Bool} {pg : PyGraph}
    (hn : n < 2 ^ 28) (h : PyGraph.fromMatrix argLR cap n n A = .ok pg) :
    (pg.nedges = edgeCount (ofMatrix n A) n ↔ ∀ i j, i < n → j < n → A i j = A j i) ∧
      ((∃ i j, i < n ∧ j < n ∧ A i j ≠ A j i) → pg.toEdgelist = .error .ub) := by
  obtain ⟨pg', G, h3, h4⟩ := fromMatrix_spec argLR cap (A := A) hn
  rw [h] at h3; cases h3
  have hm : pg.nedges = offDiag n A / 2 := by rw [h4.eq]
  obtain ⟨c1, c2⟩ := offDiag_count_iff (n := n) (A := A)
  rw [hm]
  refine ⟨c2, ?_⟩
  rintro ⟨i, j, hi, hj, hne⟩
  obtain ⟨es, a1, a2, a3⟩ := C06_export (.matrix hn h) (by omega)
  rw [a3, hm, if_neg]
  intro hle
  exact hne (c2.1 (Nat.le_antisymm c1 hle) i j hi hj)

/-- Rows with a loop and a repetition; a matrix with one marked cell. -/
example : ¬ Distinct [(1, 2), (2, 2)] ∧ ¬ Distinct [(1, 2), (2, 1)] ∧ Distinct Sample.rows ∧
    (PyGraph.fromEdgelist true 64 [(1, 2), (2, 2), (3, 2)] 3 >>= PyGraph.toEdgelist) =
      .ok [some (1, 2), some (2, 3), none] := by
  unfold Distinct
  decide +kernel

/-! ## Weighted graphs -/

section
variable {R : Type} [Zero R] [Add R] [Sub R] [NatCast R] [LT R] [LE R] [DecidableLT R]
  [DecidableLE R] {ω : Nat → R}

/-- **C47/C70**: what `to_edgelist()` does on any loaded weighted graph. -/
theorem C70_export {pg : PyNW R} (h : WLoaded pg n S ω) (h0 : n ≠ 0) :
    ∃ es, ListsEdges S es ∧ es.length = edgeCount S n ∧
      pg.toEdgelist = if edgeCount S n ≤ pg.nedges then
        .ok (es.map some ++ List.replicate (pg.nedges - edgeCount S n) none) else .error .ub := by
  obtain ⟨hn, cap, m, H, hL⟩ := AW.wloaded_as h
  let pg' : PyGraph := {
    G := some H.g
    finishedAll := false
    nvert := n
    nedges := pg.nedges
    currentVertex := 0 }
  have hH : Holds pg' n S H.g := ⟨rfl, rfl, hL.str, hL.of⟩
  have hw : pg.checkLoaded = some H := by
    unfold PyNW.checkLoaded
    rw [hL.eq]
    simp only
    rw [if_neg h0]
  obtain ⟨es, h1, h2, h3⟩ := toEdgelist_spec hH h0
  have hc := edgeCount_list hL.of.rng (lexLt_nodup h1) h2
  refine ⟨es, ⟨h1, h2⟩, hc, ?_⟩
  have e3 : pg.toEdgelist = pg'.toEdgelist := by
    unfold PyNW.toEdgelist PyGraph.toEdgelist
    rw [hw, hH.loaded h0]
  rw [e3, h3, hc]

/-- **C70**: as `C06_edgelist_exactly`. -/
theorem C70_edgelist_exactly {argLR : Bool} {cap : Nat} {rows : List (Nat × Nat)} {wts : List R}
    {pg : PyNW R} (hn : n < 2 ^ 31) (hlen : rows.length < 2 ^ 56)
    (h : PyNW.fromEdgelist argLR cap rows n wts = .ok pg) :
    (pg.nedges = edgeCount (ofPairs rows) n ↔ Distinct rows) ∧
      (n ≠ 0 → ∃ es, ListsEdges (ofPairs rows) es ∧
        pg.toEdgelist = .ok (es.map some ++ List.replicate (rows.length - es.length) none)) := by
  obtain ⟨h1, h2⟩ := AW.wfromEdgelist_spec argLR cap (rows := rows) (wts := wts) hn hlen
  by_cases hv : ValidRows rows n ∧ wts.length = n
  · obtain ⟨pg', H, h3, h4⟩ := h1 hv
    rw [h] at h3; cases h3
    have hm : pg.nedges = rows.length := by rw [h4.eq]
    obtain ⟨c1, c2⟩ := rows_count_iff hv.1
    rw [hm]
    refine ⟨c2, fun h0 => ?_⟩
    obtain ⟨es, a1, a2, a3⟩ := C70_export (.edgelist hn hlen h) h0
    exact ⟨es, a1, by rw [a3, hm, if_pos c1, a2]⟩
  · rw [h2 hv] at h; cases h

/-- **C70**: as `C06_matrix_exactly`. -/
theorem C70_matrix_exactly {argLR : Bool} {cap : Nat} {A : Nat → Nat → Bool} {wts : List R}
    {pg : PyNW R} (hn : n < 2 ^ 28) (h : PyNW.fromMatrix argLR cap n n A wts = .ok pg) :
    (pg.nedges = edgeCount (ofMatrix n A) n ↔ ∀ i j, i < n → j < n → A i j = A j i) ∧
      ((∃ i j, i < n ∧ j < n ∧ A i j ≠ A j i) → pg.toEdgelist = .error .ub) := by
  obtain ⟨h1, h2⟩ := AW.wfromMatrix_spec argLR cap (A := A) (wts := wts) hn
  by_cases hw : wts.length = n
  · obtain ⟨pg', H, h3, h4⟩ := h1 hw
    rw [h] at h3; cases h3
    have hm : pg.nedges = offDiag n A / 2 := by rw [h4.eq]
    obtain ⟨c1, c2⟩ := offDiag_count_iff (n := n) (A := A)
    rw [hm]
    refine ⟨c2, ?_⟩
    rintro ⟨i, j, hi, hj, hne⟩
    obtain ⟨es, a1, a2, a3⟩ := C70_export (.matrix hn h) (by omega)
    rw [a3, hm, if_neg]
    intro hle
    exact hne (c2.1 (Nat.le_antisymm c1 hle) i j hi hj)
  · rw [h2 hw] at h; cases h

end

example : (PyNW.fromEdgelist (R := Rat) true 64 [(1, 2), (2, 2), (3, 2)] 3 [1, 1, 1] >>=
    PyNW.toEdgelist) = .ok [some (1, 2), some (2, 3), none] ∧
    (PyNW.fromMatrix (R := Rat) true 64 3 3 (fun i j => i == 0 && j == 1) [1, 1, 1] >>=
    PyNW.toEdgelist) = .error .ub := by
  decide +kernel

end CM
