import Verif.Model.Arrays
import Verif.Props.Loading
import Verif.Props.Weighted

/-!
# C76: edge lists of any shape
-/

namespace CM

open Spec Sample

namespace NdArray

/-- Entry `a[i, j]` of an array with two dimensions. -/
def entry (a : NdArray) (i j : Nat) : Nat := a.data.getD (i * a.shape.getD 1 0 + j) 0

/-- The pairs `(a[i, 0], a[i, 1])`. -/
def pairs (a : NdArray) : List (Nat × Nat) :=
  (List.range (a.shape.getD 0 0)).map fun i => (a.entry i 0, a.entry i 1)

end NdArray

/-- With two or more columns the reads stay inside the array. -/
theorem readEdges_eq {n e c : Nat} {data : List Nat} (hl : data.length = e * c) (hc : 2 ≤ c) :
    readEdges n e c data =
      ((List.range e).map fun i => (data.getD (i * c) 0, data.getD (i * c + 1) 0)).foldlM
        (fun (s : Edges × Nat) (r : Nat × Nat) =>
          if r.1 > n ∨ r.2 > n then .error .throw
          else if r.1 = 0 ∨ r.2 = 0 then .error .throw
          else .ok (s.1 ++ [(r.1, r.2), (r.2, r.1)], s.2 + 1)) (PyGraph.selfLoops n, 0) := by
  unfold readEdges forRange
  rw [Nat.sub_zero]
  generalize (PyGraph.selfLoops n, 0) = s
  have key : ∀ (k i : Nat) (s : Edges × Nat), i + k ≤ e →
      forN k i (fun i (s : Edges × Nat) => do
        let v1 ← rd data (i * c)
        let v2 ← rd data (i * c + 1)
        if v1 > n ∨ v2 > n then .error .throw
        else if v1 = 0 ∨ v2 = 0 then .error .throw
        else .ok (s.1 ++ [(v1, v2), (v2, v1)], s.2 + 1)) s =
      ((List.range' i k).map fun i => (data.getD (i * c) 0, data.getD (i * c + 1) 0)).foldlM
        (fun (s : Edges × Nat) (r : Nat × Nat) =>
          if r.1 > n ∨ r.2 > n then .error .throw
          else if r.1 = 0 ∨ r.2 = 0 then .error .throw
          else .ok (s.1 ++ [(r.1, r.2), (r.2, r.1)], s.2 + 1)) s := by
    intro k
    induction k with
    | zero => intro i s _; rfl
    | succ k ih =>
      intro i s h
      have hi : i * c + 1 < data.length := by
        rw [hl]
        have : (i + 1) * c ≤ e * c := Nat.mul_le_mul_right c (by omega)
        rw [Nat.add_mul] at this
        omega
      have h1 : rd data (i * c) = .ok (data.getD (i * c) 0) := by
        unfold rd
        rw [List.getD_eq_getElem?_getD, List.getElem?_eq_getElem (by omega)]
        rfl
      have h2 : rd data (i * c + 1) = .ok (data.getD (i * c + 1) 0) := by
        unfold rd
        rw [List.getD_eq_getElem?_getD, List.getElem?_eq_getElem hi]
        rfl
      rw [List.range'_succ, List.map_cons, List.foldlM_cons]
      unfold forN
      simp only [h1, h2, ok_bind]
      split_ifs with h3 h4
      · rfl
      · rfl
      · exact ih (i + 1) _ (by omega)
  rw [key e 0 s (by omega), List.range_eq_range']

/-- An array with fewer than two columns is read beyond its end, unless a vertex is refused
before. -/
theorem readEdges_narrow {n e c : Nat} {data : List Nat} (hl : data.length = e * c) (hc : c < 2)
    (he : 0 < e) (hv : ∀ x ∈ data, 1 ≤ x ∧ x ≤ n) : readEdges n e c data = .error .ub := by
  unfold readEdges forRange
  rw [Nat.sub_zero]
  generalize (PyGraph.selfLoops n, 0) = s
  have key : ∀ (k i : Nat) (s : Edges × Nat), 0 < k → i + k = e →
      forN k i (fun i (s : Edges × Nat) => do
        let v1 ← rd data (i * c)
        let v2 ← rd data (i * c + 1)
        if v1 > n ∨ v2 > n then .error .throw
        else if v1 = 0 ∨ v2 = 0 then .error .throw
        else .ok (s.1 ++ [(v1, v2), (v2, v1)], s.2 + 1)) s = .error .ub := by
    intro k
    induction k with
    | zero => intro i s h; omega
    | succ k ih =>
      intro i s _ h
      unfold forN
      have hrd : ∀ j, (data.length ≤ j ∧ rd data j = .error .ub) ∨
          (j < data.length ∧ ∃ x, rd data j = .ok x ∧ 1 ≤ x ∧ x ≤ n) := by
        intro j
        by_cases hj : j < data.length
        · refine Or.inr ⟨hj, data[j], ?_, hv _ (List.getElem_mem hj)⟩
          unfold rd
          rw [List.getElem?_eq_getElem hj]
        · refine Or.inl ⟨by omega, ?_⟩
          unfold rd
          rw [List.getElem?_eq_none (by omega)]
      rcases hrd (i * c) with ⟨_, h1⟩ | ⟨_, x, h1, h1'⟩
      · simp only [h1, error_bind]
      · rcases hrd (i * c + 1) with ⟨_, h2⟩ | ⟨h3, y, h2, h2'⟩
        · simp only [h1, h2, ok_bind, error_bind]
        · simp only [h1, h2, ok_bind]
          rw [if_neg (by omega), if_neg (by omega)]
          refine ih (i + 1) _ ?_ (by omega)
          rcases Nat.eq_zero_or_pos k with rfl | hk
          · exfalso
            have : c = 0 ∨ c = 1 := by omega
            rcases this with rfl | rfl
            · omega
            · omega
          · exact hk
  exact key e 0 s he (by omega)

/-- What `fromArray` does with arrays whose number of dimensions is not two, and with two or more
columns. -/
theorem fromArray_eq (argLR : Bool) (cap : Nat) (a : NdArray) (n : Nat) :
    (a.shape.length ≠ 2 → PyGraph.fromArray argLR cap a n = .error .throw) ∧
    ∀ e c, a.shape = [e, c] → 2 ≤ c →
      PyGraph.fromArray argLR cap a n = PyGraph.fromEdgelist argLR cap a.pairs n := by
  obtain ⟨shape, data, full⟩ := a
  refine ⟨fun h => ?_, ?_⟩
  · unfold PyGraph.fromArray
    rcases shape with _ | ⟨_, _ | ⟨_, _ | ⟨_, _⟩⟩⟩
    · rfl
    · rfl
    · exact absurd rfl h
    · rfl
  · rintro e c rfl hc
    unfold PyGraph.fromArray PyGraph.fromEdgelist
    simp only
    rw [readEdges_eq (by simpa using full) hc]
    rfl

/-- **C76**, as far as it is true.  The full property: `Graph.from_edgelist` loads the graph of
the pairs in the first two columns or raises, for arrays of any shape.  Proved: an array whose
number of dimensions is not two is refused; an array with two or more columns is loaded as said if
all entries in its first two columns are vertices, and refused otherwise.  Missing, because false (`C76_refuted`): arrays
with fewer than two columns. -/
theorem C76_array_partial (argLR : Bool) (cap : Nat) (a : NdArray) {n : Nat} (hn : n < 2 ^ 31) :
    (a.shape.length ≠ 2 → PyGraph.fromArray argLR cap a n = .error .throw) ∧
    ∀ e c, a.shape = [e, c] → 2 ≤ c → e < 2 ^ 31 →
      (¬ (∀ i, i < e → (1 ≤ a.entry i 0 ∧ a.entry i 0 ≤ n) ∧ 1 ≤ a.entry i 1 ∧ a.entry i 1 ≤ n) →
        PyGraph.fromArray argLR cap a n = .error .throw) ∧
      ((∀ i, i < e → (1 ≤ a.entry i 0 ∧ a.entry i 0 ≤ n) ∧ 1 ≤ a.entry i 1 ∧ a.entry i 1 ≤ n) →
        ∃ pg, PyGraph.fromArray argLR cap a n = .ok pg ∧ pg.nvert = n ∧
          ∀ v, v ≤ n → ∃ l, pg.getVertexData v = .ok l ∧ l.Pairwise (· < ·) ∧
            ∀ u, u ∈ l ↔ u ≠ v ∧ ∃ i, i < e ∧
              ((a.entry i 0 = u ∧ a.entry i 1 = v) ∨ (a.entry i 0 = v ∧ a.entry i 1 = u))) := by
  refine ⟨(fromArray_eq argLR cap a n).1, fun e c hs hc he => ?_⟩
  rw [(fromArray_eq argLR cap a n).2 e c hs hc]
  have hp : ∀ r, r ∈ a.pairs ↔ ∃ i, i < e ∧ a.entry i 0 = r.1 ∧ a.entry i 1 = r.2 := by
    intro r
    unfold NdArray.pairs
    rw [hs]
    simp only [List.mem_map, List.mem_range, List.getD_cons_zero, Prod.ext_iff]
  have hlen : a.pairs.length < 2 ^ 56 := by
    unfold NdArray.pairs
    rw [hs]
    simp only [List.length_map, List.length_range, List.getD_cons_zero]
    omega
  obtain ⟨h1, h2, h3⟩ := C02_from_edgelist argLR cap (rows := a.pairs) hn hlen
  have hall : (∀ r ∈ a.pairs, (1 ≤ r.1 ∧ r.1 ≤ n) ∧ (1 ≤ r.2 ∧ r.2 ≤ n)) ↔
      ∀ i, i < e → (1 ≤ a.entry i 0 ∧ a.entry i 0 ≤ n) ∧ 1 ≤ a.entry i 1 ∧ a.entry i 1 ≤ n := by
    constructor
    · exact fun h i hi => h (a.entry i 0, a.entry i 1) ((hp _).2 ⟨i, hi, rfl, rfl⟩)
    · intro h r hr
      obtain ⟨i, hi, e1, e2⟩ := (hp r).1 hr
      rw [← e1, ← e2]
      exact h i hi
  refine ⟨fun h => h2 (fun h' => h (hall.1 h')), fun h => ?_⟩
  obtain ⟨pg, hpg⟩ := h1.2 (hall.2 h)
  obtain ⟨e1, e2⟩ := h3 pg hpg
  refine ⟨pg, hpg, e1, fun v hv => ?_⟩
  obtain ⟨l, l1, l2, l3⟩ := e2 v hv
  refine ⟨l, l1, l2, fun u => ?_⟩
  rw [l3, hp, hp]
  constructor
  · rintro ⟨h0, ⟨i, hi, h4⟩ | ⟨i, hi, h4⟩⟩
    · exact ⟨h0, i, hi, Or.inl h4⟩
    · exact ⟨h0, i, hi, Or.inr h4⟩
  · rintro ⟨h0, i, hi, h4 | h4⟩
    · exact ⟨h0, Or.inl ⟨i, hi, h4⟩⟩
    · exact ⟨h0, Or.inr ⟨i, hi, h4⟩⟩

/-- **C76** for `NWGraph.from_edgelist`, with the same limitation: what it does with the pairs is
said by `C34_from_edgelist`. -/
theorem C76_weighted_array_partial {R : Type} [Zero R] [Add R] [Sub R] [NatCast R] [LT R] [LE R]
    [DecidableLT R] [DecidableLE R] (argLR : Bool) (cap : Nat) (a : NdArray) (n : Nat)
    (wts : List R) :
    (a.shape.length ≠ 2 → PyNW.fromArray argLR cap a n wts = .error .throw) ∧
    ∀ e c, a.shape = [e, c] → 2 ≤ c →
      PyNW.fromArray argLR cap a n wts = PyNW.fromEdgelist argLR cap a.pairs n wts := by
  obtain ⟨shape, data, full⟩ := a
  refine ⟨fun h => ?_, ?_⟩
  · unfold PyNW.fromArray
    rcases shape with _ | ⟨_, _ | ⟨_, _ | ⟨_, _⟩⟩⟩
    · rfl
    · rfl
    · exact absurd rfl h
    · rfl
  · rintro e c rfl hc
    unfold PyNW.fromArray PyNW.fromEdgelist
    simp only
    rw [readEdges_eq (by simpa using full) hc]
    rfl

/-- **C76** is false: an array with one column or none, and with a row, is read beyond its end
whenever its entries are vertices. -/
theorem C76_refuted (argLR : Bool) (cap : Nat) {a : NdArray} {n e c : Nat}
    (hs : a.shape = [e, c]) (hc : c < 2) (he : 0 < e) (hv : ∀ x ∈ a.data, 1 ≤ x ∧ x ≤ n) :
    PyGraph.fromArray argLR cap a n = .error .ub := by
  obtain ⟨shape, data, full⟩ := a
  subst hs
  unfold PyGraph.fromArray
  simp only
  rw [readEdges_narrow (by simpa using full) hc he hv]
  rfl

/-- Two edges with labels in a third column; and the vertices of two edges in one column. -/
example :
    (PyGraph.fromArray true 64 ⟨[2, 3], [1, 2, 9, 2, 3, 7], rfl⟩ 3 >>= fun pg => pg.toEdgelist) =
      .ok [some (1, 2), some (2, 3)] ∧
    NdArray.pairs ⟨[2, 3], [1, 2, 9, 2, 3, 7], rfl⟩ = [(1, 2), (2, 3)] ∧
    (∀ x ∈ [1, 2, 2, 3], 1 ≤ x ∧ x ≤ 3) ∧
    (PyGraph.fromArray true 64 ⟨[4, 1], [1, 2, 2, 3], rfl⟩ 3 >>= fun pg => pg.toEdgelist) =
      .error .ub := by
  decide +kernel

end CM
